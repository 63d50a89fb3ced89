import Verif.Props27
import Verif.Preserve
import Verif.DemoUtils

/-!
# C69: the graph of the builders is preserved among their artifacts

`lib.rs` 10-13, 31-35: the purpose of the crate is that "a given DAG dependency structure among the builders shall be properly
preserved among their artifacts", so that "different Builders may depend on same Builder and getting the same Artifact from
the `Cache`" (the example in `lib.rs` 95-195: two `Node`s that contain the same `Rc<Leaf>`).
-/

open Std

namespace Daab

variable {σ : Sig} {Y : Sys σ} {s : St σ} {F : Type}

/-! ## Specification -/

/-- How artifacts contain others, and builders blueprints of others; `F` are the names of the fields.
* `part f v`: the artifact that the field `f` of the artifact `v` contains (the `Rc<Leaf>` in a `Node`), if any,
* `child f b`: the blueprint that the field `f` of the builder `b` contains (the `Blueprint<BuilderLeaf>` in a `BuilderNode`). -/
structure Fields (σ : Sig) (F : Type) where
  part : F → σ.V → Option σ.V
  child : F → σ.B → Option (Promise σ)

/-- The code of the builder `b` fills the fields of the artifact it returns with what `resolve` of the blueprints in the
fields of `b` answered.  `got`: the answers so far. -/
def Prog.assembles (L : Fields σ F) (b : σ.B) : List (Promise σ × σ.V) → Prog σ → Prop
  | got, .ret (.ok v) => ∀ f x, L.part f v = some x → ∃ q, L.child f b = some q ∧ (q, x) ∈ got
  | _, .ret (.error _) => True
  | _, .panic => True
  | got, .resolve .bin q k => (∀ e, (k (.error e)).assembles L b got) ∧ ∀ x, (k (.ok x)).assembles L b ((q, x) :: got)
  | got, .resolve _ _ k => ∀ r, (k r).assembles L b got
  | got, .myState _ k => ∀ d, (k d).assembles L b got
  | got, .world _ k => ∀ w, (k w).assembles L b got
  | got, .alloc _ k => k.assembles L b got
  | got, .free _ k => k.assembles L b got

/-- All builders do so. -/
def Assembling (Y : Sys σ) (L : Fields σ F) : Prop := ∀ b, (Y.code b).assembles L b []

/-- The operation gives no mutable access to an artifact.  (There is none at all for artifacts in `Rc` or `Arc`, for which
`CanRefMut` is not implemented, `canning.rs`, `cache.rs` 395-460, 555-640.) -/
def Op.shares (op : Op σ) : Prop := ∀ p f, op ≠ .getMut p f ∧ op ≠ .lookupMut p f

/-- Following the fields `fs` from an artifact. -/
def Fields.partAlong (L : Fields σ F) : List F → σ.V → Option σ.V
  | [], v => some v
  | f :: fs, v => (L.part f v).bind (L.partAlong fs)

/-- Following the fields `fs` from a builder. -/
def Fields.childAlong (L : Fields σ F) : List F → Promise σ → Option (Promise σ)
  | [], p => some p
  | f :: fs, p => (L.child f p.b).bind (L.childAlong fs)

/-! ## Proofs -/

/-- No artifact was ever written. -/
def Unwritten (s : St σ) : Prop := ∀ a v, Event.write a v ∉ s.c.log

theorem Unwritten.emit (h : Unwritten s) {s' : St σ} (e : Event σ) (he : ∀ a v, e ≠ .write a v) (hl : s'.c.log = e :: s.c.log) :
    Unwritten s' := by
  intro a v hm
  rw [hl] at hm
  rcases List.mem_cons.1 hm with hm | hm
  · exact he a v hm.symm
  · exact h a v hm

theorem Unwritten.same (h : Unwritten s) {s' : St σ} (hl : s'.c.log = s.c.log) : Unwritten s' := by
  intro a v hm; rw [hl] at hm; exact h a v hm

theorem unwritten_init (p : Promise σ) (s : St σ) (h : Unwritten s) : Unwritten (ensureDyn Y p s).1 := by
  have h1 : Unwritten (s.onCache (makeKnown p)) := h.same (makeKnown_log ..)
  unfold ensureDyn
  simp only
  split
  · exact h1
  · split
    · exact h1.emit (.initDyn p none) (by simp) rfl
    · split
      · exact h1.emit _ (by simp) rfl
      · exact h1

theorem unwritten_own (p : Promise σ) (L : Promise σ → Prop) (s s' : St σ) (_ : Running Y p s) (hs : OwnStep Y L p s s')
    (h : Unwritten s) : Unwritten s' := by
  cases hs with
  | track q _ hl => exact (h.same (s' := s.onCache (makeKnown q)) (makeKnown_log ..)).emit (.resolve p q) (by simp) rfl
  | wrote d _ => exact h.emit _ (by simp) rfl
  | world w => exact h
  | alloc q ha => unfold Unwritten; rw [allocB_c ha]; exact h
  | free a => exact h

theorem unwritten_ops (Y : Sys σ) : OpsPreserve Y Unwritten Op.shares := by
  constructor
  · intro n hp p s hi hj hl ha he
    exact build_preserves (p := p) (Prog.only_true _) hp (fun s _ _ h _ => unwritten_init p s h)
      (fun _ _ h => h.emit _ (by simp) rfl) (unwritten_own p _) (fun _ _ _ _ _ _ h => h.emit _ (by simp) rfl) hi hj hl ha he
  · intro p s _ _ h _; exact unwritten_init p s h
  · intro s s' hi hr h
    cases hr with
    | inval p c' hd => exact h.emit (.invalidate p) (by simp) (by simp [Cache.emit, hd.log])
    | purge p c' hd =>
      intro a v hm
      simp only [List.mem_cons, reduceCtorEq, false_or] at hm
      exact h a v hm
    | gc c' l _ hl _ =>
      intro a v hm
      simp only [hl, List.mem_append, List.mem_map, reduceCtorEq, and_false, exists_false, false_or] at hm
      exact h a v hm
    | mutDeps a c' _ _ _ _ _ hl _ => exact h.emit (.mutDeps a) (by simp) hl
    | write p v f hA _ _ =>
      rcases hA with hA | hA
      · exact absurd rfl (hA p f).1
      · exact absurd rfl (hA p f).2
    | clearArtifacts => exact h.emit .clearArtifacts (by simp) rfl
    | clearAll => exact h.emit .clear (by simp) rfl
    | alloc q ha => unfold Unwritten; rw [allocB_c ha]; exact h
    | free a => exact h
    | world f _ => exact h
  · intro p f s d _ _ _ _ _ _ h
    exact h.emit _ (by simp) rfl

theorem unwritten_hooks (Y : Sys σ) (D : Hooks σ) : HooksPreserve Y Unwritten D := by
  refine ⟨?_, fun _ _ h => h⟩
  intro n hp p s hi hj hl ha he
  exact buildH_preserves (p := p) (Prog.only_true _) hp (fun _ _ h => h) (fun s _ _ h _ => unwritten_init p s h)
    (fun _ _ h => h.emit _ (by simp) rfl) (unwritten_own p _) (fun _ _ _ _ _ _ _ h => h.emit _ (by simp) rfl) hi hj hl ha he

/-- Without mutable access no artifact is ever written. -/
theorem ReachableBy.unwritten {H : Hooks σ → Prop} (h : ReachableBy Y Op.shares H s) (a : Id) (v : σ.V) : ¬ Written s a v := by
  have := h.preserved (unwritten_ops Y) (fun D _ => unwritten_hooks Y D) fun w a v hm => by simp [St.new] at hm
  rintro ⟨new, old, e, _⟩
  exact this a v (by rw [e]; simp)

theorem MadeFrom.assembled {L : Fields σ F} {p : Promise σ} {prog : Prog σ} {d d' : σ.S} {r : Except σ.E σ.V} {v : σ.V}
    (hm : MadeFrom Y s p prog d r d') (hr : r = .ok v) {got : List (Promise σ × σ.V)} (hc : prog.assembles L p.b got)
    (hg : ∀ q x, (q, x) ∈ got → UsesNow s p.id q.id ∧ s.c.known[q.id]? = some q.b ∧ Cached s q.id x)
    {f : F} {x : σ.V} (hx : L.part f v = some x) :
    ∃ q, L.child f p.b = some q ∧ UsesNow s p.id q.id ∧ s.c.known[q.id]? = some q.b ∧ Cached s q.id x := by
  induction hm generalizing got with
  | ret =>
    cases hr
    obtain ⟨q, h1, h2⟩ := hc f x hx
    exact ⟨q, h1, hg q x h2⟩
  | @got how q k y d d' r h1 h2 h3 _ ih =>
    cases how with
    | bin =>
      refine ih hr (hc.2 y) fun q' x' hm => ?_
      rcases List.mem_cons.1 hm with e | hm
      · cases e; exact ⟨h1, h2, h3⟩
      · exact hg q' x' hm
    | ref => exact ih hr (hc _) hg
    | cloned => exact ih hr (hc _) hg
  | @failed how q k e d d' r h1 h2 _ ih =>
    cases how with
    | bin => exact ih hr (hc.1 e) hg
    | ref => exact ih hr (hc _) hg
    | cloned => exact ih hr (hc _) hg
  | myState _ ih => exact ih hr (hc _) hg
  | world w _ ih => exact ih hr (hc w) hg
  | alloc _ ih => exact ih hr hc hg
  | free _ ih => exact ih hr hc hg

theorem parts_of_known {rk : σ.B → Nat} (hrk : Ranked Y rk) {L : Fields σ F} (hL : Assembling Y L) (h : Reachable Y s)
    {p : Promise σ} {v : σ.V} (hk : s.c.known[p.id]? = some p.b) (hv : Cached s p.id v) (hw : ¬ Written s p.id v)
    {f : F} {x : σ.V} (hx : L.part f v = some x) :
    ∃ q, L.child f p.b = some q ∧ UsesNow s p.id q.id ∧ s.c.known[q.id]? = some q.b ∧ Cached s q.id x := by
  obtain ⟨d, d', v0, hm, _, hv0⟩ := h.coherent hrk p v hk hv
  have : v0 = v := (hv0.resolve_right hw).symm
  subst this
  exact hm.assembled rfl (hL p.b) (fun _ _ h => by cases h) hx

theorem known_of_live (h : Reachable Y s) {p : Promise σ} {v : σ.V} (hl : s.live p = true) (hv : Cached s p.id v) :
    s.c.known[p.id]? = some p.b := by
  obtain ⟨b, hb⟩ := h.inv.art_known hv
  rw [h.inv.heapKnown _ _ _ hb (live_iff.1 hl)] at hb
  exact hb

theorem paths_of_known {rk : σ.B → Nat} (hrk : Ranked Y rk) {L : Fields σ F} (hL : Assembling Y L) {H : Hooks σ → Prop}
    (h : ReachableBy Y Op.shares H s) {p : Promise σ} {v : σ.V} (hk : s.c.known[p.id]? = some p.b) (hv : Cached s p.id v)
    {fs : List F} {x : σ.V} (hx : L.partAlong fs v = some x) : ∃ q, L.childAlong fs p = some q ∧ Cached s q.id x := by
  induction fs generalizing p v with
  | nil => cases hx; exact ⟨p, rfl, hv⟩
  | cons f fs ih =>
    simp only [Fields.partAlong, Option.bind_eq_some_iff] at hx
    obtain ⟨y, h1, h2⟩ := hx
    obtain ⟨q, e1, _, e3, e4⟩ := parts_of_known hrk hL h.reachable hk hv (h.unwritten _ _) h1
    obtain ⟨q', e5, e6⟩ := ih e3 e4 h2
    exact ⟨q', by simp only [Fields.childAlong, e1, Option.bind_some, e5], e6⟩

theorem reads_known (h : Reachable Y s) {op : Op σ} (ho : op.readsOrBuilds) (n : Nat) (ord : HashOrder) {a : Id} {b : σ.B}
    (hk : s.c.known[a]? = some b) : (step Y n ord s op).1.c.known[a]? = some b := by
  cases op with
  | get how p =>
    cases hl : s.live p with
    | false => simpa [step, Op.promise?, hl] using hk
    | true =>
      rw [step_live rfl hl]
      exact ((getA_ok Y n).1.ran how p s h.inv).micros.known_mono a b hk
  | dynState p =>
    cases hl : s.live p with
    | false => simpa [step, Op.promise?, hl] using hk
    | true =>
      rw [step_live rfl hl]
      exact (ensureDyn_ran h.inv hl).1.micros.known_mono a b hk
  | lookup | getDynState | isKnown =>
    simp only [step, Op.promise?, exec]
    split <;> exact hk
  | numKnown => exact hk
  | _ => exact absurd ho (by simp [Op.readsOrBuilds])

/-! ## Theorems -/

/-- **C69** After any history, what the field `f` of the artifact of `p` contains is the very artifact that is in the cache for
the builder in the field `f` of `p`; and `p` is on record as a user of that builder, which the cache knows (so that it is not
collected, and invalidating it will remove the artifact of `p`). -/
theorem C69_parts {rk : σ.B → Nat} (hrk : Ranked Y rk) {L : Fields σ F} (hL : Assembling Y L) (h : Reachable Y s)
    {p : Promise σ} {v : σ.V} (hl : s.live p = true) (hv : Cached s p.id v) (hw : ¬ Written s p.id v)
    {f : F} {x : σ.V} (hx : L.part f v = some x) :
    ∃ q, L.child f p.b = some q ∧ Cached s q.id x ∧ UsesNow s p.id q.id ∧ s.c.known[q.id]? = some q.b := by
  obtain ⟨q, h1, h2, h3, h4⟩ := parts_of_known hrk hL h (known_of_live h hl hv) hv hw hx
  exact ⟨q, h1, h4, h2, h3⟩

/-- **C69** The graph is preserved: in a program without mutable access to artifacts, following any fields from an artifact in
the cache leads to the artifact, in the cache, of the builder that the same fields lead to. -/
theorem C69_paths {rk : σ.B → Nat} (hrk : Ranked Y rk) {L : Fields σ F} (hL : Assembling Y L) {H : Hooks σ → Prop}
    (h : ReachableBy Y Op.shares H s) {p : Promise σ} {v : σ.V} (hl : s.live p = true) (hv : Cached s p.id v)
    {fs : List F} {x : σ.V} (hx : L.partAlong fs v = some x) : ∃ q, L.childAlong fs p = some q ∧ Cached s q.id x :=
  paths_of_known hrk hL h (known_of_live h.reachable hl hv) hv hx

/-- **C69** In particular, artifacts are shared where builders are: fields that lead to the same builder, from the same or
different builders, lead to the same artifact. -/
theorem C69_shared {rk : σ.B → Nat} (hrk : Ranked Y rk) {L : Fields σ F} (hL : Assembling Y L) {H : Hooks σ → Prop}
    (h : ReachableBy Y Op.shares H s) {p₁ p₂ q : Promise σ} {v₁ v₂ x₁ x₂ : σ.V} {fs₁ fs₂ : List F}
    (l₁ : s.live p₁ = true) (c₁ : Cached s p₁.id v₁) (l₂ : s.live p₂ = true) (c₂ : Cached s p₂.id v₂)
    (q₁ : L.childAlong fs₁ p₁ = some q) (q₂ : L.childAlong fs₂ p₂ = some q)
    (e₁ : L.partAlong fs₁ v₁ = some x₁) (e₂ : L.partAlong fs₂ v₂ = some x₂) : x₁ = x₂ := by
  obtain ⟨q1, g1, k1⟩ := C69_paths hrk hL h l₁ c₁ e₁
  obtain ⟨q2, g2, k2⟩ := C69_paths hrk hL h l₂ c₂ e₂
  rw [q₁] at g1; cases g1
  rw [q₂] at g2; cases g2
  exact Option.some.inj (k1.symm.trans k2)

/-- Some operations that read or build. -/
inductive Reads (Y : Sys σ) (s : St σ) : St σ → Prop
  | refl : Reads Y s s
  | step {s' : St σ} (n : Nat) (ord : HashOrder) (op : Op σ) : Reads Y s s' → op.readsOrBuilds →
      (Daab.step Y n ord s' op).2.goesOn → Reads Y s (Daab.step Y n ord s' op).1

theorem Op.readsOrBuilds.shares {op : Op σ} (h : op.readsOrBuilds) : op.shares := by
  intro p f
  constructor <;> (rintro rfl; exact h)

theorem Reads.spec {H : Hooks σ → Prop} (h : ReachableBy Y Op.shares H s) {s' : St σ} (hr : Reads Y s s') :
    ReachableBy Y Op.shares H s' ∧ (∀ a v, Cached s a v → Cached s' a v) ∧
      ∀ (a : Id) b, s.c.known[a]? = some b → s'.c.known[a]? = some b := by
  induction hr with
  | refl => exact ⟨h, fun _ _ h => h, fun _ _ h => h⟩
  | step n ord op _ ho hg ih =>
    exact ⟨.step n ord op ih.1 ho.shares hg, fun a v hv => C04_artifacts_kept ih.1.reachable ho n ord (ih.2.1 a v hv),
      fun a b hb => reads_known ih.1.reachable ho n ord (ih.2.2 a b hb)⟩

/-- **C69** As the program sees it: it gets `v₁` from `p₁`, does anything that only reads and builds, and gets `v₂` from `p₂`.
Fields that lead to the same builder lead to the same artifact in what it got (`lib.rs` 178). -/
theorem C69_gets {rk : σ.B → Nat} (hrk : Ranked Y rk) {L : Fields σ F} (hL : Assembling Y L) {H : Hooks σ → Prop}
    (h : ReachableBy Y Op.shares H s) {n₁ n₂ : Nat} {o₁ o₂ : HashOrder} {p₁ p₂ q : Promise σ} {s₁ s' s₂ : St σ} {v₁ v₂ x₁ x₂ : σ.V}
    {fs₁ fs₂ : List F} (g₁ : step Y n₁ o₁ s (.get .bin p₁) = (s₁, .val (.art (.ok v₁)))) (hr : Reads Y s₁ s')
    (g₂ : step Y n₂ o₂ s' (.get .bin p₂) = (s₂, .val (.art (.ok v₂))))
    (q₁ : L.childAlong fs₁ p₁ = some q) (q₂ : L.childAlong fs₂ p₂ = some q)
    (e₁ : L.partAlong fs₁ v₁ = some x₁) (e₂ : L.partAlong fs₂ v₂ = some x₂) : x₁ = x₂ := by
  have get : ∀ {s s' : St σ} {n o p} {v : σ.V}, Reachable Y s → step Y n o s (.get .bin p) = (s', .val (.art (.ok v))) →
      Cached s' p.id v ∧ s'.c.known[p.id]? = some p.b := by
    intro s s' n o p v h hg
    rw [← C59_quiet_hooks (D := fun w _ => (w, false)) fun _ _ => rfl] at hg
    rcases stepH_cases (Y := Y) (s := s) (fun w _ => (w, false)) n o (.get .bin p) with ⟨_, e⟩ | e
    · rw [e] at hg
      simp only [execH] at hg
      obtain ⟨_, _, h3⟩ := getAH_coh hrk (fun w _ => (w, false)) n .bin p s h.inv (h.coherent hrk) _ (Nat.lt_succ_self _)
      generalize getAH Y (fun w _ => (w, false)) n .bin p s = y at hg h3
      obtain ⟨s1, r⟩ := y
      cases r <;> simp only [Res.map] at hg <;> cases hg
      obtain ⟨hk, ⟨e, he⟩ | ⟨v, he, hv⟩⟩ := h3 _ rfl
      · cases he
      · cases he; exact ⟨hv, hk⟩
    · rw [e] at hg; cases hg
  obtain ⟨c1, k1⟩ := get h.reachable g₁
  have h1 : ReachableBy Y Op.shares H s₁ := by
    have := ReachableBy.step n₁ o₁ (.get .bin p₁) h (Op.readsOrBuilds.shares (op := .get .bin p₁) trivial) (by rw [g₁]; trivial)
    rwa [g₁] at this
  obtain ⟨h', k', kk⟩ := hr.spec h1
  obtain ⟨c2, k2⟩ := get h'.reachable g₂
  have h2 : ReachableBy Y Op.shares H s₂ := by
    have := ReachableBy.step n₂ o₂ (.get .bin p₂) h' (Op.readsOrBuilds.shares (op := .get .bin p₂) trivial) (by rw [g₂]; trivial)
    rwa [g₂] at this
  have c1' : Cached s₂ p₁.id v₁ ∧ s₂.c.known[p₁.id]? = some p₁.b := by
    have e := C04_artifacts_kept h'.reachable (op := .get .bin p₂) trivial n₂ o₂ (k' _ _ c1)
    have e' := reads_known h'.reachable (op := .get .bin p₂) trivial n₂ o₂ (kk _ _ k1)
    rw [g₂] at e e'
    exact ⟨e, e'⟩
  obtain ⟨q1, y1, z1⟩ := paths_of_known hrk hL h2 c1'.2 c1'.1 e₁
  obtain ⟨q2, y2, z2⟩ := paths_of_known hrk hL h2 k2 c2 e₂
  rw [q₁] at y1; cases y1
  rw [q₂] at y2; cases y2
  exact Option.some.inj (z1.symm.trans z2)

/-! ## Examples -/

namespace Demo28

/-- The artifacts of `lib.rs` 60-130: leafs and nodes, with the number of the allocation. -/
inductive Art
  | leaf (no : Nat)
  | node (no : Nat) (left right : Art)
  deriving DecidableEq

/-- The world counts the allocations. -/
abbrev sig : Sig := ⟨Nat, Art, Unit, Unit, Nat, Unit, inferInstance, inferInstance⟩

def P (b : Nat) : Promise sig := ⟨16 * b, b⟩

/-- A diamond: 3 has the children 1 and 2, both of which have the child 0 (twice), which is a leaf; also 4 has the children
2 and 0. -/
def child : Bool → Nat → Option (Promise sig)
  | _, 1 => some (P 0)
  | _, 2 => some (P 0)
  | false, 3 => some (P 1)
  | true, 3 => some (P 2)
  | false, 4 => some (P 2)
  | true, 4 => some (P 0)
  | _, _ => none

def part : Bool → Art → Option Art
  | false, .node _ l _ => some l
  | true, .node _ _ r => some r
  | _, _ => none

def L : Fields sig Bool := ⟨part, child⟩

/-- Resolve both children, allocate a node. -/
def node (l r : Promise sig) : Prog sig :=
  .resolve .bin l fun x => match x with
    | .error e => .ret (.error e)
    | .ok x => .resolve .bin r fun y => match y with
      | .error e => .ret (.error e)
      | .ok y => .world (· + 1) fun no => .ret (.ok (.node no x y))

def code (b : Nat) : Prog sig :=
  match child false b, child true b with
  | some l, some r => node l r
  | _, _ => .world (· + 1) fun no => .ret (.ok (.leaf no))

def dia : Sys sig where
  code := code
  init _ w := (w, some ())
  vty _ := ()
  sty _ := ()
  artTy _ := ()
  stTy _ := ()
  clone := id
  debug := true

theorem ranked : Ranked dia id := by
  intro b
  match b with
  | 0 => exact fun _ => trivial
  | 1 | 2 | 3 | 4 =>
    refine ⟨by decide, fun r => ?_⟩
    cases r with
    | error e => exact trivial
    | ok v =>
      refine ⟨by decide, fun r => ?_⟩
      cases r with
      | error e => exact trivial
      | ok v => exact fun _ => trivial
  | _ + 5 => exact fun _ => trivial

theorem node_assembles (b : Nat) (l r : Promise sig) (h1 : child false b = some l) (h2 : child true b = some r) :
    (node l r).assembles L b [] := by
  refine ⟨fun e => trivial, fun x => ⟨fun e => trivial, fun y w f z hz => ?_⟩⟩
  cases f with
  | false => cases hz; exact ⟨l, h1, by simp⟩
  | true => cases hz; exact ⟨r, h2, by simp⟩

theorem assembling : Assembling dia L := by
  intro b
  show (code b).assembles L b []
  unfold code
  split
  · next l r h1 h2 => exact node_assembles b l r h1 h2
  · intro w f z hz
    cases f <;> cases hz

/-- 3 is got, 2 is invalidated, the garbage is collected (there is none), 4 is got, 3 is got again. -/
def ops : List (Op sig) :=
  [.alloc (P 0), .alloc (P 1), .alloc (P 2), .alloc (P 3), .alloc (P 4), .get .bin (P 3), .invalidate (P 2), .gc,
    .get .bin (P 4), .get .bin (P 3)]

def sD : St sig := runOps dia 9 Demo.ord ops (St.new 0)

theorem reach : ReachableBy dia Op.shares (fun _ => True) sD := by
  refine ReachableBy.runOps _ (.new (Y := dia) (0 : Nat)) ?_ (by decide +kernel)
  intro op ho
  simp only [ops, List.mem_cons, List.not_mem_nil, or_false] at ho
  intro p f
  rcases ho with rfl | rfl | rfl | rfl | rfl | rfl | rfl | rfl | rfl | rfl <;> exact ⟨nofun, nofun⟩

/-- The artifacts of 3 and 4 at the end: the leaf is the first one, the node of 1 is the old one, the node of 2 the new one. -/
def v3 : Art := .node 6 (.node 1 (.leaf 0) (.leaf 0)) (.node 4 (.leaf 0) (.leaf 0))
def v4 : Art := .node 5 (.node 4 (.leaf 0) (.leaf 0)) (.leaf 0)

theorem cached : Cached sD 48 v3 ∧ Cached sD 64 v4 := by unfold Cached; decide +kernel

/-- The left part of the artifact of 4 is the right part of that of 3, as 2 is the left child of 4 and the right one of 3. -/
example (x y : Art) (hx : L.partAlong [true] v3 = some x) (hy : L.partAlong [false] v4 = some y) : x = y :=
  C69_shared ranked assembling reach (p₁ := P 3) (p₂ := P 4) (q := P 2) (by decide +kernel) cached.1 (by decide +kernel) cached.2
    rfl rfl hx hy

example : L.partAlong [true] v3 = some (.node 4 (.leaf 0) (.leaf 0)) ∧ L.partAlong [false] v4 = some (.node 4 (.leaf 0) (.leaf 0)) :=
  ⟨rfl, rfl⟩

/-- The diamond: left, left and right, right lead to the same leaf, which is the artifact of 0. -/
example : ∃ q, L.childAlong [false, false] (P 3) = some q ∧ Cached sD q.id (.leaf 0) :=
  C69_paths ranked assembling reach (p := P 3) (v := v3) (by decide +kernel) cached.1 (fs := [false, false]) rfl

example : ∃ q, L.child true (P 3).b = some q ∧ Cached sD q.id (.node 4 (.leaf 0) (.leaf 0)) ∧ UsesNow sD 48 q.id ∧
    sD.c.known[q.id]? = some q.b :=
  C69_parts ranked assembling reach.reachable (p := P 3) (by decide +kernel) cached.1 (reach.unwritten _ _) rfl

/-- The artifact in an answer. -/
def artOf : Res (Ans sig) → Option Art
  | .val (.art (.ok v)) => some v
  | _ => none

theorem of_artOf {r : Res (Ans sig)} {v : Art} (h : artOf r = some v) : r = .val (.art (.ok v)) := by
  unfold artOf at h
  split at h
  · cases h; rfl
  · cases h

theorem pair {α β : Type} {r : α × β} {x : β} (h : r.2 = x) : r = (r.1, x) := by rw [← h]

/-- After 2 was invalidated, 4 is got, then 3. -/
example (x y : Art) :
    let s := (step dia 9 Demo.ord sD (.invalidate (P 2))).1
    let r1 := step dia 9 Demo.ord s (.get .bin (P 4))
    let r2 := step dia 9 Demo.ord r1.1 (.get .bin (P 3))
    ∃ v1 v2, r1.2 = .val (.art (.ok v1)) ∧ r2.2 = .val (.art (.ok v2)) ∧
      (L.partAlong [false] v1 = some x → L.partAlong [true] v2 = some y → x = y) := by
  intro s r1 r2
  have hs : ReachableBy dia Op.shares (fun _ => True) s :=
    .step 9 Demo.ord (.invalidate (P 2)) reach (fun _ _ => ⟨nofun, nofun⟩) (by decide +kernel)
  have e1 : r1.2 = .val (.art (.ok (.node 8 (.node 7 (.leaf 0) (.leaf 0)) (.leaf 0)))) := of_artOf (by decide +kernel)
  have e2 : r2.2 = .val (.art (.ok (.node 9 (.node 1 (.leaf 0) (.leaf 0)) (.node 7 (.leaf 0) (.leaf 0))))) :=
    of_artOf (by decide +kernel)
  refine ⟨.node 8 (.node 7 (.leaf 0) (.leaf 0)) (.leaf 0), .node 9 (.node 1 (.leaf 0) (.leaf 0)) (.node 7 (.leaf 0) (.leaf 0)),
    e1, e2, fun hx hy => ?_⟩
  exact C69_gets ranked assembling hs (n₁ := 9) (n₂ := 9) (o₁ := Demo.ord) (o₂ := Demo.ord) (p₁ := P 4) (p₂ := P 3) (q := P 2)
    (pair e1) .refl (pair e2) rfl rfl hx hy

end Demo28

end Daab
