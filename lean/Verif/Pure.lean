import Verif.Dag

/-!
# Systems of pure builders: what a cached artifact stands for

Used for C28 and C29.
-/

open Std

namespace Daab

variable {σ : Sig} {Y : Sys σ} {s : St σ}

/-! ## Specification: pure builders, building from scratch -/

/-- Builder code that only depends on its dynamic state (which it does not change) and on what it
resolves.  It may act on the outside world, but not look at it. -/
def Prog.pure : Prog σ → Prop
  | .ret _ => True
  | .panic => True
  | .resolve _ _ k => ∀ r, (k r).pure
  | .myState f k => (∀ d, f d = d) ∧ ∀ d, (k d).pure
  | .world _ k => (∀ w w', k w = k w') ∧ ∀ w, (k w).pure
  | .alloc _ _ => False
  | .free _ _ => False

/-- All builders are pure, and so are their initial dynamic states. -/
structure PureSys (Y : Sys σ) : Prop where
  code : ∀ b, (Y.code b).pure
  init : ∀ b w w', (Y.init b w).2 = (Y.init b w').2

/-- The dynamic state the next build of `p` will see: the one in the cache, or else the initial one. -/
def stateOf (Y : Sys σ) (s : St σ) (p : Promise σ) : Option σ.S :=
  match s.c.dynStates[p.id]? with
  | some d => some d
  | none => (Y.init p.b s.w).2

/-- What a resolving builder sees of a result, see `seen`. -/
def seenEx (Y : Sys σ) (how : Access) : Except σ.E σ.V → Except σ.E σ.V
  | .ok v => .ok (seen Y how v)
  | .error e => .error e

/-- `ScratchCode Y st R p prog r`: the code `prog` of `p` returns `r` if everything it resolves is
computed from scratch (no cache), each builder `q` having the dynamic state `st q`.  All resolves
on the way are in the relation `R` (from user to used). -/
inductive ScratchCode (Y : Sys σ) (st : Promise σ → Option σ.S) (R : Promise σ → Promise σ → Prop) :
    Promise σ → Prog σ → Except σ.E σ.V → Prop
  | ret {p : Promise σ} {r : Except σ.E σ.V} : ScratchCode Y st R p (.ret r) r
  | resolve {p q : Promise σ} {how : Access} {k : Except σ.E σ.V → Prog σ} {d : σ.S}
      {r1 r : Except σ.E σ.V} : R p q → st q = some d →
      ScratchCode Y st R q (Y.code q.b) r1 → ScratchCode Y st R p (k (seenEx Y how r1)) r →
      ScratchCode Y st R p (.resolve how q k) r
  | myState {p : Promise σ} {f : σ.S → σ.S} {k : σ.S → Prog σ} {d : σ.S} {r : Except σ.E σ.V} :
      st p = some d → ScratchCode Y st R p (k d) r → ScratchCode Y st R p (.myState f k) r
  | world {p : Promise σ} {f : σ.W → σ.W} {k : σ.W → Prog σ} {w : σ.W} {r : Except σ.E σ.V} :
      ScratchCode Y st R p (k w) r → ScratchCode Y st R p (.world f k) r

/-- Building `p` from scratch, recursively building everything it resolves, each builder `q` having the
dynamic state `st q`, returns `r`. -/
def Scratch (Y : Sys σ) (st : Promise σ → Option σ.S) (p : Promise σ) (r : Except σ.E σ.V) : Prop :=
  (∃ d, st p = some d) ∧ ScratchCode Y st (fun _ _ => True) p (Y.code p.b) r

/-! ## Facts about building from scratch -/

theorem ScratchCode.det (hY : PureSys Y) {st : Promise σ → Option σ.S}
    {R R' : Promise σ → Promise σ → Prop}
    {p : Promise σ} {prog : Prog σ} {r r' : Except σ.E σ.V} (hp : prog.pure)
    (h : ScratchCode Y st R p prog r) (h' : ScratchCode Y st R' p prog r') : r = r' := by
  induction h generalizing r' with
  | ret => cases h'; rfl
  | resolve _ _ _ _ ih1 ih2 =>
    cases h' with
    | resolve _ _ h1 h2 =>
      have := ih1 (hY.code _) h1
      subst this
      exact ih2 (hp _) h2
  | myState hd _ ih =>
    cases h' with
    | myState hd' h2 =>
      rw [hd] at hd'
      cases hd'
      exact ih (hp.2 _) h2
  | @world p f k w r _ ih =>
    cases h' with
    | @world _ _ _ w' _ h2 =>
      rw [hp.1 w' w] at h2
      exact ih (hp.2 _) h2

/-- Only the states and relations of the builders reachable from `p` matter. -/
theorem ScratchCode.transport {st st' : Promise σ → Option σ.S} {R R' : Promise σ → Promise σ → Prop}
    {p : Promise σ} {prog : Prog σ} {r : Except σ.E σ.V} (h : ScratchCode Y st R p prog r)
    (hR : ∀ x, Relation.ReflTransGen R p x → st' x = st x ∧ ∀ y, R x y → R' x y) :
    ScratchCode Y st' R' p prog r := by
  induction h with
  | ret => exact .ret
  | @resolve p q how k d r1 r hr hd _ _ ih1 ih2 =>
    refine .resolve (d := d) ((hR _ .refl).2 _ hr) ?_ (ih1 fun x hx => hR x (.head hr hx)) (ih2 hR)
    rw [(hR _ (.single hr)).1]
    exact hd
  | myState hd _ ih => exact .myState (by rw [(hR _ .refl).1]; exact hd) (ih hR)
  | world _ ih => exact .world (ih hR)

theorem ScratchCode.mono {st : Promise σ → Option σ.S} {R R' : Promise σ → Promise σ → Prop}
    {p : Promise σ} {prog : Prog σ} {r : Except σ.E σ.V} (h : ScratchCode Y st R p prog r)
    (hR : ∀ x d, R x d → R' x d) : ScratchCode Y st R' p prog r :=
  h.transport fun x _ => ⟨rfl, hR x⟩

/-- If the code only resolves promises in `L`, and so do these, then only promises in `L` matter. -/
theorem ScratchCode.restrict {st : Promise σ → Option σ.S} {R : Promise σ → Promise σ → Prop}
    {L : Promise σ → Prop} (hL : ∀ x, L x → (Y.code x.b).only L) {p : Promise σ} {prog : Prog σ}
    {r : Except σ.E σ.V} (h : ScratchCode Y st R p prog r) (hp : prog.only L) :
    ScratchCode Y st (fun x y => R x y ∧ L y) p prog r := by
  induction h with
  | ret => exact .ret
  | resolve hr hd _ _ ih1 ih2 => exact .resolve ⟨hr, hp.1⟩ hd (ih1 (hL _ hp.1)) (ih2 (hp.2 _))
  | myState hd _ ih => exact .myState hd (ih (hp _))
  | world _ ih => exact .world (ih (hp _))

/-! ## The invariant -/

/-- `u` is recorded to depend on `d`, which is known. -/
def Linked (c : Cache σ) (u d : Promise σ) : Prop := Dep c u.id d.id ∧ c.known[d.id]? = some d.b

/-- `p` is known, building it from scratch returns `r`, and all dependencies on the way are
recorded. -/
structure Justified (Y : Sys σ) (s : St σ) (p : Promise σ) (r : Except σ.E σ.V) : Prop where
  known : s.c.known[p.id]? = some p.b
  state : ∃ d, stateOf Y s p = some d
  code : ScratchCode Y (stateOf Y s) (Linked s.c) p (Y.code p.b) r

/-- Every cached artifact is what building from scratch would return. -/
def Sound (Y : Sys σ) (s : St σ) : Prop :=
  ∀ (p : Promise σ) v, s.c.known[p.id]? = some p.b → s.c.artifacts[p.id]? = some v →
    Justified Y s p (.ok v)

theorem linked_known {c : Cache σ} {p x : Promise σ} (hk : c.known[p.id]? = some p.b)
    (h : Relation.ReflTransGen (Linked c) p x) : c.known[x.id]? = some x.b := by
  cases h with
  | refl => exact hk
  | tail _ h => exact h.2

theorem linked_dep {c : Cache σ} {p x : Promise σ}
    (h : Relation.ReflTransGen (Linked c) p x) : Relation.ReflTransGen (Dep c) p.id x.id := by
  induction h with
  | refl => exact .refl
  | tail _ h ih => exact ih.tail h.1

theorem Justified.transport {s' : St σ} {p : Promise σ} {r : Except σ.E σ.V} (h : Justified Y s p r)
    (hR : ∀ x, s.c.known[x.id]? = some x.b → Relation.ReflTransGen (Dep s.c) p.id x.id →
      s'.c.known[x.id]? = some x.b ∧ stateOf Y s' x = stateOf Y s x ∧
      ∀ d, Dep s.c x.id d → Dep s'.c x.id d) : Justified Y s' p r := by
  obtain ⟨h1, h2, h3⟩ := hR p h.known .refl
  refine ⟨h1, h2 ▸ h.state, h.code.transport fun x hx => ?_⟩
  obtain ⟨h4, h5, h6⟩ := hR x (linked_known h.known hx) (linked_dep hx)
  refine ⟨h5, fun y hy => ⟨h6 _ hy.1, ?_⟩⟩
  exact (hR y hy.2 ((linked_dep hx).tail hy.1)).1

/-- The builder at the address of `q`, if one is known, is the one of `q`. -/
def Compat (s : St σ) (q : Promise σ) : Prop := ∀ b, s.c.known[q.id]? = some b → b = q.b

theorem compat_known {q : Promise σ} (h : s.c.known[q.id]? = some q.b) : Compat s q := by
  intro b hb; rw [h] at hb; cases hb; rfl

/-- Nothing is lost on the way from `s` to `s'`. -/
structure Grows (Y : Sys σ) (s s' : St σ) : Prop where
  known : ∀ (a : Id) b, s.c.known[a]? = some b → s'.c.known[a]? = some b
  state : ∀ q, Compat s' q → stateOf Y s' q = stateOf Y s q
  dep : ∀ u d, Dep s.c u d → Dep s'.c u d
  heap : s'.heap = s.heap
  back : ∀ (a : Id) b, s'.c.known[a]? = some b → s.c.known[a]? = some b ∨ s.heap[a]? = some b

theorem Grows.refl (s : St σ) : Grows Y s s := ⟨fun _ _ h => h, fun _ _ => rfl, fun _ _ h => h, rfl, fun _ _ h => .inl h⟩

theorem Grows.compat {s' : St σ} (h : Grows Y s s') {q : Promise σ} (hc : Compat s' q) : Compat s q :=
  fun b hb => hc b (h.known _ _ hb)

theorem Grows.trans {s1 s2 : St σ} (h1 : Grows Y s s1) (h2 : Grows Y s1 s2) : Grows Y s s2 :=
  ⟨fun a b h => h2.known a b (h1.known a b h),
    fun q hc => (h2.state q hc).trans (h1.state q (h2.compat hc)),
    fun u d h => h2.dep u d (h1.dep u d h), h2.heap.trans h1.heap, fun a b h => by
      rcases h2.back a b h with h | h
      · exact h1.back a b h
      · rw [h1.heap] at h; exact .inr h⟩

theorem Grows.live {s' : St σ} (h : Grows Y s s') (q : Promise σ) : s'.live q = s.live q := by
  rw [St.live, h.heap]; rfl

theorem Justified.grows {s' : St σ} {p : Promise σ} {r : Except σ.E σ.V} (h : Justified Y s p r)
    (hg : Grows Y s s') : Justified Y s' p r :=
  h.transport fun x hk _ => ⟨hg.known _ _ hk, hg.state x (compat_known (hg.known _ _ hk)),
    fun d => hg.dep _ d⟩

/-- Back to an earlier state, without the links. -/
theorem Justified.scratch {s0 : St σ} {p : Promise σ} {r : Except σ.E σ.V} (h : Justified Y s p r)
    (hg : Grows Y s0 s) : Scratch Y (stateOf Y s0) p r := by
  refine ⟨hg.state p (compat_known h.known) ▸ h.state, h.code.transport fun x hx => ⟨?_, fun _ _ => trivial⟩⟩
  exact (hg.state x (compat_known (linked_known h.known hx))).symm

theorem stateOf_same {s' : St σ} (hY : PureSys Y) (p : Promise σ)
    (h : s'.c.dynStates[p.id]? = s.c.dynStates[p.id]?) : stateOf Y s' p = stateOf Y s p := by
  unfold stateOf
  rw [h]
  cases s.c.dynStates[p.id]? with
  | some d => rfl
  | none => exact hY.init _ _ _

/-- The builder of a cached artifact is known. -/
theorem Inv.art_known (hi : Inv Y s) {a : Id} {v : σ.V} (hv : s.c.artifacts[a]? = some v) :
    ∃ b, s.c.known[a]? = some b :=
  (mem_getElem _ _).1 (hi.dynKnown _ (hi.artDyn _ ((mem_getElem _ _).2 ⟨v, hv⟩)))

/-- No artifact is added. -/
theorem Sound.grows (h : Sound Y s) {s' : St σ} (hi : Inv Y s)
    (hg : Grows Y s s') (ha : s'.c.artifacts = s.c.artifacts) : Sound Y s' := by
  intro p v hk hv
  rw [ha] at hv
  refine (h p v ?_ hv).grows hg
  obtain ⟨b, hb⟩ := hi.art_known hv
  have := hg.known _ _ hb
  rw [hk] at this
  cases this
  exact hb

/-! ## Running pure builders -/

/-- Specification of a getter in a pure system. -/
def GetSound (Y : Sys σ) (g : Getter σ) : Prop := ∀ how q s, Inv Y s → Sound Y s →
  Sound Y (g how q s).1 ∧ Grows Y s (g how q s).1 ∧
  ∀ r, (g how q s).2 = .val r → ∃ r0, r = seenEx Y how r0 ∧ Justified Y (g how q s).1 q r0

theorem tracked_grows {p : Promise σ} (hr : Running Y p s) {q : Promise σ} (hl : s.live q = true) :
    Grows Y s (tracked p q s) := by
  refine ⟨fun a b h => (hr.tracked hl).known_mono a b h, fun x _ => ?_, fun u d h => ?_, rfl, fun a b h => ?_⟩
  · unfold stateOf
    simp only [tracked, St.onCache, addEdge, Cache.emit, makeKnown_dynStates]
  · refine (addEdge_dep _ _ _ _ _).2 (Or.inl ?_)
    simpa [St.onCache, Dep] using h
  · rw [live_iff] at hl
    simp only [tracked, St.onCache, addEdge, Cache.emit, makeKnown_getElem] at h
    grind

theorem runProg_sound (hY : PureSys Y) {g : Getter σ} (hg : GetOk Y g) (hs : GetSound Y g)
    {p : Promise σ} (prog : Prog σ) (hp : prog.pure) (hr : Running Y p s) (h : Sound Y s) :
    Sound Y (runProg Y g p prog s).1 ∧ Grows Y s (runProg Y g p prog s).1 ∧
    ∀ r, (runProg Y g p prog s).2 = .val r →
      ScratchCode Y (stateOf Y (runProg Y g p prog s).1) (Linked (runProg Y g p prog s).1.c) p prog
        r := by
  induction prog generalizing s with
  | ret r =>
    cases r with
    | error e => exact ⟨h, .refl s, by rintro r ⟨⟩; exact .ret⟩
    | ok v =>
      simp only [runProg]
      refine ⟨h, .refl s, ?_⟩
      intro r hr'
      split at hr'
      · cases hr'; exact .ret
      · cases hr'
  | panic => exact ⟨h, .refl s, fun r hr' => by cases hr'⟩
  | resolve how q k ih =>
    cases hl : s.live q with
    | false =>
      rw [runProg_resolve_dead hl]
      exact ⟨h, .refl s, fun r hr' => by cases hr'⟩
    | true =>
      rw [runProg_resolve hr hl]
      have r1 := hr.micros (hr.tracked hl)
      have g1 : Grows Y s (tracked p q s) := tracked_grows hr hl
      have s1 : Sound Y (tracked p q s) := h.grows hr.inv g1
        (by simp only [tracked, St.onCache, addEdge, Cache.emit, makeKnown_artifacts])
      have hdep : Dep (tracked p q s).c p.id q.id := (addEdge_dep _ _ _ _ _).2 (Or.inr ⟨rfl, rfl⟩)
      obtain ⟨s2, g2, hval⟩ := hs how q _ r1.inv s1
      have m2 := (hg.ran how q _ r1.inv).micros
      generalize g how q (tracked p q s) = x at s2 g2 hval m2
      obtain ⟨sx, r⟩ := x
      cases r with
      | val r =>
        obtain ⟨r0, rfl, j⟩ := hval r rfl
        obtain ⟨h1, h2, h3⟩ := ih (seenEx Y how r0) (hp _) (r1.micros m2) s2
        refine ⟨h1, g1.trans (g2.trans h2), fun r hr' => ?_⟩
        have j' := j.grows h2
        obtain ⟨d, hd⟩ := j'.state
        exact .resolve ⟨h2.dep _ _ (g2.dep _ _ hdep), j'.known⟩ hd j'.code (h3 r hr')
      | _ => exact ⟨s2, g1.trans g2, fun r hr' => by cases hr'⟩
  | myState f k ih =>
    obtain ⟨d, hd, ⟨_, e⟩ | ⟨hm, e⟩⟩ := runProg_myState_cases hr g f k
    · rw [e]; exact ⟨h, .refl s, fun r hr' => by cases hr'⟩
    · rw [e]
      have g1 : Grows Y s (wrote p (f d) s) := by
        refine ⟨fun _ _ h => h, fun q _ => ?_, fun u d h => h, rfl, fun _ _ h => .inl h⟩
        apply stateOf_same hY
        simp only [wrote, Cache.emit, hp.1]
        grind
      have r1 := hr.micro hm
      obtain ⟨h1, h2, h3⟩ := ih d (hp.2 d) r1 (h.grows hr.inv g1 rfl)
      refine ⟨h1, g1.trans h2, fun r hr' => .myState (d := d) ?_ (h3 r hr')⟩
      have hk2 : Compat (runProg Y g p (k d) (wrote p (f d) s)).1 p :=
        compat_known (h2.known _ _ r1.known)
      rw [h2.state p hk2, g1.state p (h2.compat hk2)]
      simp [stateOf, hd]
  | world f k ih =>
    have m : Micro Y s { s with w := f s.w } := .world _
    have r1 := hr.micro m
    have g1 : Grows Y s { s with w := f s.w } :=
      ⟨fun _ _ h => h, fun q _ => stateOf_same hY q rfl, fun u d h => h, rfl, fun _ _ h => .inl h⟩
    obtain ⟨h1, h2, h3⟩ := ih s.w (hp.2 s.w) r1 (h.grows hr.inv g1 rfl)
    exact ⟨h1, g1.trans h2, fun r hr' => .world (h3 r hr')⟩
  | alloc q k ih => exact hp.elim
  | free a k ih => exact hp.elim

/-- What `ensure_dyn_state` does in a pure system. -/
theorem ensureDyn_grows (hY : PureSys Y) (hi : Inv Y s) {p : Promise σ} (hl : s.live p = true) :
    Grows Y s (ensureDyn Y p s).1 ∧ (ensureDyn Y p s).1.c.artifacts = s.c.artifacts ∧
    ∀ d, (ensureDyn Y p s).2 = .val d → stateOf Y s p = some d := by
  obtain ⟨r2, k2, a2, d2⟩ := ensureDyn_ran hi hl (Y := Y)
  have hst : ∀ q, q ≠ p → Compat (ensureDyn Y p s).1 q → q.id ≠ p.id := by
    intro q hq hc he
    have := hc p.b (he ▸ k2)
    apply hq
    cases q; cases p; simp only at he this; rw [he, this]
  have hmain : stateOf Y (ensureDyn Y p s).1 p = stateOf Y s p ∧
      (∀ d, (ensureDyn Y p s).2 = .val d → stateOf Y s p = some d) ∧
      ∀ q : Promise σ, q.id ≠ p.id →
        (ensureDyn Y p s).1.c.dynStates[q.id]? = s.c.dynStates[q.id]? := by
    unfold ensureDyn
    simp only [St.onCache, makeKnown_dynStates]
    cases hd : s.c.dynStates[p.id]? with
    | some d =>
      simp only
      refine ⟨?_, ?_, fun q _ => by simp⟩
      · simp [stateOf, hd]
      · intro d' h
        split at h
        · cases h; simp [stateOf, hd]
        · cases h
    | none =>
      simp only
      cases hin : Y.init p.b s.w with
      | mk w o =>
        cases o with
        | none =>
          refine ⟨?_, by rintro d ⟨⟩, fun q _ => by simp [Cache.emit]⟩
          simp only [stateOf, Cache.emit, makeKnown_dynStates, hd]
          exact hY.init _ _ _
        | some d =>
          simp only
          split
          · refine ⟨?_, ?_, fun q hq => ?_⟩
            · simp [stateOf, Cache.emit, hd, hin]
            · rintro d' ⟨⟩
              simp [stateOf, hd, hin]
            · simp only [Cache.emit]; grind
          · refine ⟨?_, (by rintro d ⟨⟩), fun q _ => by simp⟩
            simp [stateOf, hd]
  have hknown : (ensureDyn Y p s).1.c.known = (makeKnown p s.c).known := by
    unfold ensureDyn
    simp only [St.onCache, makeKnown_dynStates]
    cases s.c.dynStates[p.id]? with
    | some d => rfl
    | none =>
      simp only
      cases Y.init p.b s.w with
      | mk w o =>
        cases o with
        | none => rfl
        | some d => simp only; split <;> rfl
  refine ⟨⟨fun a b => r2.micros.known_mono a b, fun q hc => ?_, fun u d => r2.micros.dep_mono u d,
    ensureDyn_heap p s, fun a b h => ?_⟩, a2, hmain.2.1⟩
  rotate_left
  · rw [hknown, makeKnown_getElem] at h
    rw [live_iff] at hl
    grind
  by_cases hq : q = p
  · subst hq; exact hmain.1
  · exact stateOf_same hY q (hmain.2.2 q (hst q hq hc))

theorem getA_sound (hY : PureSys Y) (n : Nat) : GetSound Y (getA Y n) := by
  induction n with
  | zero =>
    intro how p s hi h
    cases hl : s.live p with
    | false => rw [getA_dead _ _ hl]; exact ⟨h, .refl s, fun r hr => by cases hr⟩
    | true =>
      cases ha : s.c.artifacts[p.id]? with
      | some v =>
        rw [getA_hit _ _ hi hl ha]
        refine ⟨h, .refl s, ?_⟩
        rintro r ⟨⟩
        refine ⟨.ok v, rfl, h p v ?_ ha⟩
        obtain ⟨b, hb⟩ := hi.art_known ha
        rw [hi.heapKnown _ _ _ hb (live_iff.1 hl)] at hb
        exact hb
      | none => rw [getA_miss _ _ hi hl ha]; exact ⟨h, .refl s, fun r hr => by cases hr⟩
  | succ n ih =>
    intro how p s hi h
    cases hl : s.live p with
    | false => rw [getA_dead _ _ hl]; exact ⟨h, .refl s, fun r hr => by cases hr⟩
    | true =>
      cases ha : s.c.artifacts[p.id]? with
      | some v =>
        rw [getA_hit _ _ hi hl ha]
        refine ⟨h, .refl s, ?_⟩
        rintro r ⟨⟩
        refine ⟨.ok v, rfl, h p v ?_ ha⟩
        obtain ⟨b, hb⟩ := hi.art_known ha
        rw [hi.heapKnown _ _ _ hb (live_iff.1 hl)] at hb
        exact hb
      | none =>
        rw [getA_miss _ _ hi hl ha]
        simp only [buildN]
        obtain ⟨hg1, ha1, hd1⟩ := ensureDyn_grows hY hi hl
        rcases build_cases (getA Y n) hi hl ha with ⟨s1, e1, e⟩ | ⟨s1, e1, e⟩ | ⟨s1, d, e1, e2⟩
        · rw [e]; rw [e1] at hg1 ha1
          exact ⟨h.grows hi hg1 ha1, hg1, fun r hr => by cases hr⟩
        · rw [e]; rw [e1] at hg1 ha1
          exact ⟨h.grows hi hg1 ha1, hg1, fun r hr => by cases hr⟩
        · rw [e2]
          rw [e1] at hg1 ha1 hd1
          obtain ⟨r1, m1, a1, d1⟩ := ensureDyn_running hi hl ha e1
          have g1 : Grows Y s (entered p s1) := ⟨hg1.known, hg1.state, hg1.dep, hg1.heap, hg1.back⟩
          obtain ⟨h2, g2, hv⟩ := runProg_sound hY (getA_ok Y n).1 ih (Y.code p.b) (hY.code p.b) r1
            (h.grows hi g1 a1)
          have r2 := r1.micros (r1.run (getA_ok Y n).1 (Y.code p.b)).micros
          have g12 := g1.trans g2
          have hst : ∃ d, stateOf Y (runProg Y (getA Y n) p (Y.code p.b) (entered p s1)).1 p =
              some d := ⟨d, by
            rw [g12.state p (compat_known r2.known)]; exact hd1 d rfl⟩
          generalize runProg Y (getA Y n) p (Y.code p.b) (entered p s1) = x at h2 g2 hv r2 g12 hst
          obtain ⟨s2, r⟩ := x
          rcases r with (er | v) | _ | _ | _
          · refine ⟨h2, g12, ?_⟩
            rintro r ⟨⟩
            exact ⟨.error er, rfl, r2.known, hst, hv _ rfl⟩
          · have g3 : Grows Y s2 (finish p (s2, .val (.ok v))).1 :=
              ⟨fun _ _ h => h, fun q _ => stateOf_same hY q rfl, fun _ _ h => h, rfl, fun _ _ h => .inl h⟩
            have j : Justified Y s2 p (.ok v) := ⟨r2.known, hst, hv _ rfl⟩
            refine ⟨?_, g12.trans g3, ?_⟩
            · intro q w hk hw
              by_cases hqp : q.id = p.id
              · have hk2 : s2.c.known[q.id]? = some q.b := hk
                rw [hqp, r2.known] at hk2
                have : q = p := by cases q; cases p; cases hqp; cases hk2; rfl
                subst this
                have : w = v := by
                  simp only [finish, St.onCache] at hw
                  grind
                subst this
                exact j.grows g3
              · rw [finish_artifacts hqp] at hw
                exact (h2 q w hk hw).grows g3
            · rintro r ⟨⟩
              exact ⟨.ok v, rfl, j.grows g3⟩
          · exact ⟨h2, g12, fun r hr => by cases hr⟩
          · exact ⟨h2, g12, fun r hr => by cases hr⟩
          · exact ⟨h2, g12, fun r hr => by cases hr⟩

end Daab
