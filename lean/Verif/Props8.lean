import Verif.Leaf

/-!
# Properties C34 (wrapper builders), C35 (leaf utility builders), and C07 for unavoidable uses
-/

open Std

namespace Daab

variable {σ : Sig} {Y : Sys σ} {s : St σ}

theorem live_cached_known (hi : Inv Y s) {p : Promise σ} (hl : s.live p = true) {v : σ.V}
    (hv : s.c.artifacts[p.id]? = some v) : s.c.known[p.id]? = some p.b := by
  obtain ⟨b, hb⟩ := hi.art_known hv
  rwa [hi.heapKnown _ _ _ hb (live_iff.1 hl)] at hb

/-! ## Unavoidable uses -/

/-- **C07** If the code of `p` cannot return without resolving a promise in `C`, then, whenever the
cache holds an artifact of `p`, it also has on record that `p` uses one of `C`. -/
theorem C07_unavoidable_use_on_record (h : Reachable Y s) {p : Promise σ} (hl : s.live p = true)
    {C : Promise σ → Prop} (hd : (Y.code p.b).demands C) {v : σ.V} (hv : Cached s p.id v) :
    ∃ q, C q ∧ UsesNow s p.id q.id := by
  obtain ⟨q, hq, hqd⟩ := h.demandsKept p C (live_cached_known h.inv hl hv) ((mem_getElem _ _).2 ⟨v, hv⟩) hd
  exact ⟨q, hq, (usesNow_iff _ _ _).2 hqd⟩

/-- **C07** So, if the code of `p` cannot return without resolving `q`, then invalidating `q` always
leaves `p` uncached. -/
theorem C07_unavoidable_invalidated (h : Reachable Y s) {p q : Promise σ} (hl : s.live p = true)
    (hq : s.live q = true) (hd : (Y.code p.b).demands (· = q)) (n : Nat) (ord : HashOrder) :
    Uncached (step Y n ord s (.invalidate q)).1 p.id := by
  obtain ⟨c', he, hdr⟩ := step_invalidate h hq n ord
  rw [he]
  by_cases hh : Hit (Dep s.c) q.id p.id
  · exact hdr.art_none _ hh
  · have hk := hdr.art_keep _ hh
    cases ha : s.c.artifacts[p.id]? with
    | none => rw [ha] at hk; exact hk
    | some v =>
      obtain ⟨_, rfl, hu⟩ := C07_unavoidable_use_on_record h hl hd ha
      exact absurd (.single ((usesNow_iff _ _ _).1 hu)) hh

/-! ## C34 -/

/-- An answer as it is passed on to a caller using the accessor `how`. -/
def passOn (Y : Sys σ) (how : Access) : Res (Ans σ) → Res (Ans σ)
  | .val (.art r) => .val (.art (seenEx Y how r))
  | x => x

theorem step_get (n : Nat) (ord : HashOrder) (how : Access) {p : Promise σ} (hl : s.live p = true) :
    step Y n ord s (.get how p) = ((getA Y n how p s).1, (getA Y n how p s).2.map .art) := by
  rw [step_live rfl hl]
  rfl

theorem seenRes_map (how : Access) (r : Res (Except σ.E σ.V)) :
    (seenRes Y how r).map Ans.art = passOn Y how (r.map Ans.art) := by
  rcases r with (_ | _) | _ | _ | _ <;> rfl

/-- What a build that resolves `q` and returns `f` of the answer results in. -/
theorem wrapper_result (hi : Inv Y s) {p q : Promise σ} (hl : s.live p = true) (hq : s.live q = true)
    (hu : s.c.artifacts[p.id]? = none) {d : σ.S} (hd : StartsWith Y p d) {how' : Access}
    {f : Except σ.E σ.V → Except σ.E σ.V} (hc : Y.code p.b = .resolve how' q fun r => .ret (f r))
    (hty : ∀ v w, Y.artTy v = Y.vty q.b → f (.ok (seen Y how' v)) = .ok w → Y.artTy w = Y.vty p.b)
    (hfe : ∀ e, ∃ e', f (.error e) = .error e') (n : Nat) :
    ∃ s1, Asked Y s s1 p q ∧ Running Y p s1 ∧ s1.live q = true ∧
      (∀ r, (getA Y n how' q s1).2 = .val r → (buildN Y (n + 1) p s).2 = .val (f r)) ∧
      ((∀ r, (getA Y n how' q s1).2 ≠ .val r) → (buildN Y (n + 1) p s).2 = (getA Y n how' q s1).2) ∧
      ∀ r w, (getA Y n how' q s1).2 = .val r → f r = .ok w →
        (buildN Y (n + 1) p s).1.c.artifacts =
          (getA Y n how' q s1).1.c.artifacts.insert p.id w := by
  obtain ⟨s1, hask, hr, hq1, e⟩ := build_asks n hi hl hq hu hd hc
  refine ⟨s1, hask, hr, hq1, ?_⟩
  rw [e]
  have hok := fun v => getA_ty (v := v) (n := n) (how := how') (q := q) hr.inv
  generalize getA Y n how' q s1 = x at hok
  obtain ⟨s2, r⟩ := x
  cases r with
  | val r =>
    have hrun : runProg Y (getA Y n) p (.ret (f r)) s2 = (s2, .val (f r)) := by
      cases hfr : f r with
      | error e => rfl
      | ok w =>
        cases r with
        | error e =>
          obtain ⟨e', he'⟩ := hfe e
          rw [he'] at hfr
          cases hfr
        | ok v =>
          obtain ⟨v0, _, rfl, ht⟩ := hok _ rfl
          simp [runProg, hty v0 w ht hfr]
    refine ⟨?_, fun hne => absurd rfl (hne r), ?_⟩
    · intro r' h
      cases h
      rw [finish_res]
      simp only [andThen, hrun]
    · intro r' w h hw
      cases h
      rw [hw] at hrun
      simp only [andThen, hw, hrun, finish, St.onCache, Cache.emit]
  | panic k => exact ⟨fun _ h => (by cases h), fun _ => rfl, fun _ _ h => (by cases h)⟩
  | stuck => exact ⟨fun _ h => (by cases h), fun _ => rfl, fun _ _ h => (by cases h)⟩
  | overflow => exact ⟨fun _ h => (by cases h), fun _ => rfl, fun _ _ h => (by cases h)⟩

/-- The answer of a wrapper in terms of the answer for the wrapped builder. -/
theorem wrapper_answer (hi : Inv Y s) {p q : Promise σ} (hl : s.live p = true) (hq : s.live q = true)
    (hu : s.c.artifacts[p.id]? = none) {d : σ.S} (hd : StartsWith Y p d) {how' : Access}
    {f : Except σ.E σ.V → Except σ.E σ.V} (hc : Y.code p.b = .resolve how' q fun r => .ret (f r))
    (hty : ∀ v w, Y.artTy v = Y.vty q.b → f (.ok (seen Y how' v)) = .ok w → Y.artTy w = Y.vty p.b)
    (hfe : ∀ e, ∃ e', f (.error e) = .error e') (n : Nat) (ord : HashOrder) (how : Access) :
    ∃ s1, Asked Y s s1 p q ∧
      (∀ r, (step Y n ord s1 (.get how' q)).2 = .val (.art r) →
        (step Y (n + 1) ord s (.get how p)).2 = .val (.art (seenEx Y how (f r)))) ∧
      ((∀ r, (step Y n ord s1 (.get how' q)).2 ≠ .val (.art r)) →
        (step Y (n + 1) ord s (.get how p)).2 = (step Y n ord s1 (.get how' q)).2) ∧
      ∀ r w, (step Y n ord s1 (.get how' q)).2 = .val (.art r) → f r = .ok w →
        Cached (step Y (n + 1) ord s (.get how p)).1 p.id w ∧
        ∀ a v, a ≠ p.id → (Cached (step Y (n + 1) ord s (.get how p)).1 a v ↔
          Cached (step Y n ord s1 (.get how' q)).1 a v) := by
  obtain ⟨s1, hask, hr, hq1, h1, h2, h3⟩ := wrapper_result hi hl hq hu hd hc hty hfe n
  refine ⟨s1, hask, ?_⟩
  rw [step_get (n + 1) ord how hl, step_get n ord how' hq1, getA_miss (n + 1) how hi hl hu]
  simp only [seenRes_map]
  generalize getA Y n how' q s1 = x at h1 h2 h3
  obtain ⟨s2, r⟩ := x
  simp only at h1 h2 h3 ⊢
  cases r with
  | val r =>
    refine ⟨?_, fun hne => absurd rfl (hne r), ?_⟩
    · intro r' h
      cases h
      rw [h1 r rfl]; rfl
    · intro r' w h hw
      cases h
      have := h3 r w rfl hw
      unfold Cached
      simp only [this]
      grind
  | panic k => exact ⟨fun _ h => (by cases h), fun _ => by rw [h2 (by simp)]; rfl, fun _ _ h => (by cases h)⟩
  | stuck => exact ⟨fun _ h => (by cases h), fun _ => by rw [h2 (by simp)]; rfl, fun _ _ h => (by cases h)⟩
  | overflow => exact ⟨fun _ h => (by cases h), fun _ => by rw [h2 (by simp)]; rfl, fun _ _ h => (by cases h)⟩

/-- **C34** A `ForwardingBuilder` that has no artifact yet answers exactly what its inner builder
answers when it is asked: the artifact, the error, or the panic. -/
theorem C34_forwarding (h : Reachable Y s) {p q : Promise σ} (hf : Forwarding Y p q)
    (hl : s.live p = true) (hq : s.live q = true) (hu : Uncached s p.id) (n : Nat) (ord : HashOrder)
    (how : Access) :
    ∃ s1, Asked Y s s1 p q ∧
      (step Y (n + 1) ord s (.get how p)).2 = passOn Y how (step Y n ord s1 (.get .bin q)).2 := by
  obtain ⟨d, hd⟩ := hf.init
  obtain ⟨s1, hask, h1, h2, _⟩ := wrapper_answer (f := id) h.inv hl hq hu hd hf.code
    (by rintro v w ht ⟨⟩; rw [hf.ty]; exact ht) (fun e => ⟨e, rfl⟩) n ord how
  refine ⟨s1, hask, ?_⟩
  generalize (step Y n ord s1 (.get .bin q)).2 = x at h1 h2
  cases x with
  | val a =>
    cases a with
    | art r => exact h1 r rfl
    | _ => exact h2 (by simp)
  | _ => exact h2 (by simp)

/-- **C34** The same for `FeigningBuilder`. -/
theorem C34_feigning (h : Reachable Y s) {p q : Promise σ} (hf : Feigning Y p q)
    (hl : s.live p = true) (hq : s.live q = true) (hu : Uncached s p.id) (n : Nat) (ord : HashOrder)
    (how : Access) :
    ∃ s1, Asked Y s s1 p q ∧
      (step Y (n + 1) ord s (.get how p)).2 = passOn Y how (step Y n ord s1 (.get .bin q)).2 := by
  obtain ⟨d, hd⟩ := hf.init
  obtain ⟨s1, hask, h1, h2, _⟩ := wrapper_answer h.inv hl hq hu hd hf.code
    (by rintro v w ht ⟨⟩; rw [hf.ty]; exact ht) (fun e => ⟨e, rfl⟩) n ord how
  refine ⟨s1, hask, ?_⟩
  generalize (step Y n ord s1 (.get .bin q)).2 = x at h1 h2
  cases x with
  | val a =>
    cases a with
    | art r => cases r <;> exact h1 _ rfl
    | _ => exact h2 (by simp)
  | _ => exact h2 (by simp)

/-- **C34** After `get(p)` of a `ForwardingBuilder` or `FeigningBuilder` without artifact returned an
artifact, the cache holds one and the same `Bin` for it and for its inner builder, and the answer is
that one. -/
theorem C34_same_bin (h : Reachable Y s) {p q : Promise σ} (hf : Forwarding Y p q ∨ Feigning Y p q)
    (hl : s.live p = true) (hq : s.live q = true) (hu : Uncached s p.id) {n : Nat} {ord : HashOrder}
    {how : Access} {w : σ.V} (hw : (step Y n ord s (.get how p)).2 = .val (.art (.ok w))) :
    ∃ v, w = seen Y how v ∧ Cached (step Y n ord s (.get how p)).1 p.id v ∧
      Cached (step Y n ord s (.get how p)).1 q.id v := by
  cases n with
  | zero =>
    rw [step_get 0 ord how hl, getA_miss 0 how h.inv hl hu] at hw
    cases hw
  | succ n =>
    have key : ∃ s1, Running Y p s1 ∧ s1.live q = true ∧
        (∀ r, (getA Y n .bin q s1).2 = .val r → (buildN Y (n + 1) p s).2 = .val r) ∧
        ((∀ r, (getA Y n .bin q s1).2 ≠ .val r) → (buildN Y (n + 1) p s).2 = (getA Y n .bin q s1).2) ∧
        ∀ w, (getA Y n .bin q s1).2 = .val (.ok w) →
        (buildN Y (n + 1) p s).1.c.artifacts =
          (getA Y n .bin q s1).1.c.artifacts.insert p.id w := by
      rcases hf with hf | hf
      · obtain ⟨d, hd⟩ := hf.init
        obtain ⟨s1, _, hr, hq1, h1, h2, h3⟩ := wrapper_result (f := id) h.inv hl hq hu hd hf.code
          (by rintro v w ht ⟨⟩; rw [hf.ty]; exact ht) (fun e => ⟨e, rfl⟩) n
        exact ⟨s1, hr, hq1, h1, h2, fun w hw => h3 _ w hw rfl⟩
      · obtain ⟨d, hd⟩ := hf.init
        obtain ⟨s1, _, hr, hq1, h1, h2, h3⟩ := wrapper_result h.inv hl hq hu hd hf.code
          (by rintro v w ht ⟨⟩; rw [hf.ty]; exact ht) (fun e => ⟨e, rfl⟩) n
        refine ⟨s1, hr, hq1, ?_, h2, fun w hw => h3 _ w hw rfl⟩
        intro r hr
        rw [h1 r hr]
        cases r <;> rfl
    obtain ⟨s1, hr, hq1, h1, h2, h3⟩ := key
    have hty := fun v => getA_ty (v := v) (n := n) (how := .bin) (q := q) hr.inv
    rw [step_get (n + 1) ord how hl, getA_miss (n + 1) how h.inv hl hu] at hw ⊢
    simp only [seenRes_map] at hw ⊢
    generalize getA Y n .bin q s1 = x at h1 h2 h3 hty
    obtain ⟨s2, r⟩ := x
    simp only at h1 h2 h3 hty
    cases r with
    | val r =>
      rw [h1 r rfl] at hw
      cases r with
      | error e => cases hw
      | ok v =>
        cases hw
        obtain ⟨v0, hv0, hv, _⟩ := hty _ rfl
        have h3 := h3 _ rfl
        simp only [seen] at hv
        subst hv
        refine ⟨v, rfl, ?_, ?_⟩
        · unfold Cached
          rw [h3]
          simp
        · unfold Cached
          rw [h3]
          grind
    | panic k => rw [h2 (by simp)] at hw; cases hw
    | stuck => rw [h2 (by simp)] at hw; cases hw
    | overflow => rw [h2 (by simp)] at hw; cases hw

/-- **C34** A `ClonedBuilder` that has no artifact yet answers a re-binned clone of what its inner
builder answers, and passes on errors and panics. -/
theorem C34_cloned (h : Reachable Y s) {p q : Promise σ} {intoBin : σ.V → σ.V}
    (hf : Cloning Y intoBin p q)
    (hl : s.live p = true) (hq : s.live q = true) (hu : Uncached s p.id) (n : Nat) (ord : HashOrder)
    (how : Access) :
    ∃ s1, Asked Y s s1 p q ∧
      match (step Y n ord s1 (.get .cloned q)).2 with
      | .val (.art (.ok c)) =>
        (step Y (n + 1) ord s (.get how p)).2 = .val (.art (.ok (seen Y how (intoBin c)))) ∧
        Cached (step Y (n + 1) ord s (.get how p)).1 p.id (intoBin c)
      | x => (step Y (n + 1) ord s (.get how p)).2 = x := by
  obtain ⟨d, hd⟩ := hf.init
  obtain ⟨s1, hask, h1, h2, h3⟩ := wrapper_answer h.inv hl hq hu hd hf.code
    (by rintro v w ht ⟨⟩; exact hf.ty v ht) (fun e => ⟨e, rfl⟩) n ord how
  refine ⟨s1, hask, ?_⟩
  generalize step Y n ord s1 (.get .cloned q) = x at h1 h2 h3
  obtain ⟨s2, x⟩ := x
  cases x with
  | val a =>
    cases a with
    | art r =>
      cases r with
      | error e => exact h1 _ rfl
      | ok c => exact ⟨h1 _ rfl, (h3 _ _ rfl rfl).1⟩
    | _ => exact h2 (by simp)
  | _ => exact h2 (by simp)

/-- `p` is one of the wrapper builders of `src/utils.rs` around `q`. -/
def Wraps (Y : Sys σ) (p q : Promise σ) : Prop :=
  Forwarding Y p q ∨ Feigning Y p q ∨ (∃ intoBin, Cloning Y intoBin p q) ∨
    ∃ enc dec dflt, Redeeming Y enc dec dflt p q

theorem Wraps.demands {p q : Promise σ} (h : Wraps Y p q) : (Y.code p.b).demands (· = q) := by
  rcases h with h | h | ⟨_, h⟩ | ⟨_, _, _, h⟩ <;> rw [h.code] <;> exact Or.inl rfl

/-- **C34** A wrapper builder is always invalidated together with its inner builder. -/
theorem C34_invalidated_with_inner (h : Reachable Y s) {p q : Promise σ} (hw : Wraps Y p q)
    (hl : s.live p = true) (hq : s.live q = true) (n : Nat) (ord : HashOrder) :
    Uncached (step Y n ord s (.invalidate q)).1 p.id :=
  C07_unavoidable_invalidated h hl hq hw.demands n ord

/-! ## C35 -/

/-- **C35** (and C05) The uses on record are only uses the builder's code can make: if the code of `p`
only ever resolves promises in `L`, then every use of `p` on record is of one of them. -/
theorem C35_uses_possible (h : Reachable Y s) {p : Promise σ} (hl : s.live p = true)
    {L : Promise σ → Prop} (ho : (Y.code p.b).only L) {d : Id} (hu : UsesNow s p.id d) :
    ∃ q, L q ∧ q.id = d := by
  rw [usesNow_iff] at hu
  obtain ⟨b, hb⟩ := (mem_getElem _ _).1 (h.inv.depU _ _ hu)
  rw [h.inv.heapKnown _ _ _ hb (live_iff.1 hl)] at hb
  exact h.onlyUses ho hb d hu

/-- `p` is one of the leaf builders of `src/utils.rs`. -/
def IsLeaf (Y : Sys σ) (p : Promise σ) : Prop :=
  (∃ v, Constant Y v p) ∨ (∃ intoBin d, Configurable Y intoBin d p) ∨ ∃ f d, Functional Y f d p

/-- **C35** A `ConstBuilder`, `ConfigurableBuilder` or `FunctionalBuilder` never depends on another
builder. -/
theorem C35_leaf_uses_nothing (h : Reachable Y s) {p : Promise σ} (hl : s.live p = true)
    (hp : IsLeaf Y p) (d : Id) : ¬ UsesNow s p.id d := by
  intro hu
  have ho : (Y.code p.b).only fun _ => False := by
    rcases hp with ⟨v, h⟩ | ⟨i, d, h⟩ | ⟨f, d, h⟩
    · rw [h.code]; trivial
    · rw [h.code]; exact fun _ => trivial
    · rw [h.code]
      intro d w _
      cases (f d w).2.2 <;> trivial
  obtain ⟨_, h, _⟩ := C35_uses_possible h hl ho hu
  exact h

/-- Any operation but mutable access to the artifact of `p`. -/
def NotMutating (p : Promise σ) (op : Op σ) : Prop :=
  ∀ q f, op = .getMut q f ∨ op = .lookupMut q f → q.id ≠ p.id

/-- What a build of a `ConstBuilder` does. -/
theorem const_build (hi : Inv Y s) {p : Promise σ} {v : σ.V} (hc : Constant Y v p)
    (hl : s.live p = true) (ha : s.c.artifacts[p.id]? = none) (n : Nat) :
    (buildN Y (n + 1) p s).2 = .val (.ok v) ∧
    (buildN Y (n + 1) p s).1.c.artifacts = s.c.artifacts.insert p.id v := by
  obtain ⟨d, hd⟩ := hc.init
  obtain ⟨s1, hr, h1, h2, h3, h4, h5, h6, _, h8, e⟩ := build_starts n hi hl ha hd
  rw [e, hc.code]
  have : runProg Y (getA Y n) p (constCode v) s1 = (s1, .val (.ok v)) := by
    simp [constCode, runProg, hc.ty]
  rw [this]
  simp [finish, St.onCache, Cache.emit, h1]

/-- What a build of a builder whose code calls no hooks does with hooks. -/
theorem leaf_buildH (hi : Inv Y s) (D : Hooks σ) {p : Promise σ} {F : σ.S → σ.V}
    (hl : s.live p = true) (ha : s.c.artifacts[p.id]? = none) (n : Nat)
    (hrun : ∀ s2, Running Y p s2 → (∃ d, s2.c.dynStates[p.id]? = some d ∧
        runProgH Y D (getAH Y D n) p (Y.code p.b) s2 = (wrote p d s2, .val (.ok (F d)))) ∨
        ∃ v, runProgH Y D (getAH Y D n) p (Y.code p.b) s2 = (s2, .val (.ok v)) ∧ ∀ d, v = F d) :
    IsFn p F (buildH Y D (getAH Y D n) p s).1 := by
  have hno : ∀ {s' : St σ}, s'.c.artifacts = s.c.artifacts → IsFn p F s' := by
    intro s' h _ v d hv
    rw [h, ha] at hv
    cases hv
  have ha1 := (ensureDyn_same (Y := Y) p s).1
  rcases buildH_cases D (getAH Y D n) hi hl ha with ⟨s1, e1, e2⟩ | ⟨s1, e1, e2⟩ | ⟨s1, d, e1, e2⟩
  · rw [e2]; rw [e1] at ha1; exact hno ha1
  · rw [e2]; rw [e1] at ha1; exact hno ha1
  · rw [e1] at ha1
    rw [e2]
    obtain ⟨hr, _, _, _⟩ := ensureDyn_running hi hl ha e1
    obtain ⟨w, e | e⟩ := callHook_cases D (.handle p) s1 fun s =>
      finishH D p (runProgH Y D (getAH Y D n) p (Y.code p.b) (entered p s))
    · rw [e]; exact hno ha1
    rw [e]
    replace hr : Running Y p (entered p { s1 with w := w }) := hr.micro (.world w)
    have ha2 : (entered p { s1 with w := w }).c.artifacts = s.c.artifacts := ha1
    generalize entered p { s1 with w := w } = s2 at hr ha2
    have key : ∃ s3 v, runProgH Y D (getAH Y D n) p (Y.code p.b) s2 = (s3, .val (.ok v)) ∧
        s3.c.artifacts = s.c.artifacts ∧ ∀ d, s3.c.dynStates[p.id]? = some d → v = F d := by
      rcases hrun s2 hr with ⟨d, hd, e⟩ | ⟨v, e, hv⟩
      · refine ⟨_, _, e, ha2, fun d' hd' => ?_⟩
        simp only [wrote, Cache.emit] at hd'
        have : d' = d := by grind
        rw [this]
      · exact ⟨_, _, e, ha2, fun d _ => hv d⟩
    obtain ⟨s3, v, e, ha3, hF⟩ := key
    rw [e]
    simp only [finishH]
    obtain ⟨w', e | e⟩ := callHook_cases D (.report (.built p v)) s3 (storeH D p v)
    · rw [e]; exact hno ha3
    · obtain ⟨w2, _, e1, _⟩ := storeH_finish D p v { s3 with w := w' }
      rw [e, e1]
      intro _ v' d hv' hd
      simp only [finish, St.onCache, Cache.emit] at hv' hd
      have : v' = v := by grind
      rw [this]
      exact hF d hd

/-- **C35** A `ConstBuilder` always yields the given `Bin`, after whatever operations (but mutable access to its
own artifact) and with whatever doctors, `Debug` and `Clone` implementations, panicking or not. -/
theorem C35_const {p : Promise σ} {v : σ.V} (h : ReachableBy Y (NotMutating p) (fun _ => True) s)
    (hc : Constant Y v p) (hl : s.live p = true) (n : Nat) (ord : HashOrder) (how : Access) :
    (step Y (n + 1) ord s (.get how p)).2 = .val (.art (.ok (seen Y how v))) := by
  have hi := h.reachable.inv
  have hfn : IsFn p (fun _ => v) s := by
    refine h.preserved (isFn_ops p _ ?_) (fun D _ => isFn_hooks p _ ?_ D) fun w hk => ?_
    · intro n s hi hl ha _ w d hw _
      have := (const_build hi hc hl ha n).2
      simp only [buildN] at this
      rw [this] at hw
      grind
    · intro D n s hi hl ha
      refine leaf_buildH hi D hl ha n fun s2 _ => .inr ⟨v, ?_, fun _ => rfl⟩
      rw [hc.code]
      simp [constCode, runProgH, hc.ty]
    · simp [St.new] at hk
  rw [step_get (n + 1) ord how hl]
  cases ha : s.c.artifacts[p.id]? with
  | some w =>
    rw [getA_hit (n + 1) how hi hl ha]
    obtain ⟨d, hd⟩ := (mem_getElem _ _).1 (hi.artDyn _ ((mem_getElem _ _).2 ⟨w, ha⟩))
    rw [hfn (live_cached_known hi hl ha) w d ha hd]
    rfl
  | none =>
    rw [getA_miss (n + 1) how hi hl ha, (const_build hi hc hl ha n).1]
    rfl

/-- What a build of a `ConfigurableBuilder` does. -/
theorem configurable_build (hi : Inv Y s) {p : Promise σ} {intoBin : σ.S → σ.V} {d0 : σ.S}
    (hc : Configurable Y intoBin d0 p) (hl : s.live p = true) (ha : s.c.artifacts[p.id]? = none)
    (n : Nat) :
    ∃ d, stateOf Y s p = some d ∧ (buildN Y (n + 1) p s).2 = .val (.ok (intoBin d)) ∧
    (buildN Y (n + 1) p s).1.c.artifacts = s.c.artifacts.insert p.id (intoBin d) ∧
    (buildN Y (n + 1) p s).1.c.dynStates[p.id]? = some d := by
  obtain ⟨s1, hr, h1, h2, h3, h4, h5, h6, _, h8, e⟩ := build_starts n hi hl ha hc.init
  obtain ⟨d, hd⟩ := Option.isSome_iff_exists.1 h8
  refine ⟨d, hd, ?_⟩
  rw [e, hc.code]
  have h4' : s1.c.dynStates[p.id]? = some d := by rw [h4, hd]
  have ht := hr.inv.dynTy _ _ _ h4' hr.known
  have hres : runProg Y (getA Y n) p (configurableCode intoBin) s1 =
      (wrote p d s1, .val (.ok (intoBin d))) := by
    obtain ⟨d', hd', ht', he⟩ := hr.myState_eq id
    rw [h4'] at hd'
    cases hd'
    rw [configurableCode, runProg_myState, he, if_pos (by simpa using ht)]
    simp only [andThen, runProg, hc.ty d ht, if_true, id, wrote]
  rw [hres]
  simp [finish, St.onCache, Cache.emit, h1, wrote]

/-- **C35** A `ConfigurableBuilder` always yields its current dynamic state, whatever the doctors, `Debug` and
`Clone` implementations do. -/
theorem C35_configurable {p : Promise σ} {intoBin : σ.S → σ.V} {d0 : σ.S}
    (h : ReachableBy Y (NotMutating p) (fun _ => True) s) (hc : Configurable Y intoBin d0 p) (hl : s.live p = true)
    (n : Nat) (ord : HashOrder) (how : Access) :
    ∃ d, stateOf Y s p = some d ∧
      (step Y (n + 1) ord s (.get how p)).2 = .val (.art (.ok (seen Y how (intoBin d)))) := by
  have hi := h.reachable.inv
  have hfn : IsFn p intoBin s := by
    refine h.preserved (isFn_ops p _ ?_) (fun D _ => isFn_hooks p _ ?_ D) fun w hk => ?_
    · intro n s hi hl ha _ w d hw hdd
      obtain ⟨d', _, _, h1, h2⟩ := configurable_build hi hc hl ha n
      simp only [buildN] at h1 h2
      rw [h1] at hw
      rw [h2] at hdd
      grind
    · intro D n s hi hl ha
      refine leaf_buildH hi D hl ha n fun s2 hr => .inl ?_
      obtain ⟨d, hd, ht, he⟩ := hr.myState_eq id
      refine ⟨d, hd, ?_⟩
      rw [hc.code, configurableCode, runProgH_myState, he, if_pos (by simpa using ht)]
      simp only [andThen, runProgH, hc.ty d ht, if_true, id, wrote]
    · simp [St.new] at hk
  rw [step_get (n + 1) ord how hl]
  cases ha : s.c.artifacts[p.id]? with
  | some w =>
    rw [getA_hit (n + 1) how hi hl ha]
    obtain ⟨d, hd⟩ := (mem_getElem _ _).1 (hi.artDyn _ ((mem_getElem _ _).2 ⟨w, ha⟩))
    refine ⟨d, by simp [stateOf, hd], ?_⟩
    rw [hfn (live_cached_known hi hl ha) w d ha hd]
    rfl
  | none =>
    obtain ⟨d, hd, h1, _⟩ := configurable_build hi hc hl ha n
    refine ⟨d, hd, ?_⟩
    rw [getA_miss (n + 1) how hi hl ha, h1]
    rfl

/-- **C35** What was last written through `dyn_state_mut` is what a `ConfigurableBuilder` yields. -/
theorem C35_configurable_set {p : Promise σ} {intoBin : σ.S → σ.V} {d0 : σ.S}
    (h : ReachableBy Y (NotMutating p) (fun _ => True) s) (hc : Configurable Y intoBin d0 p) (hl : s.live p = true)
    {f : σ.S → σ.S} {d : σ.S} {n : Nat} {ord : HashOrder}
    (hset : (step Y n ord s (.dynStateMut p f)).2 = .val (.state d)) (m : Nat) (ord' : HashOrder)
    (how : Access) :
    (step Y (m + 1) ord' (step Y n ord s (.dynStateMut p f)).1 (.get how p)).2 =
      .val (.art (.ok (seen Y how (intoBin (f d))))) := by
  have h2 : ReachableBy Y (NotMutating p) (fun _ => True) (step Y n ord s (.dynStateMut p f)).1 :=
    .step n ord _ h (by rintro q g (h | h) <;> cases h) (by rw [hset]; trivial)
  have hst : stateOf Y (step Y n ord s (.dynStateMut p f)).1 p = some (f d) ∧
      (step Y n ord s (.dynStateMut p f)).1.live p = true := by
    rw [step_live rfl hl] at hset ⊢
    obtain ⟨c', he, hd⟩ := invalidate_spec h.reachable.inv ord p
    simp only [exec, dynStateMut, he] at hset ⊢
    obtain ⟨_, _, _, hheap, _⟩ := ensureDyn_same (Y := Y) p { s with c := c'.emit (.invalidate p) }
    generalize ensureDyn Y p { s with c := c'.emit (.invalidate p) } = x at hset hheap ⊢
    obtain ⟨s1, r⟩ := x
    cases r with
    | val d' =>
      simp only at hset ⊢
      split at hset
      · next ht =>
        cases hset
        rw [if_pos ht]
        constructor
        · simp [stateOf, St.onCache, Cache.emit]
        · simp only [St.live, St.onCache] at hl ⊢
          simp only at hheap
          rw [hheap]
          exact hl
      · cases hset
    | panic k => cases hset
    | stuck => cases hset
    | overflow => cases hset
  obtain ⟨d', hd', e⟩ := C35_configurable h2 hc hst.2 m ord' how
  rw [hst.1] at hd'
  cases hd'
  exact e

/-- **C35** A `FunctionalBuilder` without artifact calls its closure once, with the current dynamic
state: the closure's result is the answer, the state it leaves is stored, its effects on the outside
world happen once; if it panics, so does `get`, and the state it leaves is stored nevertheless. -/
theorem C35_functional (h : Reachable Y s) {p : Promise σ} {f : Closure σ} {d0 : σ.S}
    (hf : Functional Y f d0 p) (hl : s.live p = true) (hu : Uncached s p.id) (n : Nat) (ord : HashOrder)
    (how : Access) :
    ∃ d, stateOf Y s p = some d ∧
      HasState (step Y (n + 1) ord s (.get how p)).1 p.id (f d s.w).2.1 ∧
      (step Y (n + 1) ord s (.get how p)).1.w = (f d s.w).1 ∧
      (step Y (n + 1) ord s (.get how p)).2 =
        match (f d s.w).2.2 with
        | some r => .val (.art (seenEx Y how r))
        | none => .panic .user := by
  have hi := h.inv
  obtain ⟨s1, hr, h1, h2, h3, h4, h5, h6, _, h8, e⟩ := build_starts n hi hl hu hf.init
  obtain ⟨d, hd⟩ := Option.isSome_iff_exists.1 h8
  refine ⟨d, hd, ?_⟩
  rw [step_get (n + 1) ord how hl, getA_miss (n + 1) how hi hl hu, e, hf.code]
  have h4' : s1.c.dynStates[p.id]? = some d := by rw [h4, hd]
  have ht := hr.inv.dynTy _ _ _ h4' hr.known
  have ht2 := hf.tyS d s.w ht
  have r1 : Running Y p (wrote p d s1) := hr.micro (.setDyn p d hr.known hr.dyn ht)
  have r2 : Running Y p { wrote p d s1 with w := (f d s1.w).1 } := r1.micro (.world _)
  have hres : runProg Y (getA Y n) p (functionalCode f) s1 =
      runProg Y (getA Y n) p (match (f d s1.w).2.2 with | some r => .ret r | none => .panic)
        (wrote p (f d s1.w).2.1 { wrote p d s1 with w := (f d s1.w).1 }) := by
    obtain ⟨d', hd', _, he⟩ := hr.myState_eq id
    rw [h4'] at hd'
    cases hd'
    rw [functionalCode, runProg_myState, he, if_pos (by simpa using ht)]
    simp only [andThen, runProg]
    obtain ⟨d'', _, _, he2⟩ := r2.myState_eq fun _ => (f d s1.w).2.1
    rw [h3] at he2 ⊢
    simp only [wrote] at he2
    simp only [id]
    rw [he2, if_pos ht2]
    rfl
  rw [hres, h3]
  simp only
  cases hr2 : (f d s.w).2.2 with
  | none => exact ⟨by simp [runProg, finish, HasState, wrote, Cache.emit], rfl, rfl⟩
  | some r =>
    cases r with
    | error e => exact ⟨by simp [runProg, finish, HasState, wrote, Cache.emit], rfl, rfl⟩
    | ok v =>
      have hv := hf.tyV d s.w v hr2
      simp only [runProg, hv, if_true, finish]
      exact ⟨by simp [HasState, wrote, Cache.emit, St.onCache], rfl, rfl⟩

end Daab
