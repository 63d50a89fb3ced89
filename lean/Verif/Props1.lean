import Verif.Step
import Verif.Demo

/-!
# Properties: getting, invalidating, dynamic states

Statements are about `step` (one call of the public interface) from any `Reachable` state.
`s.live p = true` says that the caller holds the promise `p`.
-/

open Std

namespace Daab

variable {σ : Sig} {Y : Sys σ} {s : St σ}

theorem step_live {n : Nat} {ord : HashOrder} {op : Op σ} {p : Promise σ}
    (h : op.promise? = some p) (hl : s.live p = true) : step Y n ord s op = exec Y n ord s op := by
  unfold step; rw [h]; simp [hl]

theorem usesNow_iff (s : St σ) (u d : Id) : UsesNow s u d ↔ Dep s.c u d := mem_setAt.symm

theorem usesNow_eq (s : St σ) : UsesNow s = Dep s.c := by
  funext u d; exact propext (usesNow_iff s u d)

/-- `UsesNow` is what the history says: `u` resolved `d` since `u` was invalidated the last time. -/
theorem uses_eq_history (h : Reachable Y s) : UsesNow s = (Abs.of s.c.log).dep := by
  rw [usesNow_eq]; exact absDep_eq h.inv

/-! ## C01 -/

/-- **C01** If `lookup(p)` is `Some(v)`, each getter returns this `v` (or its clone) and the whole
state, cache and outside world, is unchanged; no event (in particular no builder call) happens. -/
theorem C01_hit_is_free (h : Reachable Y s) {p : Promise σ} (hl : s.live p = true) {v : σ.V}
    {n n' : Nat} {ord ord' : HashOrder}
    (hv : (step Y n ord s (.lookup .bin p)).2 = .val (.optArt (some v))) (how : Access) :
    step Y n' ord' s (.get how p) = (s, .val (.art (.ok (seen Y how v)))) := by
  rw [step_live rfl hl] at hv ⊢
  simp only [exec, lookupBy_eq h.inv _ hl, Res.map] at hv ⊢
  have hv' : s.c.artifacts[p.id]? = some v := by
    cases ha : s.c.artifacts[p.id]? with
    | none => rw [ha] at hv; simp at hv
    | some w => rw [ha] at hv; simpa [seen] using hv
  rw [(getA_ok Y n').1.hit how p s h.inv hl v hv']

example : step Demo.Y 0 Demo.ord Demo.s1 (.get .ref (Demo.P 2)) = (Demo.s1, .val (.art (.ok 110))) :=
  C01_hit_is_free Demo.reach1 (p := Demo.P 2) (by decide) (n := 0) (ord := Demo.ord) (v := 110) rfl .ref

/-! ## C02 -/

/-- **C02** After a successful `get(p)` the artifact is cached and `p` is known; if the promise is
still alive, `lookup` returns the artifact. -/
theorem C02_get_memoizes (h : Reachable Y s) {p : Promise σ} {v : σ.V} {n : Nat}
    {ord : HashOrder} (hv : (step Y n ord s (.get .bin p)).2 = .val (.art (.ok v))) :
    Cached (step Y n ord s (.get .bin p)).1 p.id v ∧ Known (step Y n ord s (.get .bin p)).1 p.id ∧
    ((step Y n ord s (.get .bin p)).1.live p = true → ∀ n' ord',
      (step Y n' ord' (step Y n ord s (.get .bin p)).1 (.lookup .bin p)).2 =
        .val (.optArt (some v))) := by
  cases hl : s.live p with
  | false => simp [step, Op.promise?, hl] at hv
  | true =>
    rw [step_live rfl hl] at hv ⊢
    simp only [exec] at hv ⊢
    have hran := (getA_ok Y n).1.ran .bin p s h.inv
    have hok := (getA_ok Y n).1.ok .bin p s h.inv
    have hinv := hran.inv h.inv
    generalize getA Y n .bin p s = x at *
    obtain ⟨s', r⟩ := x
    simp only at *
    rcases r with (e | w) | _ | _ | _ <;> simp only [Res.map] at hv <;> cases hv
    obtain ⟨v', ha, hw, _⟩ := hok v rfl
    simp only [seen] at hw
    subst hw
    have hm : p.id ∈ s'.c.artifacts := (mem_getElem _ _).2 ⟨v, ha⟩
    refine ⟨ha, hinv.dynKnown _ (hinv.artDyn _ hm), ?_⟩
    intro hl' n' ord'
    rw [step_live rfl hl']
    simp only [exec, lookupBy_eq hinv _ hl', Res.map, ha]
    simp [seen]

/-- The hypotheses are met: builder 2 is built (with 0 and 1) in a cache that held nothing. -/
example : Uncached (Demo.after []) 12 ∧
    Cached (step Demo.Y 9 Demo.ord (Demo.after []) (.get .bin (Demo.P 2))).1 12 100 :=
  ⟨by unfold Uncached; decide, (C02_get_memoizes (Demo.reach _ (by decide)) (p := Demo.P 2) rfl).1⟩

/-- The same for the other getters, with what they show of the artifact. -/
theorem C02_get_memoizes_all (h : Reachable Y s) {p : Promise σ} {w : σ.V} {n : Nat}
    {ord : HashOrder} {how : Access}
    (hv : (step Y n ord s (.get how p)).2 = .val (.art (.ok w))) :
    ∃ v, Cached (step Y n ord s (.get how p)).1 p.id v ∧ w = seen Y how v := by
  cases hl : s.live p with
  | false => simp [step, Op.promise?, hl] at hv
  | true =>
    rw [step_live rfl hl] at hv ⊢
    simp only [exec] at hv ⊢
    have hok := (getA_ok Y n).1.ok how p s h.inv
    generalize getA Y n how p s = x at *
    obtain ⟨s', r⟩ := x
    simp only at *
    rcases r with (e | w) | _ | _ | _ <;> simp only [Res.map] at hv <;> cases hv
    obtain ⟨v', ha, hw, _⟩ := hok w rfl
    exact ⟨v', ha, hw⟩

example : (step Demo.Y 9 Demo.ord (Demo.after []) (.get .cloned (Demo.P 2))).2 = .val (.art (.ok 100)) := rfl

/-- `C02_get_memoizes_all` for `get_cloned`. -/
example : ∃ v, Cached (step Demo.Y 9 Demo.ord (Demo.after []) (.get .cloned (Demo.P 2))).1 12 v ∧ 100 = v :=
  C02_get_memoizes_all (Demo.reach _ (by decide)) (p := Demo.P 2) rfl

/-! ## C03 -/

/-- **C03** An error is only returned if nothing was cached. -/
theorem C03_err_only_uncached (h : Reachable Y s) {p : Promise σ} {e : σ.E} {n : Nat}
    {ord : HashOrder} {how : Access}
    (hv : (step Y n ord s (.get how p)).2 = .val (.art (.error e))) : Uncached s p.id := by
  cases hl : s.live p with
  | false => simp [step, Op.promise?, hl] at hv
  | true =>
    rw [step_live rfl hl] at hv
    simp only [exec] at hv
    unfold Uncached
    cases ha : s.c.artifacts[p.id]? with
    | none => rfl
    | some v =>
      rw [(getA_ok Y n).1.hit how p s h.inv hl v ha] at hv
      simp [Res.map] at hv

/-- The hypothesis is met: builder 6 fails (after resolving 0). -/
example : Uncached Demo.s1 16 :=
  C03_err_only_uncached Demo.reach1 (p := Demo.P 6) (n := 9) (ord := Demo.ord) (how := .bin) (e := 6) rfl

/-! ## C04 -/

/-- The operations that only read or build. -/
def Op.readsOrBuilds : Op σ → Prop
  | .get .. | .lookup .. | .dynState _ | .getDynState _ | .isKnown _ | .numKnown => True
  | _ => False

/-- **C04** Reading and building operations keep every cached artifact, however they end (value,
error, panic, even stack overflow). -/
theorem C04_artifacts_kept (h : Reachable Y s) {op : Op σ} (hop : op.readsOrBuilds) (n : Nat)
    (ord : HashOrder) {a : Id} {v : σ.V} (hv : Cached s a v) :
    Cached (step Y n ord s op).1 a v := by
  cases op with
  | get how p =>
    cases hl : s.live p with
    | false => simpa [step, Op.promise?, hl] using hv
    | true =>
      rw [step_live rfl hl]
      exact ((getA_ok Y n).1.ran how p s h.inv).keep a v hv
  | dynState p =>
    cases hl : s.live p with
    | false => simpa [step, Op.promise?, hl] using hv
    | true =>
      rw [step_live rfl hl]
      exact (ensureDyn_ran h.inv hl).1.keep a v hv
  | lookup | getDynState | isKnown =>
    simp only [step, Op.promise?, exec]
    split <;> exact hv
  | numKnown => exact hv
  | _ => exact absurd hop (by simp [Op.readsOrBuilds])

/-- The hypotheses are met: a failing build keeps the artifacts already cached. -/
example : Cached (step Demo.Y 9 Demo.ord Demo.s1 (.get .bin (Demo.P 6))).1 12 110 :=
  C04_artifacts_kept Demo.reach1 (op := .get .bin (Demo.P 6)) trivial 9 Demo.ord (by unfold Cached; decide)

/-! ## C05, C06 -/

theorem step_invalidate (h : Reachable Y s) {p : Promise σ} (hl : s.live p = true) (n : Nat)
    (ord : HashOrder) : ∃ c', step Y n ord s (.invalidate p) =
      ({ s with c := c'.emit (.invalidate p) }, .val .unit) ∧
      Dropped (Hit (Dep s.c) p.id) s.c c' := by
  obtain ⟨c', he, hd⟩ := invalidate_spec h.inv ord p
  refine ⟨c', ?_, hd⟩
  rw [step_live rfl hl]
  simp only [exec, he, LoopEnd.res]

/-- **C05** `invalidate(p)` returns, and removes exactly the artifacts of `p` and of the builders
that used `p`, directly or through others, since they were invalidated the last time (`Abs.of log`
replays the history of the cache).  All other artifacts are untouched. -/
theorem C05_invalidate_exact (h : Reachable Y s) {p : Promise σ} (hl : s.live p = true) (n : Nat)
    (ord : HashOrder) :
    (step Y n ord s (.invalidate p)).2 = .val .unit ∧
    ∀ a v, Cached (step Y n ord s (.invalidate p)).1 a v ↔
      Cached s a v ∧ ¬ Hit (Abs.of s.c.log).dep p.id a := by
  obtain ⟨c', he, hd⟩ := step_invalidate h hl n ord
  rw [he, ← absDep_eq h.inv]
  exact ⟨rfl, fun a v => hd.art_iff a v⟩

/-- The hypotheses are met; in the example 1 and 2, which used 1, are hit, and 0 is not. -/
example : let s' := (step Demo.Y 9 Demo.ord Demo.s1 (.invalidate (Demo.P 1))).1
    Cached s' 10 5 ∧ Uncached s' 11 ∧ Uncached s' 12 ∧ ¬ Hit (Abs.of Demo.s1.c.log).dep 11 10 := by
  have h := (C05_invalidate_exact Demo.reach1 (p := Demo.P 1) (by decide) 9 Demo.ord).2 10 5
  have hc : Cached (step Demo.Y 9 Demo.ord Demo.s1 (.invalidate (Demo.P 1))).1 10 5 := by
    unfold Cached; decide
  exact ⟨hc, by unfold Uncached; decide, by unfold Uncached; decide, (h.1 hc).2⟩

/-- **C05**, dependencies: exactly the uses by invalidated builders are forgotten. -/
theorem C05_invalidate_uses (h : Reachable Y s) {p : Promise σ} (hl : s.live p = true) (n : Nat)
    (ord : HashOrder) (u d : Id) :
    UsesNow (step Y n ord s (.invalidate p)).1 u d ↔ UsesNow s u d ∧ ¬ Hit (UsesNow s) p.id u := by
  obtain ⟨c', he, hd⟩ := step_invalidate h hl n ord
  rw [he, usesNow_eq, usesNow_eq]
  exact hd.dep u d

/-- Invalidating 1 forgets what 2, which used it, has used. -/
example : UsesNow Demo.s1 12 10 ∧ ¬ UsesNow (step Demo.Y 9 Demo.ord Demo.s1 (.invalidate (Demo.P 1))).1 12 10 :=
  ⟨⟨_, rfl, by decide⟩, fun hu => ((C05_invalidate_uses Demo.reach1 (p := Demo.P 1) (by decide) 9 Demo.ord 12 10).1 hu).2
    (.single ⟨_, rfl, by decide⟩)⟩

/-- **C06** `invalidate(p)` touches no dynamic state, no builder becomes known or unknown, nothing
outside the cache changes. -/
theorem C06_invalidate_keeps (h : Reachable Y s) {p : Promise σ} (hl : s.live p = true) (n : Nat)
    (ord : HashOrder) :
    (∀ a d, HasState (step Y n ord s (.invalidate p)).1 a d ↔ HasState s a d) ∧
    (∀ a, Known (step Y n ord s (.invalidate p)).1 a ↔ Known s a) ∧
    (∀ q n' ord', (step Y n' ord' (step Y n ord s (.invalidate p)).1 (.isKnown q)).2 =
      (step Y n' ord' s (.isKnown q)).2) ∧
    (∀ n' ord', (step Y n' ord' (step Y n ord s (.invalidate p)).1 .numKnown).2 =
      (step Y n' ord' s .numKnown).2) ∧
    (step Y n ord s (.invalidate p)).1.w = s.w ∧ (step Y n ord s (.invalidate p)).1.heap = s.heap := by
  obtain ⟨c', he, hd⟩ := step_invalidate h hl n ord
  rw [he]
  have h1 := hd.known
  have h2 := hd.dynStates
  refine ⟨?_, ?_, ?_, ?_, rfl, rfl⟩
  · intro a d; simp [HasState, Cache.emit, h2]
  · intro a; simp [Known, Cache.emit, h1]
  · intro q n' ord'
    have h3 : ∀ c : Cache σ, St.live { s with c := c } q = s.live q := fun _ => rfl
    simp only [step, Op.promise?, exec, isKnown, Cache.emit, h1, h3]
    by_cases hq : s.live q = true <;> simp [hq]
  · intro n' ord'
    simp only [step, Op.promise?, exec, numKnown, Cache.emit, h1]

example : HasState (step Demo.Y 9 Demo.ord Demo.s1 (.invalidate (Demo.P 0))).1 10 5 :=
  ((C06_invalidate_keeps Demo.reach1 (p := Demo.P 0) (by decide) 9 Demo.ord).1 10 5).2
    (by unfold HasState; decide)

/-! ## C10 -/

/-- **C10** `invalidate` and `purge` always return; `dyn_state_mut` returns or the builder's own
`init_dyn_state` panics (`stuck`: only for an ill-typed write or initial state, which rustc
rejects). No internal panic, no endless loop, on any dependency graph. -/
theorem C10_invalidation_total (h : Reachable Y s) {p : Promise σ} (hl : s.live p = true) (n : Nat)
    (ord : HashOrder) (f : σ.S → σ.S) :
    (step Y n ord s (.invalidate p)).2 = .val .unit ∧
    (step Y n ord s (.purge p)).2 = .val .unit ∧
    ((∃ d, (step Y n ord s (.dynStateMut p f)).2 = .val (.state d)) ∨
      (step Y n ord s (.dynStateMut p f)).2 = .panic .init ∨
      (step Y n ord s (.dynStateMut p f)).2 = .stuck) := by
  refine ⟨(C05_invalidate_exact h hl n ord).1, ?_, ?_⟩
  · obtain ⟨c', cF, he, _⟩ := purge_spec h.inv ord p
    rw [step_live rfl hl]
    simp only [exec, he, LoopEnd.res]
  · rw [step_live rfl hl]
    simp only [exec]
    obtain ⟨c', he, hd⟩ := invalidate_spec h.inv ord p
    have hinv := h.inv.invalidated hd
    have hk := hinv.live_known (p := p) hl
    have hi1 := hinv.micro (.known p hl)
    unfold dynStateMut
    rw [he]
    simp only [ensureDyn]
    generalize hs1 : St.onCache { s with c := c'.emit (.invalidate p) } (makeKnown p) = s1 at *
    have hk : s1.c.known[p.id]? = some p.b := by rw [← hs1]; exact hk
    cases hdd : s1.c.dynStates[p.id]? with
    | some d =>
      have ht := hi1.dynTy _ _ _ hdd hk
      simp only [ht, if_true]
      split
      · exact Or.inl ⟨d, rfl⟩
      · exact Or.inr (Or.inr rfl)
    | none =>
      simp only
      cases hin : Y.init p.b s1.w with
      | mk w o =>
        cases o with
        | none => exact Or.inr (Or.inl rfl)
        | some d =>
          by_cases h1 : Y.stTy d = Y.sty p.b
          · by_cases h2 : Y.stTy (f d) = Y.sty p.b
            · exact Or.inl ⟨d, by simp [h1, h2, Res.map]⟩
            · exact Or.inr (Or.inr (by simp [h1, h2, Res.map]))
          · exact Or.inr (Or.inr (by simp [h1, Res.map]))

/-- The hypotheses are met, also with a cycle of recorded uses (builder 9 used itself). -/
example : UsesNow (Demo.after [.get .bin (Demo.P 9)]) 19 19 ∧
    (step Demo.Y 9 Demo.ord (Demo.after [.get .bin (Demo.P 9)]) (.invalidate (Demo.P 9))).2 = .val .unit :=
  ⟨⟨_, rfl, by decide⟩, (C10_invalidation_total (Demo.reach _ (by decide)) (by decide) 9 Demo.ord id).1⟩

/-! ## C13 purge -/

/-- **C13** `purge(p)` forgets artifact, dynamic state and known status of `p`, and the artifacts of
everything that used it; everything else is untouched. -/
theorem C13_purge (h : Reachable Y s) {p : Promise σ} (hl : s.live p = true) (n : Nat)
    (ord : HashOrder) :
    let s' := (step Y n ord s (.purge p)).1
    Uncached s' p.id ∧ (∀ d, ¬ HasState s' p.id d) ∧ ¬ Known s' p.id ∧
    (∀ a v, Cached s' a v ↔ Cached s a v ∧ ¬ Hit (Abs.of s.c.log).dep p.id a) ∧
    (∀ a d, a ≠ p.id → (HasState s' a d ↔ HasState s a d)) ∧
    (∀ a, a ≠ p.id → (Known s' a ↔ Known s a)) ∧
    (∀ u d, UsesNow s' u d ↔ UsesNow s u d ∧ ¬ Hit (UsesNow s) p.id u) ∧
    s'.w = s.w ∧ s'.heap = s.heap := by
  obtain ⟨c', cF, he, hd, hcF⟩ := purge_spec h.inv ord p
  rw [step_live rfl hl]
  simp only [exec, he]
  subst hcF
  have hself : Hit (Dep s.c) p.id p.id := Relation.ReflTransGen.refl
  refine ⟨?_, ?_, ?_, ?_, ?_, ?_, ?_, trivial, trivial⟩
  · exact hd.art_none _ hself
  · intro d; simp [HasState]
  · simp [Known]
  · intro a v
    rw [← absDep_eq h.inv]
    exact hd.art_iff a v
  · intro a d ha
    unfold HasState
    simp only
    grind
  · intro a ha
    unfold Known
    simp only
    grind
  · intro u d
    rw [usesNow_eq, usesNow_eq]
    exact hd.dep u d

example : let s' := (step Demo.Y 9 Demo.ord Demo.s1 (.purge (Demo.P 0))).1
    Uncached s' 12 ∧ ¬ Known s' 10 ∧ Known s' 11 := by
  have h := C13_purge Demo.reach1 (p := Demo.P 0) (by decide) 9 Demo.ord
  exact ⟨by unfold Uncached; decide, h.2.2.1, (h.2.2.2.2.2.1 11 (by decide)).2 (by unfold Known; decide)⟩

/-! ## C14, C15 clearing -/

/-- **C14** `clear_artifacts` removes all artifacts and recorded uses and keeps all else. -/
theorem C14_clear_artifacts (n : Nat) (ord : HashOrder) (s : St σ) :
    let s' := (step Y n ord s .clearArtifacts).1
    (step Y n ord s .clearArtifacts).2 = .val .unit ∧
    (∀ a, Uncached s' a) ∧ (∀ u d, ¬ UsesNow s' u d) ∧
    (∀ a d, HasState s' a d ↔ HasState s a d) ∧ (∀ a, Known s' a ↔ Known s a) ∧
    s'.w = s.w ∧ s'.heap = s.heap := by
  refine ⟨rfl, ?_, ?_, ?_, ?_, rfl, rfl⟩
  · intro a; simp [step, Op.promise?, exec, St.onCache, Daab.clearArtifacts, Uncached, Cache.emit]
  · intro u d
    simp [step, Op.promise?, exec, St.onCache, Daab.clearArtifacts, UsesNow, Cache.emit]
  · intro a d; rfl
  · intro a; rfl

example : HasState (step Demo.Y 9 Demo.ord Demo.s1 .clearArtifacts).1 10 5 ∧
    Uncached (step Demo.Y 9 Demo.ord Demo.s1 .clearArtifacts).1 10 ∧ Cached Demo.s1 10 5 :=
  ⟨by unfold HasState; decide, by unfold Uncached; decide, by unfold Cached; decide⟩

/-- **C15** After `clear_all` the cache is a new one, except for what the doctor was told. -/
theorem C15_clear_all (n : Nat) (ord : HashOrder) (s : St σ) :
    (step Y n ord s .clearAll).2 = .val .unit ∧
    { (step Y n ord s .clearAll).1.c with log := [] } = (St.new s.w : St σ).c ∧
    (step Y n ord s .clearAll).1.w = s.w ∧ (step Y n ord s .clearAll).1.heap = s.heap :=
  ⟨rfl, rfl, rfl, rfl⟩

/-- A cache with three artifacts becomes a new one. -/
example : Cached Demo.s1 12 110 ∧ Uncached (step Demo.Y 9 Demo.ord Demo.s1 .clearAll).1 12 ∧
    (step Demo.Y 9 Demo.ord Demo.s1 .clearAll).1.w = Demo.s1.w :=
  ⟨by unfold Cached; decide, by unfold Uncached; decide, (C15_clear_all 9 Demo.ord Demo.s1).2.2.1⟩

/-! ## C16, C17, C18 -/

/-- **C16** (first half) `is_builder_known(p) = false` only if the cache holds neither artifact nor
dynamic state of `p` nor any recorded use by or of `p`. -/
theorem C16_unknown_means_nothing (h : Reachable Y s) {p : Promise σ} {n : Nat}
    {ord : HashOrder} (hk : (step Y n ord s (.isKnown p)).2 = .val (.bool false)) :
    Uncached s p.id ∧ (∀ d, ¬ HasState s p.id d) ∧
    (∀ x, ¬ UsesNow s p.id x ∧ ¬ UsesNow s x p.id) := by
  have hn : p.id ∉ s.c.known := by
    simp only [step, Op.promise?, exec, isKnown] at hk
    split at hk
    · intro hm
      simp at hk
      rw [ExtTreeMap.mem_iff_contains.1 hm] at hk
      cases hk
    · cases hk
  refine ⟨?_, ?_, ?_⟩
  · unfold Uncached
    cases ha : s.c.artifacts[p.id]? with
    | none => rfl
    | some v => exact absurd (h.inv.dynKnown _ (h.inv.artDyn _ ((mem_getElem _ _).2 ⟨v, ha⟩))) hn
  · intro d hd
    exact hn (h.inv.dynKnown _ ((mem_getElem _ _).2 ⟨d, hd⟩))
  · intro x
    rw [usesNow_iff, usesNow_iff]
    exact ⟨fun hx => hn (h.inv.depU _ _ hx), fun hx => hn (h.inv.depD _ _ hx)⟩

/-- The hypothesis is met by a builder that exists but was never used with the cache. -/
example : Uncached Demo.s1 13 :=
  (C16_unknown_means_nothing Demo.reach1 (p := Demo.P 3) (n := 0) (ord := Demo.ord) rfl).1

/-- **C17** `number_of_known_builders` is the number of distinct ids that are known. -/
theorem C17_number_of_known (n : Nat) (ord : HashOrder) (s : St σ) :
    ∃ ids : List Id, ids.Nodup ∧ (∀ a, a ∈ ids ↔ Known s a) ∧
      step Y n ord s .numKnown = (s, .val (.nat ids.length)) := by
  refine ⟨s.c.known.keys, ExtTreeMap.nodup_keys, ?_, ?_⟩
  · intro a; simp [Known]
  · simp [step, Op.promise?, exec, numKnown]

example : step Demo.Y 9 Demo.ord Demo.s1 .numKnown = (Demo.s1, .val (.nat 3)) := rfl

/-- **C17**, link to `is_builder_known`: it answers whether the id is known. -/
theorem C17_is_known {p : Promise σ} (hl : s.live p = true) (n : Nat) (ord : HashOrder) :
    (step Y n ord s (.isKnown p)).2 = .val (.bool true) ↔ Known s p.id := by
  rw [step_live rfl hl]
  simp [exec, isKnown, Known]

/-- Builder 2 is known after it was built, builder 3 is not. -/
example : (step Demo.Y 9 Demo.ord Demo.s1 (.isKnown (Demo.P 2))).2 = .val (.bool true) ∧
    (step Demo.Y 9 Demo.ord Demo.s1 (.isKnown (Demo.P 3))).2 ≠ .val (.bool true) :=
  ⟨(C17_is_known (p := Demo.P 2) (by decide) 9 Demo.ord).2 (by unfold Known; decide),
    fun h => absurd ((C17_is_known (p := Demo.P 3) (by decide) 9 Demo.ord).1 h) (by unfold Known; decide)⟩

/-- **C18** All lookups leave the state unchanged, never fail, and answer exactly what is held. -/
theorem C18_lookups_pure (h : Reachable Y s) {p : Promise σ} (hl : s.live p = true) (n : Nat)
    (ord : HashOrder) :
    (∀ how, step Y n ord s (.lookup how p) =
      (s, .val (.optArt ((s.c.artifacts[p.id]?).map (seen Y how))))) ∧
    step Y n ord s (.getDynState p) = (s, .val (.optState (s.c.dynStates[p.id]?))) ∧
    (step Y n ord s (.isKnown p)).1 = s ∧ (step Y n ord s .numKnown).1 = s := by
  refine ⟨?_, ?_, ?_, rfl⟩
  · intro how
    rw [step_live rfl hl]
    simp only [exec, lookupBy_eq h.inv how hl, Res.map]
  · rw [step_live rfl hl]
    simp only [exec, getDynState]
    cases hd : s.c.dynStates[p.id]? with
    | none => rfl
    | some d =>
      have hk := h.inv.dynKnown p.id ((mem_getElem _ _).2 ⟨d, hd⟩)
      obtain ⟨b, hb⟩ := (mem_getElem _ _).1 hk
      have hbb := h.inv.heapKnown _ _ _ hb (live_iff.1 hl)
      subst hbb
      have ht := h.inv.dynTy _ _ _ hd hb
      have hk' : isKnown p.id s.c = true := by simpa [isKnown] using hk
      simp [hk', ht, Res.map]
  · rw [step_live rfl hl]; rfl

example : (step Demo.Y 9 Demo.ord Demo.s1 (.lookup .ref (Demo.P 1))).2 = .val (.optArt (some 105)) ∧
    (step Demo.Y 9 Demo.ord Demo.s1 (.lookup .ref (Demo.P 3))).2 = .val (.optArt none) := ⟨rfl, rfl⟩

/-- `C18_lookups_pure` with a cached artifact. -/
example : step Demo.Y 9 Demo.ord Demo.s1 (.lookup .cloned (Demo.P 1)) = (Demo.s1, .val (.optArt (some 105))) :=
  (C18_lookups_pure Demo.reach1 (p := Demo.P 1) (by decide) 9 Demo.ord).1 .cloned

end Daab
