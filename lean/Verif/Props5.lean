import Verif.Props4

/-!
# Properties: internal panics, types, identity, builds and initialisations, access variants
-/

open Std

namespace Daab

variable {σ : Sig} {Y : Sys σ} {s : St σ}

/-! ## C23, C25 -/

/-- Operations that may run builder code. -/
def Op.runsCode : Op σ → Prop
  | .get .. | .getMut .. | .dynState _ | .dynStateMut .. => True
  | _ => False

/-- **C25** The only panics that ever come out of the cache are: a builder's own panic, and those of
findings 1 and 2.  None of the other assertions, unwraps, expects and index operations fails. -/
theorem C25_panics (h : Reachable Y s) {n : Nat} {ord : HashOrder} {op : Op σ} {k : Panic}
    (hk : (step Y n ord s op).2 = .panic k) :
    ((k = .user ∨ k = .init) ∧ op.runsCode) ∨ (k = .leafUnknown ∧ op = .gc) ∨
    (k = .noCounterpart ∧ ∃ p f, op = .lookupMut p f ∨ op = .getMut p f) := by
  have hi := h.inv
  have hlive : ∀ p, op.promise? = some p → s.live p = true := by
    intro p hp
    cases hl : s.live p with
    | true => rfl
    | false => simp [step, hp, hl] at hk
  have hse : step Y n ord s op = exec Y n ord s op := by
    unfold step
    cases hp : op.promise? with
    | none => rfl
    | some p => simp only [hlive p hp, if_true]
  rw [hse] at hk
  cases op with
  | get how p =>
    have hn := ((getA_ok Y n).1.ran how p s hi).noInt
    simp only [exec] at hk
    generalize getA Y n how p s = x at hn hk
    obtain ⟨s2, r⟩ := x
    simp only at hn hk
    cases r <;> simp only [Res.map] at hk <;> cases hk
    exact Or.inl ⟨hn k rfl, trivial⟩
  | getMut p f =>
    have hl := hlive p rfl
    simp only [exec] at hk
    rcases getMut_spec hi n ord hl with ⟨c', he, hx⟩ | ⟨c1, h1, h2⟩
    · rw [he] at hk
      cases hk
      exact Or.inr (Or.inr ⟨rfl, p, f, Or.inr rfl⟩)
    · rcases hi.invalidateDependents ord p.id with ⟨c', he', _⟩ | ⟨c', he', hall, hinv, _⟩
      · rw [h1] at he'; cases he'
      · rw [h1] at he'
        cases he'
        rcases h2 with ⟨c2, v, _, _, _, _, he⟩ | ⟨h3, he⟩
        · rw [he] at hk
          simp only at hk
          split at hk <;> cases hk
        · rw [he] at hk
          have hn := ((getA_ok Y n).2.ran p { s with c := c1 } hinv hl h3).noInt
          generalize buildN Y n p { s with c := c1 } = x at hk hn
          obtain ⟨s2, r⟩ := x
          rcases r with (e | v) | k' | _ | _
          · cases hk
          · simp only at hk
            split at hk <;> cases hk
          · simp only at hk
            cases hk
            exact Or.inl ⟨hn k rfl, trivial⟩
          · cases hk
          · cases hk
  | lookup how p =>
    simp only [exec, lookupBy_eq hi how (hlive p rfl), Res.map] at hk
    cases hk
  | lookupMut p f =>
    have hl := hlive p rfl
    simp only [exec] at hk
    rcases lookupMut_spec hi ord hl with ⟨c', he, hx⟩ | ⟨c1, he, h1⟩
    · rw [he] at hk
      cases hk
      exact Or.inr (Or.inr ⟨rfl, p, f, Or.inl rfl⟩)
    · rw [he] at hk
      exfalso
      cases ha : c1.artifacts[p.id]? with
      | none => rw [ha] at hk; cases hk
      | some v =>
        rw [ha] at hk
        simp only at hk
        split at hk <;> cases hk
  | dynState p =>
    have hn := (ensureDyn_ran hi (hlive p rfl) (Y := Y)).1.noInt
    simp only [exec] at hk
    generalize ensureDyn Y p s = x at hn hk
    obtain ⟨s2, r⟩ := x
    simp only at hn hk
    cases r <;> simp only [Res.map] at hk <;> cases hk
    exact Or.inl ⟨hn k rfl, trivial⟩
  | dynStateMut p f =>
    rcases (C10_invalidation_total h (hlive p rfl) n ord f).2.2 with ⟨d, hd⟩ | hd | hd
    · rw [hse, hk] at hd; cases hd
    · rw [hse, hk] at hd; cases hd; exact Or.inl ⟨Or.inr rfl, trivial⟩
    · rw [hse, hk] at hd; cases hd
  | getDynState p =>
    have := (C18_lookups_pure h (hlive p rfl) n ord).2.1
    rw [hse] at this
    rw [this] at hk
    cases hk
  | invalidate p =>
    have := (C10_invalidation_total h (hlive p rfl) n ord id).1
    rw [hse, hk] at this; cases this
  | purge p =>
    have := (C10_invalidation_total h (hlive p rfl) n ord id).2.1
    rw [hse, hk] at this; cases this
  | gc =>
    rcases (C21_gc_panics_iff_partial h n ord).1 with h1 | h1
    · rw [hse, hk] at h1; cases h1
    · rw [hse] at h1
      rw [h1] at hk
      cases hk
      exact Or.inr (Or.inl ⟨rfl, rfl⟩)
  | alloc p =>
    simp only [exec] at hk
    cases ha : allocB p s <;> rw [ha] at hk <;> cases hk
  | _ => cases hk

/-- Each of the panics of the conclusion occurs. -/
example : (step Demo.Y 9 Demo.ord Demo.s1 (.get .bin (Demo.P 5))).2 = .panic .user ∧
    (step Demo.Y 0 Demo.ord (step Demo.Y 0 Demo.ord Demo.s1 (.purge (Demo.P 1))).1 .gc).2 = .panic .leafUnknown ∧
    (step Demo.Y 9 Demo.ord Demo.s1 (.lookupMut (Demo.P 0) (· + 1))).2 = .panic .noCounterpart :=
  ⟨rfl, rfl, rfl⟩

/-- **C23** No downcast fails: the three panics "Cached artifact is of invalid type", "Cached dyn
state is of invalid type", "Just build artifact is of invalid type" never occur, ... -/
theorem C23_no_bad_cast (h : Reachable Y s) (n : Nat) (ord : HashOrder) (op : Op σ) :
    (step Y n ord s op).2 ≠ .panic .badArt ∧ (step Y n ord s op).2 ≠ .panic .badDyn ∧
    (step Y n ord s op).2 ≠ .panic .badFresh := by
  refine ⟨?_, ?_, ?_⟩ <;> intro hk <;>
    rcases C25_panics h hk with ⟨h1 | h1, _⟩ | ⟨h1, _⟩ | ⟨h1, _⟩ <;> cases h1

/-- Also where a builder's artifact is looked up mutably and where a builder panics. -/
example : (step Demo.Y 9 Demo.ord Demo.s1 (.lookupMut (Demo.P 0) id)).2 ≠ .panic .badArt :=
  (C23_no_bad_cast Demo.reach1 9 Demo.ord _).1

/-- **C23** ... and what is handed out has the types of the builder asked for.  (For clones: the
original has.) -/
theorem C23_types (h : Reachable Y s) {n : Nat} {ord : HashOrder} {p : Promise σ} :
    (∀ how w, (step Y n ord s (.get how p)).2 = .val (.art (.ok w)) →
      ∃ v, w = seen Y how v ∧ Y.artTy v = Y.vty p.b) ∧
    (∀ how w, (step Y n ord s (.lookup how p)).2 = .val (.optArt (some w)) →
      ∃ v, w = seen Y how v ∧ Y.artTy v = Y.vty p.b) ∧
    (∀ d, (step Y n ord s (.getDynState p)).2 = .val (.optState (some d)) → Y.stTy d = Y.sty p.b) ∧
    (∀ d, (step Y n ord s (.dynState p)).2 = .val (.state d) → Y.stTy d = Y.sty p.b) := by
  have hi := h.inv
  cases hl : s.live p with
  | false => simp [step, Op.promise?, hl]
  | true =>
    have hkn : ∀ a, a ∈ s.c.known → a = p.id → s.c.known[a]? = some p.b := by
      rintro a ha rfl
      obtain ⟨b, hb⟩ := (mem_getElem _ _).1 ha
      rw [hb, hi.heapKnown _ _ _ hb (live_iff.1 hl)]
    refine ⟨?_, ?_, ?_, ?_⟩
    · intro how w hw
      rw [step_live rfl hl] at hw
      simp only [exec] at hw
      have hok := (getA_ok Y n).1.ok how p s hi
      generalize getA Y n how p s = x at *
      obtain ⟨s', r⟩ := x
      simp only at *
      rcases r with (e | w) | _ | _ | _ <;> simp only [Res.map] at hw <;> cases hw
      obtain ⟨v', _, h1, h2⟩ := hok w rfl
      exact ⟨v', h1, h2⟩
    · intro how w hw
      rw [(C18_lookups_pure h hl n ord).1] at hw
      cases ha : s.c.artifacts[p.id]? with
      | none => rw [ha] at hw; simp at hw
      | some v =>
        rw [ha] at hw
        simp at hw
        have hm : p.id ∈ s.c.artifacts := (mem_getElem _ _).2 ⟨v, ha⟩
        exact ⟨v, hw.symm, hi.artTy _ _ _ ha (hkn _ (hi.dynKnown _ (hi.artDyn _ hm)) rfl)⟩
    · intro d hd
      rw [(C18_lookups_pure h hl n ord).2.1] at hd
      simp at hd
      have hm : p.id ∈ s.c.dynStates := (mem_getElem _ _).2 ⟨d, hd⟩
      exact hi.dynTy _ _ _ hd (hkn _ (hi.dynKnown _ hm) rfl)
    · intro d hd
      rw [step_live rfl hl] at hd
      simp only [exec] at hd
      obtain ⟨hr, k, _, d2⟩ := ensureDyn_ran hi hl (Y := Y)
      have hinv := hr.inv hi
      clear hr
      generalize ensureDyn Y p s = x at *
      obtain ⟨s2, r⟩ := x
      simp only at *
      cases r <;> simp only [Res.map] at hd <;> cases hd
      exact hinv.dynTy _ _ _ (d2 d rfl) k

/-- What `get_ref(2)` answers in the demo system has the type of the artifacts of 2. -/
example : ∃ v, (110 : Nat) = seen Demo.Y .ref v ∧ Demo.Y.artTy v = Demo.Y.vty 2 :=
  (C23_types Demo.reach1 (p := Demo.P 2) (n := 9) (ord := Demo.ord)).1 .ref _ rfl

/-! ## C24 -/

/-- If the history says that `a`'s artifact is `v` by builder `b`, then a build of `b` at `a` put an
artifact there, it was not invalidated since, no other build put one there since, and `v` is this
artifact or was written by the caller through mutable access. -/
theorem Abs.art_origin {l : List (Event σ)} {a : Id} {b : σ.B} {v : σ.V}
    (h : (Abs.of l).art a = some (b, v)) :
    ∃ post pre v0, l = post ++ .built ⟨a, b⟩ v0 :: pre ∧ (v0 = v ∨ .write a v ∈ post) ∧
      (∀ q w, .built q w ∈ post → q.id ≠ a) ∧
      ∀ e ∈ post, e ≠ .clear ∧ e ≠ .clearArtifacts ∧ e ≠ .collect a ∧
        ∀ q : Promise σ, q.id = a → e ≠ .invalidate q := by
  induction l generalizing v with
  | nil => cases h
  | cons e l ih =>
    have keep : ∀ v', (Abs.of l).art a = some (b, v') → (v' = v ∨ e = .write a v) →
        (∀ q w, e = .built q w → q.id ≠ a) →
        (e ≠ .clear ∧ e ≠ .clearArtifacts ∧ e ≠ .collect a ∧
          ∀ q : Promise σ, q.id = a → e ≠ .invalidate q) →
        ∃ post pre v0, e :: l = post ++ .built ⟨a, b⟩ v0 :: pre ∧ (v0 = v ∨ .write a v ∈ post) ∧
          (∀ q w, .built q w ∈ post → q.id ≠ a) ∧
          ∀ e ∈ post, e ≠ .clear ∧ e ≠ .clearArtifacts ∧ e ≠ .collect a ∧
            ∀ q : Promise σ, q.id = a → e ≠ .invalidate q := by
      intro v' h1 h2 h3 h4
      obtain ⟨post, pre, v0, q1, q2, q3, q4⟩ := ih h1
      refine ⟨e :: post, pre, v0, by simp [q1], ?_, ?_, ?_⟩
      · rcases h2 with h2 | h2
        · subst h2
          rcases q2 with q2 | q2
          · exact Or.inl q2
          · exact Or.inr (List.mem_cons_of_mem _ q2)
        · exact Or.inr (by simp [h2])
      · intro q w hm
        rcases List.mem_cons.1 hm with h | h
        · exact h3 q w h.symm
        · exact q3 q w h
      · intro e' hm
        rcases List.mem_cons.1 hm with h | h
        · rw [h]; exact h4
        · exact q4 e' h
    have drop : ∀ R : Id → Prop, ((Abs.of l).drop R).art a = some (b, v) →
        ¬ R a ∧ (Abs.of l).art a = some (b, v) := by
      intro R hR
      simp only [Abs.drop] at hR
      by_cases hr : R a
      · simp [hr] at hR
      · simp only [hr, if_false] at hR; exact ⟨hr, hR⟩
    simp only [Abs.of, Abs.apply] at h
    cases e with
    | built p w =>
      simp only at h
      by_cases hap : a = p.id
      · simp only [hap, if_true] at h
        cases h
        refine ⟨[], l, v, by rw [hap]; rfl, Or.inl rfl, by simp, by simp⟩
      · simp only [hap, if_false] at h
        exact keep v h (Or.inl rfl) (by intro q x he; cases he; exact fun h => hap h.symm) (by simp)
    | invalidate p =>
      obtain ⟨h1, h2⟩ := drop _ h
      refine keep v h2 (Or.inl rfl) (by simp) ⟨by simp, by simp, by simp, ?_⟩
      rintro q hq he
      cases he
      subst hq
      exact h1 Relation.ReflTransGen.refl
    | mutDeps x =>
      obtain ⟨h1, h2⟩ := drop _ h
      exact keep v h2 (Or.inl rfl) (by simp) (by simp)
    | collect x =>
      obtain ⟨h1, h2⟩ := drop _ h
      refine keep v h2 (Or.inl rfl) (by simp) ⟨by simp, by simp, ?_, by simp⟩
      intro he
      cases he
      exact h1 Relation.ReflTransGen.refl
    | clear => cases h
    | clearArtifacts => cases h
    | write x w =>
      by_cases hax : a = x
      · subst hax
        simp only [if_true] at h
        cases ha : (Abs.of l).art a with
        | none => rw [ha] at h; cases h
        | some bv =>
          rw [ha] at h
          simp at h
          obtain ⟨rfl, rfl⟩ := h
          exact keep bv.2 ha (Or.inr rfl) (by simp) (by simp)
      · simp only [hax, if_false] at h
        exact keep v h (Or.inl rfl) (by simp) (by simp)
    | initDyn p o =>
      cases o <;> exact keep v h (Or.inl rfl) (by simp) (by simp)
    | resolve | call | setDyn | purged => exact keep v h (Or.inl rfl) (by simp) (by simp)

/-- The same for dynamic states. -/
theorem Abs.state_origin {l : List (Event σ)} {a : Id} {b : σ.B} {d : σ.S}
    (h : (Abs.of l).state a = some (b, d)) :
    ∃ post pre, (l = post ++ .initDyn ⟨a, b⟩ (some d) :: pre ∨ l = post ++ .setDyn ⟨a, b⟩ d :: pre) ∧
      ∀ e ∈ post, e ≠ .clear ∧ e ≠ .collect a ∧ ∀ q : Promise σ, q.id = a →
        e ≠ .purged q ∧ (∀ d', e ≠ .setDyn q d') ∧ ∀ d', e ≠ .initDyn q (some d') := by
  induction l with
  | nil => cases h
  | cons e l ih =>
    have keep : (Abs.of l).state a = some (b, d) →
        (e ≠ .clear ∧ e ≠ .collect a ∧ ∀ q : Promise σ, q.id = a →
          e ≠ .purged q ∧ (∀ d', e ≠ .setDyn q d') ∧ ∀ d', e ≠ .initDyn q (some d')) →
        ∃ post pre, (e :: l = post ++ .initDyn ⟨a, b⟩ (some d) :: pre ∨
            e :: l = post ++ .setDyn ⟨a, b⟩ d :: pre) ∧
          ∀ e ∈ post, e ≠ .clear ∧ e ≠ .collect a ∧ ∀ q : Promise σ, q.id = a →
            e ≠ .purged q ∧ (∀ d', e ≠ .setDyn q d') ∧ ∀ d', e ≠ .initDyn q (some d') := by
      intro h1 h2
      obtain ⟨post, pre, q1, q2⟩ := ih h1
      refine ⟨e :: post, pre, ?_, ?_⟩
      · rcases q1 with q1 | q1
        · exact Or.inl (by simp [q1])
        · exact Or.inr (by simp [q1])
      · intro e' hm
        rcases List.mem_cons.1 hm with h | h
        · rw [h]; exact h2
        · exact q2 e' h
    simp only [Abs.of, Abs.apply] at h
    cases e with
    | initDyn p o =>
      cases o with
      | none => exact keep h (by simp)
      | some d' =>
        simp only at h
        by_cases hap : a = p.id
        · simp only [hap, if_true] at h
          cases h
          exact ⟨[], l, Or.inl (by rw [hap]; rfl), by simp⟩
        · simp only [hap, if_false] at h
          refine keep h ⟨by simp, by simp, fun q hq => ⟨by simp, by simp, ?_⟩⟩
          intro d'' he; cases he; exact hap hq.symm
    | setDyn p d' =>
      simp only at h
      by_cases hap : a = p.id
      · simp only [hap, if_true] at h
        cases h
        exact ⟨[], l, Or.inr (by rw [hap]; rfl), by simp⟩
      · simp only [hap, if_false] at h
        refine keep h ⟨by simp, by simp, fun q hq => ⟨by simp, ?_, by simp⟩⟩
        intro d'' he; cases he; exact hap hq.symm
    | purged p =>
      simp only at h
      by_cases hap : a = p.id
      · simp [hap] at h
      · simp only [hap, if_false] at h
        refine keep h ⟨by simp, by simp, fun q hq => ⟨?_, by simp, by simp⟩⟩
        intro he; cases he; exact hap hq.symm
    | collect x =>
      simp only at h
      by_cases hax : a = x
      · simp [hax] at h
      · simp only [hax, if_false] at h
        refine keep h ⟨by simp, ?_, by simp⟩
        intro he; cases he; exact hax rfl
    | clear => cases h
    | clearArtifacts => exact keep h (by simp)
    | _ => exact keep h (by simp)

/-- **C24** If the cache has an artifact for the (live) promise `p`, then it was put there by a build
of this very builder `p` (not by an earlier one at the same address), and neither was it invalidated
since nor did any other build put something there since.  The value is what that build returned, or
what the caller wrote through mutable access. -/
theorem C24_artifact_is_own (h : Reachable Y s) {p : Promise σ} (hl : s.live p = true) {v : σ.V}
    (hv : Cached s p.id v) :
    ∃ post pre v0, s.c.log = post ++ .built p v0 :: pre ∧ (v0 = v ∨ .write p.id v ∈ post) ∧
      (∀ q w, .built q w ∈ post → q.id ≠ p.id) ∧
      ∀ e ∈ post, e ≠ .clear ∧ e ≠ .clearArtifacts ∧ e ≠ .collect p.id ∧
        ∀ q : Promise σ, q.id = p.id → e ≠ .invalidate q := by
  have hi := h.inv
  have h1 := hi.absArt p.id
  unfold Cached at hv
  rw [hv] at h1
  cases ha : (Abs.of s.c.log).art p.id with
  | none => rw [ha] at h1; cases h1
  | some bv =>
    rw [ha] at h1
    simp at h1
    have hb := hi.heapKnown _ _ _ (hi.absArtB _ _ ha) (live_iff.1 hl)
    refine Abs.art_origin ?_
    rw [ha, ← hb, h1]

/-- The hypotheses are met, also when an address is used again: builder 2 is dropped, collected, and
another builder 11 takes its place. -/
example : ∃ post pre v0, (Demo.after [.get .bin (Demo.P 2), .free 12, .gc, .alloc ⟨12, 11⟩,
      .get .bin ⟨12, 11⟩]).c.log = post ++ .built ⟨12, 11⟩ v0 :: pre ∧ (v0 = 11 ∨ .write 12 11 ∈ post) := by
  obtain ⟨post, pre, v0, h1, h2, _⟩ := C24_artifact_is_own (p := ⟨12, 11⟩) (v := 11)
    (Demo.reach [.get .bin (Demo.P 2), .free 12, .gc, .alloc ⟨12, 11⟩, .get .bin ⟨12, 11⟩] (by decide))
    (by decide) (by unfold Cached; decide)
  exact ⟨post, pre, v0, h1, h2⟩

/-- **C24** The dynamic state of a live promise was initialised or last set by this very builder. -/
theorem C24_state_is_own (h : Reachable Y s) {p : Promise σ} (hl : s.live p = true) {d : σ.S}
    (hd : HasState s p.id d) :
    ∃ post pre, (s.c.log = post ++ .initDyn p (some d) :: pre ∨ s.c.log = post ++ .setDyn p d :: pre) ∧
      ∀ e ∈ post, e ≠ .clear ∧ e ≠ .collect p.id ∧ ∀ q : Promise σ, q.id = p.id →
        e ≠ .purged q ∧ (∀ d', e ≠ .setDyn q d') ∧ ∀ d', e ≠ .initDyn q (some d') := by
  have hi := h.inv
  have h1 := hi.absDyn p.id
  unfold HasState at hd
  rw [hd] at h1
  cases ha : (Abs.of s.c.log).state p.id with
  | none => rw [ha] at h1; cases h1
  | some bv =>
    rw [ha] at h1
    simp at h1
    have hb := hi.heapKnown _ _ _ (hi.absDynB _ _ ha) (live_iff.1 hl)
    refine Abs.state_origin ?_
    rw [ha, ← hb, h1]

example : ∃ post pre, Demo.s1.c.log = post ++ .initDyn (Demo.P 0) (some 5) :: pre ∨
    Demo.s1.c.log = post ++ .setDyn (Demo.P 0) 5 :: pre := by
  obtain ⟨post, pre, h, _⟩ := C24_state_is_own Demo.reach1 (p := Demo.P 0) (d := 5) (by decide)
    (by unfold HasState; decide)
  exact ⟨post, pre, h⟩

/-! ## C27, C39: what happens between two events -/

/-- The event may remove the artifact of `a`. -/
def Event.mayDrop : Event σ → Prop
  | .invalidate _ | .mutDeps _ | .collect _ | .clear | .clearArtifacts => True
  | _ => False

/-- The event removes the dynamic state of `a`. -/
def Event.dropsState (a : Id) : Event σ → Prop
  | .purged p => p.id = a
  | .collect x => x = a
  | .clear => True
  | _ => False

theorem Abs.art_stays {l mid : List (Event σ)} {a : Id} (h : (Abs.of l).art a ≠ none)
    (hm : ∀ e ∈ mid, ¬ e.mayDrop) : (Abs.of (mid ++ l)).art a ≠ none := by
  induction mid with
  | nil => exact h
  | cons e mid ih =>
    have ih := ih fun e he => hm e (List.mem_cons_of_mem _ he)
    have he := hm e (by simp)
    simp only [List.cons_append, Abs.of]
    generalize Abs.of (mid ++ l) = A at ih
    cases e with
    | built p v =>
      simp only [Abs.apply]
      split
      · simp
      · exact ih
    | write x v =>
      simp only [Abs.apply]
      split
      · next hx => subst hx; simpa using ih
      · exact ih
    | initDyn p o => cases o <;> exact ih
    | resolve | call | setDyn | purged => exact ih
    | _ => exact absurd trivial he

theorem Abs.state_stays {l mid : List (Event σ)} {a : Id} (h : (Abs.of l).state a ≠ none)
    (hm : ∀ e ∈ mid, ¬ e.dropsState a) : (Abs.of (mid ++ l)).state a ≠ none := by
  induction mid with
  | nil => exact h
  | cons e mid ih =>
    have ih := ih fun e he => hm e (List.mem_cons_of_mem _ he)
    have he := hm e (by simp)
    simp only [List.cons_append, Abs.of]
    generalize Abs.of (mid ++ l) = A at ih
    cases e with
    | initDyn p o =>
      cases o with
      | none => exact ih
      | some d =>
        simp only [Abs.apply]
        split
        · simp
        · exact ih
    | setDyn p d =>
      simp only [Abs.apply]
      split
      · simp
      · exact ih
    | purged p =>
      simp only [Abs.apply]
      rw [if_neg (fun h => he h.symm)]
      exact ih
    | collect x =>
      simp only [Abs.apply]
      rw [if_neg (fun h => he h.symm)]
      exact ih
    | clear => exact absurd trivial he
    | _ => exact ih

/-- **C27** `Builder::build` is only called while no artifact of this builder is cached: whenever it is
called in a history, the cache as replayed up to this point had none. -/
theorem C27_call_only_uncached (h : Reachable Y s) {p : Promise σ} {post pre : List (Event σ)}
    (hl : s.c.log = post ++ .call p :: pre) : (Abs.of pre).art p.id = none :=
  h.logOk.split hl

/-- The hypothesis is met by the second call of 0, after an invalidation. -/
example : (Abs.of ([.invalidate (Demo.P 0), .built (Demo.P 0) 0, .setDyn (Demo.P 0) 0, .call (Demo.P 0),
    .initDyn (Demo.P 0) (some 0)] : List (Event Demo.sig))).art 10 = none :=
  C27_call_only_uncached (p := Demo.P 0) (post := [.built (Demo.P 0) 0, .setDyn (Demo.P 0) 0])
    (Demo.reach [.get .bin (Demo.P 0), .invalidate (Demo.P 0), .get .bin (Demo.P 0)] (by decide)) rfl

/-- **C27** Between a successful build and the next call of the same builder there is an
invalidation, a clearing or a collection. -/
theorem C27_call_needs_invalidation (h : Reachable Y s) {p q : Promise σ} {v : σ.V} (hpq : q.id = p.id)
    {post mid pre : List (Event σ)} (hl : s.c.log = post ++ .call q :: (mid ++ .built p v :: pre)) :
    ∃ e ∈ mid, e.mayDrop := by
  by_contra hno
  have h1 := C27_call_only_uncached h hl
  refine Abs.art_stays (l := .built p v :: pre) (mid := mid) (a := q.id) ?_ ?_ h1
  · simp [Abs.of, Abs.apply, hpq]
  · intro e he hd; exact hno ⟨e, he, hd⟩

/-- The hypotheses are met: builder 0 is built, invalidated and built again. -/
example : ∃ e ∈ [Event.invalidate (Demo.P 0)], (e : Event Demo.sig).mayDrop :=
  C27_call_needs_invalidation (p := Demo.P 0) (q := Demo.P 0) (v := 0)
    (Demo.reach [.get .bin (Demo.P 0), .invalidate (Demo.P 0), .get .bin (Demo.P 0)] (by decide)) rfl
    (post := [.built (Demo.P 0) 0, .setDyn (Demo.P 0) 0])
    (pre := [.setDyn (Demo.P 0) 0, .call (Demo.P 0), .initDyn (Demo.P 0) (some 0)]) rfl

/-- **C39** `init_dyn_state` is only called while the cache has no dynamic state for the builder. -/
theorem C39_init_only_without_state (h : Reachable Y s) {p : Promise σ} {o : Option σ.S}
    {post pre : List (Event σ)} (hl : s.c.log = post ++ .initDyn p o :: pre) :
    (Abs.of pre).state p.id = none :=
  h.logOk.split hl

/-- The hypothesis is met by a second initialisation, after `purge`. -/
example : (Abs.of ([.invalidate (Demo.P 0), .purged (Demo.P 0), .initDyn (Demo.P 0) (some 0)] :
    List (Event Demo.sig))).state 10 = none :=
  C39_init_only_without_state (p := Demo.P 0) (o := some 0) (post := [])
    (Demo.reach [.dynState (Demo.P 0), .purge (Demo.P 0), .dynState (Demo.P 0)] (by decide)) rfl

/-- **C39** Between two calls of `init_dyn_state` for the same id, the first of which returned, the
state was dropped by `purge`, `clear_all` or the garbage collection. -/
theorem C39_init_once (h : Reachable Y s) {p q : Promise σ} {d : σ.S} {o : Option σ.S}
    (hpq : q.id = p.id) {post mid pre : List (Event σ)}
    (hl : s.c.log = post ++ .initDyn q o :: (mid ++ .initDyn p (some d) :: pre)) :
    ∃ e ∈ mid, e.dropsState p.id := by
  by_contra hno
  have h1 := C39_init_only_without_state h hl
  refine Abs.state_stays (l := .initDyn p (some d) :: pre) (mid := mid) (a := q.id) ?_ ?_ h1
  · simp [Abs.of, Abs.apply, hpq]
  · intro e he hd; rw [hpq] at hd; exact hno ⟨e, he, hd⟩

/-- The hypotheses are met: the state is initialised, purged and initialised again. -/
example : ∃ e ∈ [Event.invalidate (Demo.P 0), .purged (Demo.P 0)], (e : Event Demo.sig).dropsState 10 :=
  C39_init_once (p := Demo.P 0) (q := Demo.P 0) (d := 0) (o := some 0)
    (Demo.reach [.dynState (Demo.P 0), .purge (Demo.P 0), .dynState (Demo.P 0)] (by decide)) rfl
    (post := []) (pre := []) rfl

/-! ## C40 -/

/-- **C40** Artifacts, dependencies and dynamic states held by the cache are exactly what replaying
the reported events (and the ghost events for what is not reported) gives. -/
theorem C40_log_determines_cache (h : Reachable Y s) :
    (∀ a v, Cached s a v ↔ ∃ b, (Abs.of s.c.log).art a = some (b, v)) ∧
    (∀ u d, UsesNow s u d ↔ (Abs.of s.c.log).dep u d) ∧
    (∀ a d, HasState s a d ↔ ∃ b, (Abs.of s.c.log).state a = some (b, d)) := by
  refine ⟨?_, ?_, ?_⟩
  · intro a v
    unfold Cached
    rw [h.inv.absArt]
    simp
  · intro u d; rw [uses_eq_history h]
  · intro a v
    unfold HasState
    rw [h.inv.absDyn]
    simp

/-- The artifact 110 of builder 2 can be read off the reports. -/
example : ∃ b, (Abs.of Demo.s1.c.log).art 12 = some (b, 110) :=
  ((C40_log_determines_cache Demo.reach1).1 12 110).1 (by unfold Cached; decide)

/-! ## C30 -/

/-- **C30** After a builder panics (in `build` or `init_dyn_state`, anywhere inside the operation),
the program may catch the panic and go on: the state is reachable, so all properties hold of it. -/
theorem C30_panic_is_reachable (h : Reachable Y s) {n : Nat} {ord : HashOrder} {op : Op σ} {s' : St σ}
    {k : Panic} (hs : step Y n ord s op = (s', .panic k)) (hk : k = .user ∨ k = .init) :
    Reachable Y s' := by
  have := Reachable.step n ord op h (by rw [hs]; rcases hk with rfl | rfl <;> simp [Res.goesOn])
  rwa [hs] at this

/-- Builder 5 panics; the state is reachable. -/
example : Reachable Demo.Y (step Demo.Y 9 Demo.ord Demo.s1 (.get .bin (Demo.P 5))).1 :=
  C30_panic_is_reachable Demo.reach1 (n := 9) (ord := Demo.ord) (op := .get .bin (Demo.P 5)) (k := .user) rfl (.inl rfl)

/-- A `get` of something not cached calls the builder (unless its `init_dyn_state` panics). -/
theorem retry {s' : St σ} (hinv : Inv Y s') {p : Promise σ} (hu : Uncached s' p.id)
    (hl' : s'.live p = true) (n' : Nat) (ord' : HashOrder) (how' : Access) :
    let e := step Y (n' + 1) ord' s' (.get how' p)
    Since s' e.1 (.call p) ∨ e.2 = .panic .init ∨ e.2 = .stuck := by
  rw [step_live rfl hl']
  simp only [exec]
  rw [show getA Y (n' + 1) = getBy Y (build Y (getA Y n')) from rfl]
  rw [getBy_miss hinv (build_ok (getA_ok Y n').1) how' hl' hu]
  have := build_calls (getA_ok Y n').1 hinv hl' hu
  generalize build Y (getA Y n') p s' = x at this
  obtain ⟨s2, r⟩ := x
  simp only at this ⊢
  rcases this with h | h | h
  · exact Or.inl h
  · rw [h]; exact Or.inr (Or.inl rfl)
  · rw [h]; exact Or.inr (Or.inr rfl)

/-- **C03** After `get(p)` returned an error, the next `get(p)` calls the builder again (unless `p` was
built re-entrantly during the first, or its `init_dyn_state` panics; `n + 1`: there is stack space for one
build), whatever ran in between, as long as nothing was cached for `p`. -/
theorem C03_retry (h : Reachable Y s) {n : Nat} {ord : HashOrder} {how : Access} {p : Promise σ}
    {s' : St σ} {e : σ.E} (hs : step Y n ord s (.get how p) = (s', .val (.art (.error e)))) :
    (Uncached s' p.id ∨ ∃ q v, q.id = p.id ∧ Since s s' (.built q v)) ∧
    ∀ s2, Runs Y s' s2 → Uncached s2 p.id → s2.live p = true → ∀ n' ord' how',
        let e := step Y (n' + 1) ord' s2 (.get how' p)
        Since s2 e.1 (.call p) ∨ e.2 = .panic .init ∨ e.2 = .stuck := by
  refine ⟨C03_err_not_cached h hs (Or.inl ⟨e, rfl⟩), ?_⟩
  intro s2 h2 hu hl n' ord' how'
  have h1 : Reachable Y s' := by
    have := h.step n ord (.get how p) (by rw [hs]; trivial)
    rwa [hs] at this
  exact retry (h2.reachable h1).inv hu hl n' ord' how'

/-- The hypotheses are met: the first `get(3)` fails, the second calls 3 again and returns. -/
example : ∃ s', step Demo.Y 9 Demo.ord Demo.s1 (.get .bin (Demo.P 3)) = (s', .val (.art (.error 0))) ∧
    (step Demo.Y 9 Demo.ord s' (.get .bin (Demo.P 3))).2 = .val (.art (.ok 7)) := ⟨_, rfl, rfl⟩

/-- `C03_retry` for builder 3, with nothing in between. -/
example : let s' := (step Demo.Y 9 Demo.ord Demo.s1 (.get .bin (Demo.P 3))).1
    let e := step Demo.Y 9 Demo.ord s' (.get .bin (Demo.P 3))
    Since s' e.1 (.call (Demo.P 3)) ∨ e.2 = .panic .init ∨ e.2 = .stuck :=
  (C03_retry Demo.reach1 (n := 9) (ord := Demo.ord) (how := .bin) (p := Demo.P 3) (e := (0 : Nat)) rfl).2 _ .refl
    (by unfold Uncached; decide) (by decide) 8 Demo.ord .bin

/-- **C30** A `get(p)` inside of which a builder panicked keeps all artifacts, all known builders stay
known, and unless `p` was built re-entrantly, `p` is not cached; the next `get(p)` calls `p` again
(unless its `init_dyn_state` panics; `n + 1`: there is stack space for one build). -/
theorem C30_panic_get (h : Reachable Y s) {n : Nat} {ord : HashOrder} {how : Access} {p : Promise σ}
    {s' : St σ} {k : Panic} (hs : step Y n ord s (.get how p) = (s', .panic k)) :
    (∀ a v, Cached s a v → Cached s' a v) ∧ (∀ a, Known s a → Known s' a) ∧
    (∀ a d, HasState s a d → ∃ d', HasState s' a d') ∧
    ((Uncached s' p.id ∧ (s'.live p = true → ∀ n' ord' how',
        let e := step Y (n' + 1) ord' s' (.get how' p)
        Since s' e.1 (.call p) ∨ e.2 = .panic .init ∨ e.2 = .stuck)) ∨
      ∃ q v, q.id = p.id ∧ Since s s' (.built q v)) := by
  have hl : s.live p = true := by
    cases hl : s.live p with
    | true => rfl
    | false => simp [step, Op.promise?, hl] at hs
  have h2 := hs
  rw [step_live rfl hl] at h2
  simp only [exec] at h2
  have hran := (getA_ok Y n).1.ran how p s h.inv
  have hinv := hran.inv h.inv
  have e1 : (getA Y n how p s).1 = s' := by
    have := congrArg Prod.fst h2; exact this
  rw [e1] at hinv
  have hm := hran.micros
  rw [e1] at hm
  refine ⟨?_, ?_, ?_, ?_⟩
  · intro a v hv; have := hran.keep a v hv; rwa [e1] at this
  · intro a ha
    obtain ⟨b, hb⟩ := (mem_getElem _ _).1 ha
    exact (mem_getElem _ _).2 ⟨b, hm.known_mono _ _ hb⟩
  · intro a d hd; exact (mem_getElem _ _).1 (hm.dyn_mono a ((mem_getElem _ _).2 ⟨d, hd⟩))
  · rcases C03_err_not_cached h hs (Or.inr ⟨k, rfl⟩) with hu | hb
    · exact Or.inl ⟨hu, fun hl' n' ord' how' => retry hinv hu hl' n' ord' how'⟩
    · exact Or.inr hb

/-- The hypothesis is met: builder 5 panics, and the second `get` returns. -/
example : ∃ s', step Demo.Y 9 Demo.ord Demo.s1 (.get .bin (Demo.P 5)) = (s', .panic .user) ∧
    (step Demo.Y 9 Demo.ord s' (.get .bin (Demo.P 5))).2 = .val (.art (.ok 5)) := ⟨_, rfl, rfl⟩

/-- `C30_panic_get`: builder 5 panics, and the artifact of 2 is still there. -/
example : Cached (step Demo.Y 9 Demo.ord Demo.s1 (.get .bin (Demo.P 5))).1 12 110 :=
  (C30_panic_get Demo.reach1 (n := 9) (ord := Demo.ord) (how := .bin) (p := Demo.P 5) (k := .user) rfl).1 _ _
    (by unfold Cached; decide)

/-! ## C31 -/

/-- Clone what is answered, if asked to. -/
def seenAns (Y : Sys σ) (how : Access) : Res (Ans σ) → Res (Ans σ)
  | .val (.art (.ok v)) => .val (.art (.ok (seen Y how v)))
  | .val (.optArt (some v)) => .val (.optArt (some (seen Y how v)))
  | r => r

theorem getA_variant (hi : Inv Y s) (n : Nat) (how : Access) (p : Promise σ) :
    getA Y n how p s = ((getA Y n .bin p s).1, seenRes Y how (getA Y n .bin p s).2) := by
  have hid : ∀ r, seenRes Y .bin r = r := by
    intro r; rcases r with (_ | _) | _ | _ | _ <;> rfl
  cases hl : s.live p with
  | false =>
    rw [(getA_ok Y n).1.dead how p s hl, (getA_ok Y n).1.dead .bin p s hl]; rfl
  | true =>
    cases ha : s.c.artifacts[p.id]? with
    | some v =>
      rw [(getA_ok Y n).1.hit how p s hi hl v ha, (getA_ok Y n).1.hit .bin p s hi hl v ha]; rfl
    | none =>
      rw [getA_eq, getBy_miss hi (getA_ok Y n).2 how hl ha, getBy_miss hi (getA_ok Y n).2 .bin hl ha]
      simp only [hid]

/-- **C31** `get`, `get_ref` and `get_cloned` have the same effect on cache and world, and the same
answer up to cloning; so have the lookups. -/
theorem C31_variants_agree (h : Reachable Y s) (n : Nat) (ord : HashOrder) (how : Access)
    (p : Promise σ) :
    step Y n ord s (.get how p) =
      ((step Y n ord s (.get .bin p)).1, seenAns Y how (step Y n ord s (.get .bin p)).2) ∧
    step Y n ord s (.lookup how p) =
      ((step Y n ord s (.lookup .bin p)).1, seenAns Y how (step Y n ord s (.lookup .bin p)).2) := by
  cases hl : s.live p with
  | false => simp [step, Op.promise?, hl, seenAns]
  | true =>
    constructor
    · rw [step_live rfl hl, step_live rfl hl]
      simp only [exec]
      rw [getA_variant h.inv n how p]
      generalize getA Y n .bin p s = x
      obtain ⟨s', r⟩ := x
      rcases r with (_ | _) | _ | _ | _ <;> rfl
    · rw [(C18_lookups_pure h hl n ord).1, (C18_lookups_pure h hl n ord).1]
      cases s.c.artifacts[p.id]? <;> simp [seenAns, seen]

example : (step Demo.Y 9 Demo.ord (Demo.after []) (.get .cloned (Demo.P 2))).2 = .val (.art (.ok 100)) := rfl

/-- The same code with every `resolve_ref(q)` and `resolve_cloned(q)` replaced by `resolve(q)` (and
an explicit clone). -/
def Prog.plain (Y : Sys σ) : Prog σ → Prog σ
  | .ret r => .ret r
  | .panic => .panic
  | .resolve how q k => .resolve .bin q fun r => (k (r.map (seen Y how))).plain Y
  | .myState f k => .myState f fun d => (k d).plain Y
  | .world f k => .world f fun w => (k w).plain Y
  | .alloc q k => .alloc q (k.plain Y)
  | .free a k => .free a (k.plain Y)

/-- The system in which all builders only use `resolve`. -/
def Sys.plain (Y : Sys σ) : Sys σ := { Y with code := fun b => (Y.code b).plain Y }

theorem runProg_plain {g g' : Getter σ} (hg : GetOk Y g)
    (hgg : ∀ how q s, Inv Y s → g how q s = g' how q s)
    (hv : ∀ how q s, Inv Y s → g how q s = ((g .bin q s).1, seenRes Y how (g .bin q s).2))
    {p : Promise σ} (prog : Prog σ) (hi : Inv Y s) (hk : s.c.known[p.id]? = some p.b)
    (hd : p.id ∈ s.c.dynStates) (hpo : PendOr s p.id) :
    runProg Y g p prog s = runProg Y.plain g' p (prog.plain Y) s := by
  induction prog generalizing s with
  | ret r => cases r <;> rfl
  | panic => rfl
  | resolve how q k ih =>
    simp only [Prog.plain, runProg]
    cases hl : s.live q with
    | false => rfl
    | true =>
      simp only [if_true]
      rw [track_eq (Y := Y) hk, track_eq (Y := Y.plain) hk]
      simp only
      have m1 : Micro Y s (s.onCache (makeKnown q)) := .known q hl
      have hk1 := m1.known_mono _ _ hk
      have m2 : Micro Y (s.onCache (makeKnown q))
          ((s.onCache (makeKnown q)).onCache (addEdge p q)) :=
        .track p q hk1 (hi.live_known hl) (m1.pendOr_mono _ hpo)
      have i2 := (hi.micro m1).micro m2
      have hk2 := m2.known_mono _ _ hk1
      have hd2 := m2.dyn_mono _ (m1.dyn_mono _ hd)
      have hr := hg.ran how q _ i2
      have e1 := hv how q _ i2
      have e2 := hgg .bin q _ i2
      simp only [St.onCache] at i2 hk2 hd2 hr e1 e2
      rw [← e2]
      rw [e1] at hr ⊢
      generalize g .bin q _ = x at hr ⊢
      obtain ⟨s', r⟩ := x
      have i3 := hr.inv i2
      have hk3 := hr.micros.known_mono _ _ hk2
      have hd3 := hr.micros.dyn_mono _ hd2
      have hp3 := hr.micros.pendOr_mono _ (m2.pendOr_mono _ (m1.pendOr_mono _ hpo))
      rcases r with (e | v) | _ | _ | _
      · exact ih (.error e) i3 hk3 hd3 hp3
      · exact ih (.ok (seen Y how v)) i3 hk3 hd3 hp3
      · rfl
      · rfl
      · rfl
  | myState f k ih =>
    simp only [Prog.plain, runProg]
    have hr := myState_ran hi (p := p) (f := f) hk hd (Y := Y)
    rw [show myState Y.plain p f s = myState Y p f s from rfl]
    generalize myState Y p f s = x at hr ⊢
    obtain ⟨s', r⟩ := x
    cases r with
    | val d =>
      exact ih d (hr.inv hi) (hr.micros.known_mono _ _ hk) (hr.micros.dyn_mono _ hd)
        (hr.micros.pendOr_mono _ hpo)
    | _ => rfl
  | world f k ih =>
    simp only [Prog.plain, runProg]
    exact ih _ (hi.micro (.world _)) hk hd hpo
  | alloc q k ih =>
    simp only [Prog.plain, runProg]
    cases ha : allocB q s with
    | none => rfl
    | some s1 =>
      have m : Micro Y s s1 := .alloc q ha
      exact ih (hi.micro m) (m.known_mono _ _ hk) (m.dyn_mono _ hd) (m.pendOr_mono _ hpo)
  | free a k ih =>
    simp only [Prog.plain, runProg]
    exact ih (hi.micro (.free a)) hk hd hpo

theorem build_plain {g g' : Getter σ} (hg : GetOk Y g)
    (hgg : ∀ how q s, Inv Y s → g how q s = g' how q s)
    (hv : ∀ how q s, Inv Y s → g how q s = ((g .bin q s).1, seenRes Y how (g .bin q s).2))
    {p : Promise σ} (hi : Inv Y s) (hl : s.live p = true) (ha : s.c.artifacts[p.id]? = none) :
    build Y g p s = build Y.plain g' p s := by
  have hi' : Inv Y.plain s := ⟨hi.1, hi.2, hi.3, hi.4, hi.5, hi.6, hi.7, hi.8, hi.9, hi.10, hi.11, hi.12,
    hi.13, hi.14, hi.15, hi.16, hi.17⟩
  have hed : ensureDyn Y.plain p s = ensureDyn Y p s := rfl
  rcases build_cases g hi hl ha with ⟨s1, e1, e2⟩ | ⟨s1, e1, e2⟩ | ⟨s1, d, e1, e2⟩ <;>
  rcases build_cases g' hi' hl ha with ⟨s1', e1', e2'⟩ | ⟨s1', e1', e2'⟩ | ⟨s1', d', e1', e2'⟩ <;>
    rw [hed, e1] at e1' <;> cases e1' <;> rw [e2, e2']
  obtain ⟨i1, k1, d1, _⟩ := ensureDyn_enter hi hl ha e1
  rw [runProg_plain hg hgg hv (Y.code p.b) i1 k1 ((mem_getElem _ _).2 ⟨d, d1⟩) (.called s1 p)]
  rfl

theorem getA_plain (n : Nat) : (∀ how p s, Inv Y s → getA Y n how p s = getA Y.plain n how p s) ∧
    ∀ p s, Inv Y s → s.live p = true → s.c.artifacts[p.id]? = none →
      buildN Y n p s = buildN Y.plain n p s := by
  have key : ∀ n, (∀ p s, Inv Y s → s.live p = true → s.c.artifacts[p.id]? = none →
      buildN Y n p s = buildN Y.plain n p s) →
      ∀ how p s, Inv Y s → getA Y n how p s = getA Y.plain n how p s := by
    intro n hb how p s hi
    have hi' : Inv Y.plain s := ⟨hi.1, hi.2, hi.3, hi.4, hi.5, hi.6, hi.7, hi.8, hi.9, hi.10, hi.11,
      hi.12, hi.13, hi.14, hi.15, hi.16, hi.17⟩
    cases hl : s.live p with
    | false => rw [(getA_ok Y n).1.dead how p s hl, (getA_ok Y.plain n).1.dead how p s hl]
    | true =>
      cases ha : s.c.artifacts[p.id]? with
      | some v =>
        rw [(getA_ok Y n).1.hit how p s hi hl v ha, (getA_ok Y.plain n).1.hit how p s hi' hl v ha]
        cases how <;> rfl
      | none =>
        rw [getA_eq, getA_eq, getBy_miss hi (getA_ok Y n).2 how hl ha,
          getBy_miss hi' (getA_ok Y.plain n).2 how hl ha, hb p s hi hl ha]
        cases how <;> rfl
  induction n with
  | zero => exact ⟨key 0 fun _ _ _ _ _ => rfl, fun _ _ _ _ _ => rfl⟩
  | succ n ih =>
    have hb : ∀ p s, Inv Y s → s.live p = true → s.c.artifacts[p.id]? = none →
        buildN Y (n + 1) p s = buildN Y.plain (n + 1) p s := fun p s hi hl ha =>
      build_plain (getA_ok Y n).1 ih.1 (fun how q s hi => getA_variant hi n how q) hi hl ha
    exact ⟨key (n + 1) hb, hb⟩

/-- **C31** Inside builds: replacing in the code of all builders `resolve_ref` and `resolve_cloned` by
`resolve` (plus a clone) changes nothing at all. -/
theorem C31_resolve_variants (h : Reachable Y s) (n : Nat) (ord : HashOrder) (how : Access)
    (p : Promise σ) : step Y n ord s (.get how p) = step Y.plain n ord s (.get how p) := by
  unfold step
  simp only [Op.promise?, exec, (getA_plain n).1 how p s h.inv]

/-- Builder 2 resolves 1 with `resolve_ref` and 0 with `resolve_cloned`. -/
example : step Demo.Y 9 Demo.ord (Demo.after []) (.get .bin (Demo.P 2)) =
    step Demo.Y.plain 9 Demo.ord (Demo.after []) (.get .bin (Demo.P 2)) :=
  C31_resolve_variants (Demo.reach _ (by decide)) 9 Demo.ord .bin (Demo.P 2)

end Daab
