import Verif.Gc
import Verif.LogFree
import Verif.Props1

/-! # Independence of the hash iteration order -/

open Std

namespace Daab

variable {σ : Sig}

theorem optSet_ext {o o' : Option IdSet} (h1 : o.isSome = o'.isSome)
    (h2 : ∀ x, x ∈ o.getD ∅ ↔ x ∈ o'.getD ∅) : o = o' := by
  cases o <;> cases o' <;> simp at h1 h2 ⊢
  ext x; simpa using h2 x

theorem Dropped.unique {P : Id → Prop} {c0 c1 c2 : Cache σ} (h1 : Dropped P c0 c1)
    (h2 : Dropped P c0 c2) : c1 = c2 := by
  have hd : c1.dependents = c2.dependents := by
    apply ExtTreeMap.ext_getElem?
    intro d
    by_cases hp : P d
    · rw [h1.dts_none d hp, h2.dts_none d hp]
    · apply optSet_ext
      · rw [h1.dts_some d hp, h2.dts_some d hp]
      · intro x
        have e1 := h1.dts_mem d x hp
        have e2 := h2.dts_mem d x hp
        unfold setAt at e1 e2
        rw [e1, e2]
  have hc : c1.dependencies = c2.dependencies := by
    apply ExtTreeMap.ext_getElem?
    intro d
    by_cases hp : P d
    · rw [h1.dcs_none d hp, h2.dcs_none d hp]
    · rw [h1.dcs_keep d hp, h2.dcs_keep d hp]
  have ha : c1.artifacts = c2.artifacts := by
    apply ExtTreeMap.ext_getElem?
    intro d
    by_cases hp : P d
    · rw [h1.art_none d hp, h2.art_none d hp]
    · rw [h1.art_keep d hp, h2.art_keep d hp]
  have hl : c1.leafs = c2.leafs := by
    ext x; rw [h1.leafs, h2.leafs]
  have hk := h1.known.trans h2.known.symm
  have hs := h1.dynStates.trans h2.dynStates.symm
  have hg := h1.log.trans h2.log.symm
  cases c1; cases c2
  simp only at *
  subst_vars
  rfl

theorem Swept.unique {L : Id → Prop} {c0 c1 c2 : Cache σ} (h1 : Swept L c0 c1)
    (h2 : Swept L c0 c2) : c1.withLog [] = c2.withLog [] := by
  have hd : c1.dependents = c2.dependents := by
    apply ExtTreeMap.ext_getElem?
    intro d
    by_cases hp : L d
    · rw [h1.dts_none d hp, h2.dts_none d hp]
    · apply optSet_ext
      · rw [h1.dts_some d hp, h2.dts_some d hp]
      · intro x
        have e1 := h1.dts_mem d x
        have e2 := h2.dts_mem d x
        unfold setAt at e1 e2
        rw [e1, e2]
  have aux : ∀ {α : Type} (f g f0 : AMap α), (∀ x : Id, L x → f[x]? = none) →
      (∀ x : Id, L x → g[x]? = none) → (∀ x : Id, ¬ L x → f[x]? = f0[x]?) →
      (∀ x : Id, ¬ L x → g[x]? = f0[x]?) → f = g := by
    intro α f g f0 a1 a2 a3 a4
    apply ExtTreeMap.ext_getElem?
    intro d
    by_cases hp : L d
    · rw [a1 d hp, a2 d hp]
    · rw [a3 d hp, a4 d hp]
  have hc : c1.dependencies = c2.dependencies :=
    aux _ _ _ h1.dcs_none h2.dcs_none h1.dcs_keep h2.dcs_keep
  have ha : c1.artifacts = c2.artifacts := aux _ _ _ h1.art_none h2.art_none h1.art_keep h2.art_keep
  have hs : c1.dynStates = c2.dynStates := aux _ _ _ h1.dyn_none h2.dyn_none h1.dyn_keep h2.dyn_keep
  have hk : c1.known = c2.known := aux _ _ _ h1.known_none h2.known_none h1.known_keep h2.known_keep
  have hl : c1.leafs = c2.leafs := by
    ext x; rw [h1.leafs, h2.leafs]
  cases c1; cases c2
  simp only [Cache.withLog] at *
  subst_vars
  rfl

variable {Y : Sys σ} {s : St σ}

theorem invalidate_order (hi : Inv Y s) (ord ord' : HashOrder) (p : Promise σ) :
    invalidate Y ord p s.c = invalidate Y ord' p s.c := by
  obtain ⟨c1, e1, d1⟩ := invalidate_spec hi ord p
  obtain ⟨c2, e2, d2⟩ := invalidate_spec hi ord' p
  rw [e1, e2, d1.unique d2]

theorem purge_order (hi : Inv Y s) (ord ord' : HashOrder) (p : Promise σ) :
    purge Y ord p s.c = purge Y ord' p s.c := by
  obtain ⟨c1, f1, e1, d1, rfl⟩ := purge_spec hi ord p
  obtain ⟨c2, f2, e2, d2, rfl⟩ := purge_spec hi ord' p
  rw [e1, e2, d1.unique d2]

theorem invalidateDependents_order (hi : Inv Y s) {ord : HashOrder} (ord' : HashOrder) {a : Id}
    {c' : Cache σ} (h : invalidateDependents Y ord a s.c = (c', .done)) :
    invalidateDependents Y ord' a s.c = (c', .done) := by
  rcases hi.invalidateDependents ord a with ⟨c1, e1, _⟩ | ⟨c1, e1, hall, _⟩
  · rw [h] at e1; cases e1
  · by_cases hself : Dep s.c a a
    · obtain ⟨c1, e1, d1⟩ := invalidateDependents_self Y ord a s.c hi.sync hself hall
      obtain ⟨c2, e2, d2⟩ := invalidateDependents_self Y ord' a s.c hi.sync hself hall
      rw [e2, ← d1.unique d2, ← e1, h]
    · have hno : ∀ x, ¬ Dep s.c x a := by
        intro x hx
        have := hall x hx
        subst this
        exact hself hx
      rw [← h, invalidateDependents_none Y ord a s.c hno, invalidateDependents_none Y ord' a s.c hno]

/-- The panic of finding 2 occurs under both orders or under none. -/
theorem invalidateDependents_order_panic (hi : Inv Y s) {ord : HashOrder} (ord' : HashOrder) {a : Id}
    {c' : Cache σ} (h : invalidateDependents Y ord a s.c = (c', .panic .noCounterpart)) :
    ∃ c'', invalidateDependents Y ord' a s.c = (c'', .panic .noCounterpart) := by
  rcases hi.invalidateDependents ord' a with ⟨c1, e1, _⟩ | ⟨c1, e1, hall, _⟩
  · exact ⟨c1, e1⟩
  · have := invalidateDependents_order hi ord e1
    rw [h] at this; cases this

theorem lookupMut_order (hi : Inv Y s) (ord ord' : HashOrder) {p : Promise σ} (hl : s.live p = true) :
    lookupMut Y ord p s.c = lookupMut Y ord' p s.c ∨
    ((lookupMut Y ord p s.c).2 = .panic .noCounterpart ∧
      (lookupMut Y ord' p s.c).2 = .panic .noCounterpart) := by
  rcases lookupMut_spec hi ord hl with ⟨c1, e1, x, hx⟩ | ⟨c1, e1, d1⟩
  · right
    rcases lookupMut_spec hi ord' hl with ⟨c2, e2, _⟩ | ⟨c2, e2, d2⟩
    · rw [e1, e2]; exact ⟨rfl, rfl⟩
    · rcases hi.invalidateDependents ord' p.id with ⟨c3, e3, _⟩ | ⟨c3, e3, hall, _⟩
      · rw [d2] at e3; cases e3
      · exact absurd (hall x hx.2) hx.1
  · left
    unfold lookupMut
    rw [d1, invalidateDependents_order hi ord' d1]

theorem getMut_order (hi : Inv Y s) (n : Nat) (ord ord' : HashOrder) {p : Promise σ}
    (hl : s.live p = true) :
    getMut Y ord (buildN Y n) p s = getMut Y ord' (buildN Y n) p s ∨
    ((getMut Y ord (buildN Y n) p s).2 = .panic .noCounterpart ∧
      (getMut Y ord' (buildN Y n) p s).2 = .panic .noCounterpart) := by
  rcases lookupMut_order hi ord ord' hl with he | ⟨h1, h2⟩
  · left
    rcases lookupMut_spec hi ord hl with ⟨c1, e1, x, hx⟩ | ⟨c1, e1, d1⟩
    · have e2 := he ▸ e1
      unfold getMut
      rw [e1, e2]
    · have e2 : lookupMut Y ord' p s.c = _ := he ▸ e1
      rcases hi.invalidateDependents ord p.id with ⟨c3, e3, _⟩ | ⟨c3, e3, _, hinv, hno, _⟩
      · rw [d1] at e3; cases e3
      · rw [d1] at e3
        cases e3
        unfold getMut
        rw [e1, e2]
        rcases lookupMut_order hinv ord ord' (p := p) hl with h3 | ⟨h3, _⟩
        · simp only at h3
          cases c1.artifacts[p.id]? with
          | none => rfl
          | some v => simp only [h3]
        · exfalso
          rcases lookupMut_spec hinv ord (p := p) hl with ⟨c4, _, x, hx⟩ | ⟨c4, e4, _⟩
          · exact hno x hx.2
          · rw [e4] at h3; cases h3
  · right
    have : ∀ o, (lookupMut Y o p s.c).2 = .panic .noCounterpart →
        (getMut Y o (buildN Y n) p s).2 = .panic .noCounterpart := by
      intro o ho
      unfold getMut
      generalize lookupMut Y o p s.c = x at ho
      obtain ⟨c, r⟩ := x
      simp only at ho
      subst ho
      rfl
    exact ⟨this _ h1, this _ h2⟩

theorem gc_order (hi : Inv Y s) (ord ord' : HashOrder) :
    (garbageCollection Y ord s).1.withLog [] = (garbageCollection Y ord' s).1.withLog [] ∧
    (garbageCollection Y ord s).2 = (garbageCollection Y ord' s).2 := by
  rcases gc_spec hi ord with ⟨e1, a, ha, hna⟩ | ⟨h1, c1, e1, s1, _⟩
  · rcases gc_spec hi ord' with ⟨e2, _⟩ | ⟨h2, c2, e2, s2, _⟩
    · rw [e1, e2]; exact ⟨rfl, rfl⟩
    · exact absurd (h2 a ha) hna
  · rcases gc_spec hi ord' with ⟨e2, a, ha, hna⟩ | ⟨h2, c2, e2, s2, _⟩
    · exact absurd (h1 a ha) hna
    · rw [e1, e2]; exact ⟨s1.unique s2, rfl⟩

theorem sameButLog_iff {s s' : St σ} : SameButLog s s' ↔ s.withLog [] = s'.withLog [] := Iff.rfl

theorem SameButLog.refl (s : St σ) : SameButLog s s := rfl

theorem SameButLog.trans {s s' s'' : St σ} (h : SameButLog s s') (h' : SameButLog s' s'') :
    SameButLog s s'' := Eq.trans h h'

theorem SameButLog.symm {s s' : St σ} (h : SameButLog s s') : SameButLog s' s := Eq.symm h

theorem SameButLog.step {s s' : St σ} (h : SameButLog s s') (n : Nat) (ord : HashOrder) (op : Op σ) :
    SameButLog (step Y n ord s op).1 (step Y n ord s' op).1 ∧
      (step Y n ord s op).2 = (step Y n ord s' op).2 := by
  obtain ⟨new, hn⟩ := step_logFree Y n ord op s
  obtain ⟨new', hn'⟩ := step_logFree Y n ord op s'
  have e := hn []
  have e' := hn' []
  rw [sameButLog_iff] at h ⊢
  simp only at e e'
  rw [h] at e
  rw [e] at e'
  simp only [Prod.mk.injEq] at e'
  refine ⟨?_, e'.2⟩
  have : ∀ (x : St σ) l, (x.withLog l).withLog [] = x.withLog [] := fun _ _ => rfl
  rw [← this _ (new ++ []), e'.1, this]

/-- One operation under two hash orders. -/
theorem step_order (hi : Inv Y s) (n : Nat) (ord ord' : HashOrder) (op : Op σ) :
    (SameButLog (step Y n ord s op).1 (step Y n ord' s op).1 ∧
      (op ≠ .gc → (step Y n ord s op).2 ≠ .panic .noCounterpart →
        (step Y n ord s op).1 = (step Y n ord' s op).1) ∨
      (step Y n ord s op).2 = .panic .noCounterpart) ∧
    (step Y n ord s op).2 = (step Y n ord' s op).2 := by
  have same : step Y n ord s op = step Y n ord' s op →
      (SameButLog (step Y n ord s op).1 (step Y n ord' s op).1 ∧
      (op ≠ .gc → (step Y n ord s op).2 ≠ .panic .noCounterpart →
        (step Y n ord s op).1 = (step Y n ord' s op).1) ∨
      (step Y n ord s op).2 = .panic .noCounterpart) ∧
    (step Y n ord s op).2 = (step Y n ord' s op).2 := by
    intro h
    rw [h]
    exact ⟨Or.inl ⟨rfl, fun _ _ => rfl⟩, rfl⟩
  by_cases hlive : ∀ p, op.promise? = some p → s.live p = true
  swap
  · apply same
    unfold Daab.step
    cases hp : op.promise? with
    | none => exact absurd (fun p h => by rw [hp] at h; cases h) hlive
    | some p =>
      have : s.live p = false := by
        cases hl : s.live p with
        | false => rfl
        | true => exact absurd (fun q h => by rw [hp] at h; cases h; exact hl) hlive
      simp only [this, Bool.false_eq_true, if_false]
  have hse : ∀ o, step Y n o s op = exec Y n o s op := by
    intro o
    unfold Daab.step
    cases hp : op.promise? with
    | none => rfl
    | some p => simp only [hlive p hp, if_true]
  cases op with
  | invalidate p => apply same; rw [hse, hse]; simp only [exec, invalidate_order hi ord ord' p]
  | purge p => apply same; rw [hse, hse]; simp only [exec, purge_order hi ord ord' p]
  | dynStateMut p f =>
    apply same; rw [hse, hse]; simp only [exec, dynStateMut, invalidate_order hi ord ord' p]
  | gc =>
    have := gc_order hi ord ord'
    simp only [hse, exec]
    refine ⟨Or.inl ⟨?_, fun h => absurd rfl h⟩, by rw [this.2]⟩
    rw [sameButLog_iff]
    unfold St.withLog
    simp only [this.1]
  | lookupMut p f =>
    rcases lookupMut_order hi ord ord' (hlive p rfl) with h | ⟨h1, h2⟩
    · apply same; rw [hse, hse]; simp only [exec, h]
    · have : ∀ o, (lookupMut Y o p s.c).2 = .panic .noCounterpart →
          (step Y n o s (.lookupMut p f)).2 = .panic .noCounterpart := by
        intro o ho
        rw [hse]
        simp only [exec]
        generalize lookupMut Y o p s.c = x at ho
        obtain ⟨c, r⟩ := x
        simp only at ho
        subst ho
        rfl
      exact ⟨Or.inr (this _ h1), by rw [this _ h1, this _ h2]⟩
  | getMut p f =>
    rcases getMut_order hi n ord ord' (hlive p rfl) with h | ⟨h1, h2⟩
    · apply same; rw [hse, hse]; simp only [exec, h]
    · have : ∀ o, (getMut Y o (buildN Y n) p s).2 = .panic .noCounterpart →
          (step Y n o s (.getMut p f)).2 = .panic .noCounterpart := by
        intro o ho
        rw [hse]
        simp only [exec]
        generalize getMut Y o (buildN Y n) p s = x at ho
        obtain ⟨c, r⟩ := x
        simp only at ho
        subst ho
        rfl
      exact ⟨Or.inr (this _ h1), by rw [this _ h1, this _ h2]⟩
  | _ => apply same; rw [hse, hse]; rfl

end Daab
