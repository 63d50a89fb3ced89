import Verif.Rc

/-! # The reference counts are right -/

open Std

namespace Daab.Mem

variable {T D : Type} {mem : Memory T D}

/-- The counts agree with the strong references `S` and the weak references `K` that exist. -/
def RcOk (mem : Memory T D) (S K : List Addr) : Prop :=
  ∀ a : Addr, match mem[a]? with
    | none => S.count a = 0 ∧ K.count a = 0
    | some x => x.strong = S.count a ∧ x.weak = K.count a + (if x.strong = 0 then 0 else 1) ∧
        0 < x.weak ∧ x.val.isSome = decide (x.strong ≠ 0)

/-- Nothing about the boxes changed but counts and presence of the value, and no box is new. -/
def Sub (mem mem' : Memory T D) : Prop :=
  ∀ (a : Addr) x', mem'[a]? = some x' → ∃ x, mem[a]? = some x ∧ x'.layout = x.layout ∧ x'.ty = x.ty ∧
    x'.origin = x.origin ∧ (x'.val = x.val ∨ x'.val = none)

theorem Sub.refl (mem : Memory T D) : Sub mem mem := fun _ x h => ⟨x, h, rfl, rfl, rfl, .inl rfl⟩

theorem Sub.trans {m1 m2 m3 : Memory T D} (h1 : Sub m1 m2) (h2 : Sub m2 m3) : Sub m1 m3 := by
  intro a x3 h3
  obtain ⟨x2, e2, l2, t2, o2, v2⟩ := h2 a x3 h3
  obtain ⟨x1, e1, l1, t1, o1, v1⟩ := h1 a x2 e2
  refine ⟨x1, e1, l2.trans l1, t2.trans t1, o2.trans o1, ?_⟩
  rcases v2 with v2 | v2
  · rw [v2]; exact v1
  · exact .inr v2

theorem RcOk.congr {S S' K K' : List Addr} (h : RcOk mem S K) (hs : ∀ a, S.count a = S'.count a)
    (hk : ∀ a, K.count a = K'.count a) : RcOk mem S' K' := by
  intro a
  have := h a
  rw [hs, hk] at this
  exact this

theorem RcOk.mem_strong {S K : List Addr} (h : RcOk mem S K) {a : Addr} (ha : a ∈ S) :
    ∃ x, mem[a]? = some x ∧ x.strong ≠ 0 := by
  have := h a
  have hc := List.count_pos_iff.2 ha
  cases hx : mem[a]? with
  | none => rw [hx] at this; simp only at this; omega
  | some x => rw [hx] at this; simp only at this; exact ⟨x, rfl, by omega⟩

theorem RcOk.mem_weak {S K : List Addr} (h : RcOk mem S K) {a : Addr} (ha : a ∈ K) :
    ∃ x, mem[a]? = some x := by
  have := h a
  have hc := List.count_pos_iff.2 ha
  cases hx : mem[a]? with
  | none => rw [hx] at this; simp only at this; omega
  | some x => exact ⟨x, rfl⟩

theorem RcOk.strong_iff {S K : List Addr} (h : RcOk mem S K) {a : Addr} {x : RcBox T D}
    (hx : mem[a]? = some x) : x.strong ≠ 0 ↔ a ∈ S := by
  have := h a
  rw [hx] at this
  simp only at this
  rw [← List.count_pos_iff]
  omega

theorem RcOk.empty : RcOk (∅ : Memory T D) [] [] := by
  intro a; simp

theorem RcOk.new {S K : List Addr} (h : RcOk mem S K) {a : Addr} (ha : mem[a]? = none) (l : Layout)
    (ty : T) (v : D) (o : Nat) : RcOk (rcNew a l ty v o mem) (a :: S) K := by
  intro b
  have hb := h b
  unfold rcNew
  by_cases hab : b = a
  · subst hab
    rw [ha] at hb
    simp at hb ⊢
    omega
  · rw [ExtTreeMap.getElem?_insert]
    rw [if_neg (by simpa using fun h => hab h.symm)]
    rw [List.count_cons_of_ne (fun h => hab h.symm)]
    exact hb

theorem getElem_clone (a b : Addr) : (rcClone a mem)[b]? =
    if a = b then (mem[b]?).map fun x => { x with strong := x.strong + 1 } else mem[b]? := by
  unfold rcClone
  rw [ExtTreeMap.getElem?_modify]
  by_cases h : a = b <;> simp [h]

theorem getElem_downgrade (a b : Addr) : (rcDowngrade a mem)[b]? =
    if a = b then (mem[b]?).map fun x => { x with weak := x.weak + 1 } else mem[b]? := by
  unfold rcDowngrade
  rw [ExtTreeMap.getElem?_modify]
  by_cases h : a = b <;> simp [h]

theorem RcOk.clone {S K : List Addr} (h : RcOk mem S K) {a : Addr} (ha : a ∈ S) :
    RcOk (rcClone a mem) (a :: S) K ∧ Sub mem (rcClone a mem) := by
  obtain ⟨x, hx, hs⟩ := h.mem_strong ha
  constructor
  · intro b
    have hb := h b
    rw [getElem_clone]
    by_cases hab : a = b
    · subst hab
      rw [hx] at hb
      simp only [if_true, hx, Option.map_some, List.count_cons_self] at hb ⊢
      simp_all
    · rw [if_neg hab, List.count_cons_of_ne hab]
      exact hb
  · intro b x' hx'
    rw [getElem_clone] at hx'
    split at hx'
    · cases hm : mem[b]? with
      | none => rw [hm] at hx'; cases hx'
      | some y =>
        rw [hm] at hx'
        cases hx'
        exact ⟨y, rfl, rfl, rfl, rfl, .inl rfl⟩
    · exact ⟨x', hx', rfl, rfl, rfl, .inl rfl⟩

theorem RcOk.downgrade {S K : List Addr} (h : RcOk mem S K) {a : Addr} (ha : a ∈ S) :
    RcOk (rcDowngrade a mem) S (a :: K) ∧ Sub mem (rcDowngrade a mem) := by
  obtain ⟨x, hx, hs⟩ := h.mem_strong ha
  constructor
  · intro b
    have hb := h b
    rw [getElem_downgrade]
    by_cases hab : a = b
    · subst hab
      rw [hx] at hb
      simp only [if_true, hx, Option.map_some, List.count_cons_self] at hb ⊢
      refine ⟨hb.1, ?_, by omega, hb.2.2.2⟩
      have := hb.2.1
      omega
    · rw [if_neg hab, List.count_cons_of_ne hab]
      exact hb
  · intro b x' hx'
    rw [getElem_downgrade] at hx'
    split at hx'
    · cases hm : mem[b]? with
      | none => rw [hm] at hx'; cases hx'
      | some y =>
        rw [hm] at hx'
        cases hx'
        exact ⟨y, rfl, rfl, rfl, rfl, .inl rfl⟩
    · exact ⟨x', hx', rfl, rfl, rfl, .inl rfl⟩

theorem getElem_weakDrop {a : Addr} {x : RcBox T D} (hx : mem[a]? = some x) (b : Addr) :
    (weakDrop a mem)[b]? = if a = b then
      (if x.weak ≤ 1 then none else some { x with weak := x.weak - 1 }) else mem[b]? := by
  unfold weakDrop
  rw [hx]
  simp only
  split
  · rw [ExtTreeMap.getElem?_erase]
    by_cases h : a = b <;> simp [h]
  · rw [ExtTreeMap.getElem?_insert]
    by_cases h : a = b <;> simp [h]

theorem RcOk.weakDrop {S K : List Addr} {a : Addr} (h : RcOk mem S (a :: K)) :
    RcOk (weakDrop a mem) S K ∧ Sub mem (weakDrop a mem) := by
  obtain ⟨x, hx⟩ := h.mem_weak (a := a) (by simp)
  constructor
  · intro b
    have hb := h b
    rw [getElem_weakDrop hx]
    by_cases hab : a = b
    · subst hab
      rw [hx] at hb
      simp only [List.count_cons_self, if_true] at hb ⊢
      obtain ⟨h1, h2, h3, h4⟩ := hb
      by_cases hw : x.weak ≤ 1
      · rw [if_pos hw]
        simp only
        split at h2 <;> omega
      · rw [if_neg hw]
        simp only
        exact ⟨h1, by omega, by omega, h4⟩
    · rw [if_neg hab]
      rw [List.count_cons_of_ne hab] at hb
      exact hb
  · intro b x' hx'
    rw [getElem_weakDrop hx] at hx'
    by_cases hab : a = b
    · subst hab
      rw [if_pos rfl] at hx'
      split at hx'
      · cases hx'
      · cases hx'
        exact ⟨x, hx, rfl, rfl, rfl, .inl rfl⟩
    · rw [if_neg hab] at hx'
      exact ⟨x', hx', rfl, rfl, rfl, .inl rfl⟩

theorem getElem_drop {a : Addr} {x : RcBox T D} (hx : mem[a]? = some x) (b : Addr) :
    (rcDrop a mem)[b]? = if a = b then
      (if x.strong ≤ 1 then
        (if x.weak ≤ 1 then none else some { x with strong := 0, val := none, weak := x.weak - 1 })
       else some { x with strong := x.strong - 1 }) else mem[b]? := by
  unfold rcDrop
  rw [hx]
  simp only
  split
  · rw [getElem_weakDrop (x := { x with strong := 0, val := none }) (by simp)]
    simp only
    by_cases h : a = b
    · simp [h]
    · simp [h, ExtTreeMap.getElem?_insert]
  · rw [ExtTreeMap.getElem?_insert]
    by_cases h : a = b <;> simp [h]

theorem RcOk.drop {S K : List Addr} {a : Addr} (h : RcOk mem (a :: S) K) :
    RcOk (rcDrop a mem) S K ∧ Sub mem (rcDrop a mem) := by
  obtain ⟨x, hx, hne⟩ := h.mem_strong (a := a) (by simp)
  constructor
  · intro b
    have hb := h b
    rw [getElem_drop hx]
    by_cases hab : a = b
    · subst hab
      rw [hx] at hb
      simp only [List.count_cons_self, if_true, if_neg hne] at hb ⊢
      obtain ⟨h1, h2, h3, h4⟩ := hb
      by_cases hs : x.strong ≤ 1
      · rw [if_pos hs]
        by_cases hw : x.weak ≤ 1
        · rw [if_pos hw]
          simp only
          omega
        · rw [if_neg hw]
          simp only [if_true]
          refine ⟨by omega, by omega, by omega, by simp⟩
      · rw [if_neg hs]
        simp only
        refine ⟨by omega, ?_, h3, ?_⟩
        · rw [if_neg (by omega)]; exact h2
        · rw [h4]
          simp only [decide_eq_decide]
          omega
    · rw [if_neg hab]
      rw [List.count_cons_of_ne hab] at hb
      exact hb
  · intro b x' hx'
    rw [getElem_drop hx] at hx'
    by_cases hab : a = b
    · subst hab
      rw [if_pos rfl] at hx'
      split at hx'
      · split at hx'
        · cases hx'
        · cases hx'
          exact ⟨x, hx, rfl, rfl, rfl, .inr rfl⟩
      · cases hx'
        exact ⟨x, hx, rfl, rfl, rfl, .inl rfl⟩
    · rw [if_neg hab] at hx'
      exact ⟨x', hx', rfl, rfl, rfl, .inl rfl⟩

theorem rcUpgrade_iff {S K : List Addr} (h : RcOk mem S K) {a : Addr} (ha : a ∈ K) :
    (rcUpgrade a mem).2 = true ↔ a ∈ S := by
  obtain ⟨x, hx⟩ := h.mem_weak ha
  rw [← h.strong_iff hx]
  unfold rcUpgrade
  rw [hx]
  simp only
  split <;> simp_all

end Daab.Mem
