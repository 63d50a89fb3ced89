import Verif.Step

/-! # Garbage collection, exactly -/

open Std

namespace Daab

variable {σ : Sig}

theorem hit_none {dep : Id → Id → Prop} {a : Id} (h : ∀ x, ¬ dep x a) : Hit dep a = (· = a) := by
  funext x
  exact propext (hit_self (fun y hy => absurd hy (h y)) x)

/-- `c` is `c0` without the builders in `L`, on which nothing depends. -/
structure Swept (L : Id → Prop) (c0 c : Cache σ) : Prop where
  art_none : ∀ x : Id, L x → c.artifacts[x]? = none
  art_keep : ∀ x : Id, ¬ L x → c.artifacts[x]? = c0.artifacts[x]?
  dyn_none : ∀ x : Id, L x → c.dynStates[x]? = none
  dyn_keep : ∀ x : Id, ¬ L x → c.dynStates[x]? = c0.dynStates[x]?
  known_none : ∀ x : Id, L x → c.known[x]? = none
  known_keep : ∀ x : Id, ¬ L x → c.known[x]? = c0.known[x]?
  dts_none : ∀ d : Id, L d → c.dependents[d]? = none
  dts_some : ∀ d : Id, ¬ L d → (c.dependents[d]?).isSome = (c0.dependents[d]?).isSome
  dts_mem : ∀ d x : Id, x ∈ setAt c.dependents d ↔ x ∈ setAt c0.dependents d ∧ ¬ L x
  dcs_none : ∀ u : Id, L u → c.dependencies[u]? = none
  dcs_keep : ∀ u : Id, ¬ L u → c.dependencies[u]? = c0.dependencies[u]?
  leafs : ∀ x, x ∈ c.leafs ↔ ¬ L x ∧ (x ∈ c0.leafs ∨
    ((∃ u, L u ∧ Dep c0 u x) ∧ ∀ y, Dep c0 y x → L y))

/-- Effect of the collecting loop on a list of builders nothing depends on. -/
theorem collectEach_spec {Y : Sys σ} (ord : HashOrder) (l : List Id) {s : St σ} (hi : Inv Y s)
    (hl : ∀ a ∈ l, ∀ u, ¬ Dep s.c u a) :
    ∃ c', collectEach Y ord l s.c = (c', .done) ∧ Swept (· ∈ l) s.c c' ∧
      c'.log = (l.map Event.collect).reverse ++ s.c.log := by
  induction l generalizing s with
  | nil => exact ⟨s.c, rfl, by constructor <;> simp, by simp⟩
  | cons a l ih =>
    obtain ⟨c1, he, hd⟩ := invalidateById_spec Y ord a s.c hi.sync
    rw [collectEach, he]
    have hc := hi.collected hd
    have hh := hit_none (hl a (by simp))
    have hdep : ∀ u d, Dep (collected a c1) u d ↔ Dep s.c u d ∧ u ≠ a := by
      intro u d
      have := hd.dep u d
      rw [hh] at this
      exact this
    rw [hh] at hd
    obtain ⟨c', he', h1, h6⟩ := ih hc (by
      intro b hb u hu
      exact hl b (by simp [hb]) u ((hdep u b).1 hu).1)
    have hdy := hd.dynStates
    have hkn := hd.known
    have hna : ∀ x, x ∉ setAt s.c.dependents a := fun x => hl a (by simp) x
    refine ⟨c', he', ?_, ?_⟩
    · have ka := hd.art_keep
      have na := hd.art_none
      constructor
      · intro x hx
        by_cases hxl : x ∈ l
        · exact h1.art_none x hxl
        · rw [h1.art_keep x hxl]
          exact na x (by grind)
      · intro x hx
        rw [h1.art_keep x (by grind)]
        exact ka x (by grind)
      · intro x hx
        by_cases hxl : x ∈ l
        · exact h1.dyn_none x hxl
        · rw [h1.dyn_keep x hxl]
          simp only [collected, Cache.emit]
          grind
      · intro x hx
        rw [h1.dyn_keep x (by grind)]
        simp only [collected, Cache.emit, hdy]
        grind
      · intro x hx
        by_cases hxl : x ∈ l
        · exact h1.known_none x hxl
        · rw [h1.known_keep x hxl]
          simp only [collected, Cache.emit]
          grind
      · intro x hx
        rw [h1.known_keep x (by grind)]
        simp only [collected, Cache.emit, hkn]
        grind
      · intro x hx
        by_cases hxl : x ∈ l
        · exact h1.dts_none x hxl
        · have := h1.dts_some x hxl
          simp only [collected, Cache.emit] at this
          rw [hd.dts_none x (by grind)] at this
          cases hq : c'.dependents[x]? with
          | none => rfl
          | some _ => rw [hq] at this; cases this
      · intro x hx
        rw [h1.dts_some x (by grind)]
        exact hd.dts_some x (by grind)
      · intro d x
        rw [h1.dts_mem]
        by_cases hda : d = a
        · subst hda
          have : setAt (collected d c1).dependents d = ∅ := by
            unfold setAt
            simp only [collected, Cache.emit]
            rw [hd.dts_none d rfl]
            rfl
          rw [this]
          have := hna x
          grind
        · have := hd.dts_mem d x hda
          simp only [collected, Cache.emit, this, List.mem_cons]
          grind
      · intro x hx
        by_cases hxl : x ∈ l
        · exact h1.dcs_none x hxl
        · rw [h1.dcs_keep x hxl]
          exact hd.dcs_none x (by grind)
      · intro x hx
        rw [h1.dcs_keep x (by grind)]
        exact hd.dcs_keep x (by grind)
      · intro x
        rw [h1.leafs]
        have hx : x ∈ (collected a c1).leafs ↔ x ≠ a ∧ x ∈ c1.leafs := by
          simp only [collected, Cache.emit]; grind
        have hdx := fun u => hdep u x
        rw [hx, hd.leafs x]
        simp only [hdx, List.mem_cons]
        constructor
        · rintro ⟨h2, h3⟩
          have hxa : x ≠ a := by
            rcases h3 with ⟨h, _⟩ | ⟨⟨u, _, h⟩, _⟩
            · exact h
            · rintro rfl; exact hna u h.1
          refine ⟨by grind, ?_⟩
          grind
        · rintro ⟨h2, h3⟩
          refine ⟨by grind, ?_⟩
          rcases h3 with h | ⟨⟨u, h4, h5⟩, h7⟩
          · exact Or.inl ⟨by grind, Or.inl h⟩
          · by_cases hex : ∃ y, y ∈ l ∧ Dep s.c y x ∧ y ≠ a
            · exact Or.inr ⟨hex, by grind⟩
            · refine Or.inl ⟨by grind, Or.inr (Or.inr ⟨⟨a, rfl, ?_⟩, ?_⟩)⟩
              · by_cases hua : u = a
                · exact hua ▸ h5
                · exact absurd ⟨u, by grind, h5, hua⟩ hex
              · intro y hy
                rcases h7 y hy with h | h
                · exact h
                · by_cases hya : y = a
                  · exact hya
                  · exact absurd ⟨y, h, hy, hya⟩ hex
    · rw [h6]
      simp [collected, Cache.emit, hd.log]

theorem Swept.dep {L : Id → Prop} {c0 c : Cache σ} (h : Swept L c0 c) (u d : Id) :
    Dep c u d ↔ Dep c0 u d ∧ ¬ L u := h.dts_mem d u

/-- A builder the garbage collection drops: known, unreferenced, and nothing depends on it. -/
def Garbage (s : St σ) (a : Id) : Prop :=
  ∃ b, s.c.known[a]? = some b ∧ s.heap[a]? ≠ some b ∧ ∀ u, ¬ Dep s.c u a

theorem selectDead_none {s : St σ} (l : List Id) :
    selectDead s l = none ↔ ∃ a ∈ l, a ∉ s.c.known := by
  induction l with
  | nil => simp [selectDead]
  | cons a l ih =>
    rw [selectDead]
    cases hk : s.c.known[a]? with
    | none => simp; exact Or.inl (by grind)
    | some b =>
      have : a ∈ s.c.known := (mem_getElem _ _).2 ⟨b, hk⟩
      simp only [List.mem_cons, exists_eq_or_imp, this, not_true_eq_false, false_or]
      rw [← ih]
      cases selectDead s l <;> simp

theorem selectDead_some {s : St σ} (l : List Id) (r : List Id) (h : selectDead s l = some r) (a : Id) :
    a ∈ r ↔ a ∈ l ∧ ∃ b, s.c.known[a]? = some b ∧ s.heap[a]? ≠ some b := by
  induction l generalizing r with
  | nil => cases h; simp
  | cons x l ih =>
    rw [selectDead] at h
    cases hk : s.c.known[x]? with
    | none => rw [hk] at h; cases h
    | some b =>
      rw [hk] at h
      simp only at h
      cases hs : selectDead s l with
      | none => rw [hs] at h; cases h
      | some r' =>
        rw [hs] at h
        simp only [Option.some.injEq] at h
        have := ih r' hs
        rw [← h]
        unfold isDead
        by_cases hx : s.heap[x]? = some b
        · simp only [hx, BEq.rfl, Bool.not_true, Bool.false_eq_true, if_false, List.mem_cons]
          grind
        · simp only [beq_eq_false_iff_ne.2 hx, Bool.not_false, if_true, List.mem_cons]
          grind

theorem garbage_iff {Y : Sys σ} {s : St σ} (hi : Inv Y s) {ord : HashOrder} {i : IterPoint}
    {r : List Id} (h : selectDead s (ord.f i s.c.leafs.toList) = some r) (a : Id) :
    a ∈ r ↔ Garbage s a := by
  rw [selectDead_some _ _ h, (ord.perm _ _).mem_iff, ExtTreeSet.mem_toList]
  unfold Garbage
  constructor
  · rintro ⟨hl, b, h1, h2⟩
    exact ⟨b, h1, h2, fun u => hi.leafNo a u hl⟩
  · rintro ⟨b, h1, h2, h3⟩
    refine ⟨?_, b, h1, h2⟩
    rcases hi.knownLeaf a ((mem_getElem _ _).2 ⟨b, h1⟩) with h | ⟨u, hu⟩
    · exact h
    · exact absurd hu (h3 u)

/-- A garbage collection either panics, which happens iff some leaf is not known, or it drops exactly
the garbage. -/
theorem gc_spec {Y : Sys σ} {s : St σ} (hi : Inv Y s) (ord : HashOrder) :
    (garbageCollection Y ord s = (s.c, .panic .leafUnknown) ∧ ∃ a, a ∈ s.c.leafs ∧ a ∉ s.c.known) ∨
    ((∀ a, a ∈ s.c.leafs → a ∈ s.c.known) ∧ ∃ c', garbageCollection Y ord s = (c', .done) ∧
      Swept (Garbage s) s.c c' ∧
      ∃ l : List Id, (∀ x, x ∈ l ↔ Garbage s x) ∧ c'.log = l.map Event.collect ++ s.c.log) := by
  unfold garbageCollection
  rw [gcAssertion_true hi]
  simp only [Bool.not_true, Bool.and_false, Bool.false_eq_true, if_false]
  cases hs : selectDead s (ord.f ⟨3, 0, 0⟩ s.c.leafs.toList) with
  | none =>
    left
    refine ⟨rfl, ?_⟩
    obtain ⟨a, ha, hk⟩ := (selectDead_none _).1 hs
    exact ⟨a, by simpa [(ord.perm _ _).mem_iff] using ha, hk⟩
  | some r =>
    right
    have hlk : ∀ a, a ∈ s.c.leafs → a ∈ s.c.known := by
      intro a ha
      by_cases hk : a ∈ s.c.known
      · exact hk
      · have := (selectDead_none (s := s) _).2 ⟨a, ((ord.perm ⟨3, 0, 0⟩ _).mem_iff).2
          (ExtTreeSet.mem_toList.2 ha), hk⟩
        rw [hs] at this; cases this
    refine ⟨hlk, ?_⟩
    have hg := garbage_iff hi hs
    obtain ⟨c', he, h1, h6⟩ := collectEach_spec ord r hi (by
      intro a ha
      obtain ⟨_, _, _, h⟩ := (hg a).1 ha
      exact h)
    have hgs : (· ∈ r) = Garbage s := by funext a; exact propext (hg a)
    rw [hgs] at h1
    exact ⟨c', he, h1, r.reverse, by intro x; simp [hg], by rw [h6]; simp⟩

end Daab
