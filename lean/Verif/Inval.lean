import Verif.Spec
import Mathlib.Data.List.Nodup

/-! # Analysis of `invalidate_by_id` -/

open Std

namespace Daab

variable {σ : Sig}

/-! ## Counting edges -/

theorem toList_nodup {α : Type} (m : AMap α) : m.toList.Nodup := by
  have h : m.keys.Nodup := ExtTreeMap.nodup_keys
  rw [← ExtTreeMap.map_fst_toList_eq_keys] at h
  exact List.Nodup.of_map _ h

theorem toList_erase_perm {α : Type} (m : AMap α) (k : Id) (v : α) (h : m[k]? = some v) :
    m.toList.Perm ((k, v) :: (m.erase k).toList) := by
  rw [List.perm_ext_iff_of_nodup (toList_nodup m)]
  · rintro ⟨a, w⟩
    simp only [ExtTreeMap.mem_toList_iff_getElem?_eq_some, List.mem_cons, Prod.mk.injEq,
      ExtTreeMap.getElem?_erase]
    grind
  · refine List.nodup_cons.2 ⟨?_, toList_nodup _⟩
    simp [ExtTreeMap.mem_toList_iff_getElem?_eq_some]

theorem edgeCount_erase (m : AMap IdSet) (k : Id) (v : IdSet) (h : m[k]? = some v) :
    edgeCount m = v.size + edgeCount (m.erase k) := by
  unfold edgeCount
  rw [((toList_erase_perm m k v h).map _).sum_nat]
  simp

theorem edgeCount_insert_le (m : AMap IdSet) (k : Id) (v v' : IdSet) (h : m[k]? = some v)
    (hv : v'.size ≤ v.size) : edgeCount (m.insert k v') ≤ edgeCount m := by
  have h1 := edgeCount_erase m k v h
  have h2 := edgeCount_erase (m.insert k v') k v' (by simp)
  have h3 : (m.insert k v').erase k = m.erase k := by
    ext x; grind
  rw [h3] at h2
  omega

theorem idset_isEmpty (t : IdSet) : t.isEmpty = true ↔ ∀ x, x ∉ t := by
  rw [ExtTreeSet.isEmpty_iff]
  constructor
  · rintro rfl x; simp
  · intro h; ext x; simp [h x]

/-! ## The inner loop -/

theorem mem_setAt {m : AMap IdSet} {d u : Id} : u ∈ setAt m d ↔ ∃ us, m[d]? = some us ∧ u ∈ us := by
  unfold setAt
  cases m[d]? <;> simp

/-- The outcome of the inner loop. -/
structure Unlinked (processed : IdSet) (bid : Id) (l : List Id) (c c' : Cache σ) : Prop where
  dts_some : ∀ d : Id, (c'.dependents[d]?).isSome = (c.dependents[d]?).isSome
  dts_mem : ∀ d x, x ∈ setAt c'.dependents d ↔
    x ∈ setAt c.dependents d ∧ ¬ (d ∈ l ∧ d ∉ processed ∧ x = bid)
  leafs : ∀ x, x ∈ c'.leafs ↔
    x ∈ c.leafs ∨ (x ∈ l ∧ x ∉ processed ∧ ∀ y ∈ setAt c.dependents x, y = bid)
  count : edgeCount c'.dependents ≤ edgeCount c.dependents
  rest : { c' with dependents := c.dependents, leafs := c.leafs } = c

theorem unlink_spec (Y : Sys σ) (processed : IdSet) (bid : Id) (l : List Id) (hl : l.Nodup)
    (c : Cache σ) (h : ∀ d ∈ l, d ∉ processed → bid ∈ setAt c.dependents d) :
    ∃ c', unlink Y processed bid l c = (c', .done) ∧ Unlinked processed bid l c c' := by
  induction l generalizing c with
  | nil => exact ⟨c, rfl, ⟨by simp, by simp, by simp, Nat.le_refl _, rfl⟩⟩
  | cons dep rest ih =>
    obtain ⟨hnot, hrest⟩ := List.nodup_cons.1 hl
    rw [unlink]
    by_cases hp : dep ∈ processed
    · rw [if_pos hp]
      obtain ⟨c', he, hu⟩ := ih hrest c (fun d hd => h d (List.mem_cons_of_mem _ hd))
      refine ⟨c', he, ⟨hu.dts_some, ?_, ?_, hu.count, hu.rest⟩⟩
      · intro d x; rw [hu.dts_mem]; grind
      · intro x; rw [hu.leafs]; grind
    · rw [if_neg hp]
      have hb := h dep List.mem_cons_self hp
      obtain ⟨set, hset, hmem⟩ := mem_setAt.1 hb
      have hset' : setAt c.dependents dep = set := by simp [setAt, hset]
      simp only [hset]
      have hc : set.contains bid = true := by simpa using hmem
      simp only [hc, Bool.not_true, Bool.and_false, Bool.false_eq_true, if_false]
      have hmem' : ∀ d x, x ∈ setAt (c.dependents.insert dep (set.erase bid)) d ↔
          x ∈ setAt c.dependents d ∧ ¬ (d = dep ∧ x = bid) := by
        intro d x
        by_cases hd : d = dep
        · subst hd
          rw [hset']
          simp only [setAt, ExtTreeMap.getElem?_insert_self, Option.getD_some,
            ExtTreeSet.mem_erase]
          grind
        · have : (c.dependents.insert dep (set.erase bid))[d]? = c.dependents[d]? := by grind
          simp [setAt, this, hd]
      generalize hc2 : (if (set.erase bid).isEmpty = true then
        ({ c with dependents := c.dependents.insert dep (set.erase bid),
                  leafs := c.leafs.insert dep } : Cache σ)
        else { c with dependents := c.dependents.insert dep (set.erase bid) }) = c2
      have hd2 : c2.dependents = c.dependents.insert dep (set.erase bid) := by
        subst hc2; split <;> rfl
      have hl2 : ∀ x, x ∈ c2.leafs ↔ x ∈ c.leafs ∨ (x = dep ∧ ∀ y ∈ set, y = bid) := by
        intro x
        have he : (set.erase bid).isEmpty = true ↔ ∀ y ∈ set, y = bid := by
          rw [idset_isEmpty]
          simp only [ExtTreeSet.mem_erase]
          grind
        subst hc2
        split
        · next h => rw [he] at h; grind
        · next h => rw [he] at h; grind
      have hr2 : { c2 with dependents := c.dependents, leafs := c.leafs } = c := by
        subst hc2; split <;> rfl
      obtain ⟨c', he, hu⟩ := ih hrest c2 (by
        intro d hd hdp
        rw [hd2, hmem']
        exact ⟨h d (List.mem_cons_of_mem _ hd) hdp, by grind⟩)
      refine ⟨c', he, ⟨?_, ?_, ?_, ?_, ?_⟩⟩
      · intro d
        rw [hu.dts_some, hd2]
        by_cases hd : d = dep
        · subst hd; simp [hset]
        · grind
      · intro d x
        rw [hu.dts_mem, hd2, hmem']
        grind
      · intro x
        rw [hu.leafs, hl2, hd2]
        simp only [hmem']
        by_cases hx : x = dep
        · subst hx
          rw [hset']
          grind
        · grind
      · refine Nat.le_trans hu.count ?_
        rw [hd2]
        exact edgeCount_insert_le _ _ _ _ hset (by
          rw [ExtTreeSet.size_erase]; split <;> omega)
      · have := hu.rest
        calc _ = { ({ c' with dependents := c2.dependents, leafs := c2.leafs } : Cache σ) with
              dependents := c.dependents, leafs := c.leafs } := rfl
          _ = _ := by rw [this, hr2]

/-! ## The outer loop -/

/-- Both directions of the dependency maps agree. -/
def Sync (c : Cache σ) : Prop :=
  ∀ u d, u ∈ setAt c.dependents d ↔ d ∈ setAt c.dependencies u

/-- `u` is recorded to depend on `d`. -/
def Dep (c : Cache σ) (u d : Id) : Prop := u ∈ setAt c.dependents d

/-- Cache `c` is `c0` with the builders in `P` invalidated. -/
structure Dropped (P : Id → Prop) (c0 c : Cache σ) : Prop where
  dts_none : ∀ d : Id, P d → c.dependents[d]? = none
  dts_some : ∀ d : Id, ¬ P d → (c.dependents[d]?).isSome = (c0.dependents[d]?).isSome
  dts_mem : ∀ d x : Id, ¬ P d → (x ∈ setAt c.dependents d ↔ x ∈ setAt c0.dependents d ∧ ¬ P x)
  dcs_none : ∀ u : Id, P u → c.dependencies[u]? = none
  dcs_keep : ∀ u : Id, ¬ P u → c.dependencies[u]? = c0.dependencies[u]?
  art_none : ∀ u : Id, P u → c.artifacts[u]? = none
  art_keep : ∀ u : Id, ¬ P u → c.artifacts[u]? = c0.artifacts[u]?
  leafs : ∀ x, x ∈ c.leafs ↔
    x ∈ c0.leafs ∨ P x ∨ ((∃ u, P u ∧ Dep c0 u x) ∧ ∀ y, Dep c0 y x → P y)
  known : c.known = c0.known
  dynStates : c.dynStates = c0.dynStates
  log : c.log = c0.log

/-- Loop invariant. -/
structure LoopInv (c0 : Cache σ) (root : Id) (P : IdSet) (pending : List Id) (c : Cache σ) :
    Prop extends Dropped (· ∈ P) c0 c where
  sub : ∀ x, x ∈ P ∨ x ∈ pending → Hit (Dep c0) root x
  closed : ∀ x y, x ∈ P → Dep c0 y x → y ∈ P ∨ y ∈ pending
  root : root ∈ P ∨ root ∈ pending

theorem mem_foldl_cons (l pending : List Id) (x : Id) :
    x ∈ l.foldl (fun st d => d :: st) pending ↔ x ∈ l ∨ x ∈ pending := by
  induction l generalizing pending with
  | nil => simp
  | cons a l ih => simp only [List.foldl_cons, ih, List.mem_cons]; grind

theorem length_foldl_cons (l pending : List Id) :
    (l.foldl (fun st d => d :: st) pending).length = l.length + pending.length := by
  induction l generalizing pending with
  | nil => simp
  | cons a l ih => simp only [List.foldl_cons, ih, List.length_cons]; omega

/-- The body of the loop before the artifact is removed. -/
theorem loop_body (Y : Sys σ) (ord : HashOrder) (root : Id) (n : Nat) (c0 : Cache σ)
    (hs : Sync c0) (P : IdSet) (bid : Id) (pending : List Id) (c : Cache σ)
    (h : LoopInv c0 root P (bid :: pending) c) :
    ∃ c2, popDependencies Y ord ⟨1, root, n⟩ (P.insert bid) bid
        (popDependents ord ⟨0, root, n⟩ bid pending c).2 = (c2, .done) ∧
      LoopInv c0 root (P.insert bid) (popDependents ord ⟨0, root, n⟩ bid pending c).1
        { c2 with leafs := c2.leafs.insert bid, artifacts := c2.artifacts.erase bid } ∧
      edgeCount c2.dependents + (popDependents ord ⟨0, root, n⟩ bid pending c).1.length + 1 ≤
        edgeCount c.dependents + (bid :: pending).length := by
  -- the dependents
  have hD : ∃ pd c1, popDependents ord ⟨0, root, n⟩ bid pending c = (pd, c1) ∧
      c1 = { c with dependents := c.dependents.erase bid } ∧
      (∀ x, x ∈ pd ↔ x ∈ setAt c.dependents bid ∨ x ∈ pending) ∧
      edgeCount c1.dependents + pd.length = edgeCount c.dependents + pending.length := by
    unfold popDependents
    cases hd : c.dependents[bid]? with
    | none =>
      refine ⟨_, _, rfl, ?_, by simp [setAt, hd], rfl⟩
      have : c.dependents.erase bid = c.dependents := by ext x; grind
      rw [this]
    | some set =>
      refine ⟨_, _, rfl, rfl, ?_, ?_⟩
      · intro x
        rw [mem_foldl_cons, (ord.perm _ _).mem_iff]
        simp [setAt, hd]
      · rw [length_foldl_cons, (ord.perm _ _).length_eq]
        have := edgeCount_erase _ _ _ hd
        simp only [ExtTreeSet.length_toList]
        omega
  obtain ⟨pd, c1, hm, hc1, hpd, hcnt⟩ := hD
  -- the dependencies
  have hmem1 : ∀ d x, x ∈ setAt c1.dependents d ↔ x ∈ setAt c.dependents d ∧ d ≠ bid := by
    intro d x
    subst hc1
    simp only [setAt, ExtTreeMap.getElem?_erase]
    grind
  have hU : ∃ l c2, popDependencies Y ord ⟨1, root, n⟩ (P.insert bid) bid c1 = (c2, .done) ∧
      Unlinked (P.insert bid) bid l { c1 with dependencies := c1.dependencies.erase bid } c2 ∧
      ∀ d, d ∈ l ↔ d ∈ setAt c.dependencies bid := by
    have hcd : c1.dependencies = c.dependencies := by subst hc1; rfl
    unfold popDependencies
    rw [hcd]
    cases hd : c.dependencies[bid]? with
    | none =>
      have : c.dependencies.erase bid = c.dependencies := by ext x; grind
      refine ⟨[], c1, rfl, ?_, by simp [setAt, hd]⟩
      rw [this]
      exact ⟨by simp, by simp, by simp, Nat.le_refl _, by subst hc1; rfl⟩
    | some set =>
      have hperm := ord.perm ⟨1, root, n⟩ set.toList
      have hl : ∀ d, d ∈ ord.f ⟨1, root, n⟩ set.toList ↔ d ∈ set := by
        intro d; rw [hperm.mem_iff]; simp
      have hnP : bid ∉ P := by
        intro hb
        have := h.dcs_none bid hb
        rw [this] at hd; cases hd
      obtain ⟨c2, he, hu⟩ := unlink_spec Y (P.insert bid) bid (ord.f ⟨1, root, n⟩ set.toList)
        (hperm.nodup_iff.2 (by
          have := ExtTreeSet.distinct_toList (t := set)
          rw [List.nodup_iff_pairwise_ne]
          refine this.imp ?_
          intro a b hab heq
          subst heq
          simp at hab))
        { c1 with dependencies := c1.dependencies.erase bid } (by
          intro d hdl hdp
          show bid ∈ setAt c1.dependents d
          rw [hmem1]
          have hdP : d ∉ P := by grind
          have hdb : d ≠ bid := by grind
          refine ⟨(h.dts_mem d bid hdP).2 ⟨?_, hnP⟩, hdb⟩
          rw [hs]
          have := h.dcs_keep bid hnP
          rw [hd] at this
          rw [mem_setAt]
          exact ⟨set, this.symm, (hl d).1 hdl⟩)
      rw [hcd] at he hu
      refine ⟨_, c2, he, hu, ?_⟩
      intro d; rw [hl]; simp [setAt, hd]
  obtain ⟨l, c2, hm2, hu, hldep⟩ := hU
  rw [hm]
  refine ⟨c2, hm2, ?_, ?_⟩
  · -- the invariant
    have hr := hu.rest
    have r_art : c2.artifacts = c.artifacts := by
      have := congrArg Cache.artifacts hr; subst hc1; simpa using this
    have r_dyn : c2.dynStates = c.dynStates := by
      have := congrArg Cache.dynStates hr; subst hc1; simpa using this
    have r_dcs : c2.dependencies = c.dependencies.erase bid := by
      have := congrArg Cache.dependencies hr; subst hc1; simpa using this
    have r_kn : c2.known = c.known := by
      have := congrArg Cache.known hr; subst hc1; simpa using this
    have r_log : c2.log = c.log := by
      have := congrArg Cache.log hr; subst hc1; simpa using this
    have hP : ∀ x, x ∈ P.insert bid ↔ x = bid ∨ x ∈ P := by
      intro x; rw [ExtTreeSet.mem_insert]; grind
    -- dependents of bid in `c` vs. `c0`
    have hdb : ∀ x, x ∈ P ∨ x ∈ setAt c.dependents bid ∨ bid ∈ P ↔
        x ∈ P ∨ Dep c0 x bid ∨ bid ∈ P := by
      intro x
      by_cases hb : bid ∈ P
      · simp [hb]
      · have := h.dts_mem bid x hb
        unfold Dep
        grind
    have hldep0 : ∀ d, d ∈ l ↔ bid ∉ P ∧ Dep c0 bid d := by
      intro d
      rw [hldep]
      by_cases hb : bid ∈ P
      · have := h.dcs_none bid hb
        simp [setAt, this, hb]
      · have h1 := h.dcs_keep bid hb
        have h2 := hs bid d
        unfold Dep
        simp only [setAt, h1] at h2 ⊢
        grind
    refine { dts_none := ?_, dts_some := ?_, dts_mem := ?_, dcs_none := ?_, dcs_keep := ?_,
             art_none := ?_, art_keep := ?_, leafs := ?_, known := ?_, dynStates := ?_, log := ?_,
             sub := ?_, closed := ?_, root := ?_ }
    · intro d hd
      have h1 := hu.dts_some d
      have h2 : c1.dependents[d]? = none := by
        subst hc1
        rw [hP] at hd
        rcases hd with rfl | hd
        · simp
        · have := h.dts_none d hd
          simp only [ExtTreeMap.getElem?_erase]; grind
      simp only [h2] at h1
      show c2.dependents[d]? = none
      cases hx : c2.dependents[d]? with
      | none => rfl
      | some _ => simp only [hx] at h1; cases h1
    · intro d hd
      rw [hP] at hd
      have h1 := hu.dts_some d
      have h2 := h.dts_some d (by grind)
      have h3 : c1.dependents[d]? = c.dependents[d]? := by subst hc1; grind
      simp only [h3] at h1
      exact h1.trans h2
    · intro d x hd
      have h1 := hu.dts_mem d x
      have h2 := h.dts_mem d x (by rw [hP] at hd; grind)
      have h3 := hmem1 d x
      have h4 := hldep0 d
      have h5 := h.dts_mem d bid (by rw [hP] at hd; grind)
      rw [hP] at hd ⊢
      simp only [hP] at h1
      show x ∈ setAt c2.dependents d ↔ _
      rw [h1]
      show (x ∈ setAt c1.dependents d ∧ _) ↔ _
      rw [h3, h2, h4]
      unfold Dep
      by_cases hxb : x = bid
      · subst hxb; grind
      · grind
    · intro u hu'
      rw [hP] at hu'
      show c2.dependencies[u]? = none
      rw [r_dcs]
      rcases hu' with rfl | hu'
      · simp
      · have := h.dcs_none u hu'
        simp only [ExtTreeMap.getElem?_erase]; grind
    · intro u hu'
      rw [hP] at hu'
      show c2.dependencies[u]? = _
      rw [r_dcs, ← h.dcs_keep u (by grind)]
      simp only [ExtTreeMap.getElem?_erase]; grind
    · intro u hu'
      rw [hP] at hu'
      show (c2.artifacts.erase bid)[u]? = none
      rw [r_art]
      rcases hu' with rfl | hu'
      · simp
      · have := h.art_none u hu'
        simp only [ExtTreeMap.getElem?_erase]; grind
    · intro u hu'
      rw [hP] at hu'
      show (c2.artifacts.erase bid)[u]? = _
      rw [r_art, ← h.art_keep u (by grind)]
      simp only [ExtTreeMap.getElem?_erase]; grind
    · intro x
      show x ∈ c2.leafs.insert bid ↔ _
      have h1 := hu.leafs x
      have h2 : ({ c1 with dependencies := c1.dependencies.erase bid } : Cache σ).leafs = c.leafs := by
        subst hc1; rfl
      rw [h2] at h1
      have h3 := h.leafs x
      have h4 := hldep0 x
      have h5 : ∀ y, y ∈ setAt
          ({ c1 with dependencies := c1.dependencies.erase bid } : Cache σ).dependents x ↔
          y ∈ setAt c.dependents x ∧ x ≠ bid := fun y => hmem1 x y
      simp only [h5] at h1
      have h6 := fun hx y => h.dts_mem x y hx
      rw [ExtTreeSet.mem_insert]
      simp only [hP] at h1 ⊢
      rw [h1, h3, h4]
      change _ → ∀ y, _ ∈ _ ↔ Dep c0 y x ∧ _ at h6
      by_cases hxb : x = bid
      · subst hxb; simp
      by_cases hxP : x ∈ P
      · simp [hxP]
      have h7 := h6 hxP
      simp only [h7]
      constructor
      · rintro (hx | (hx | hx | ⟨⟨u, hu1, hu2⟩, hx⟩) | ⟨⟨_, hx1⟩, _, hx2⟩)
        · exact Or.inr (Or.inl (Or.inl (Nat.compare_eq_eq.1 hx).symm))
        · exact Or.inl hx
        · exact Or.inr (Or.inl (Or.inr hx))
        · exact Or.inr (Or.inr ⟨⟨u, Or.inr hu1, hu2⟩, fun y hy => Or.inr (hx y hy)⟩)
        · refine Or.inr (Or.inr ⟨⟨bid, Or.inl rfl, hx1⟩, fun y hy => ?_⟩)
          by_cases hyP : y ∈ P
          · exact Or.inr hyP
          · exact Or.inl (hx2 y ⟨⟨hy, hyP⟩, hxb⟩)
      · rintro (hx | hx | ⟨⟨u, hu1, hu2⟩, hx⟩)
        · exact Or.inr (Or.inl (Or.inl hx))
        · grind
        · by_cases hall : ∀ y, Dep c0 y x → y ∈ P
          · exact Or.inr (Or.inl (Or.inr (Or.inr ⟨⟨u, hall u hu2, hu2⟩, hall⟩)))
          · have hb : ∃ y, Dep c0 y x ∧ y ∉ P := by
              simpa using hall
            obtain ⟨y, hy1, hy2⟩ := hb
            have hyb : y = bid := by grind
            subst hyb
            refine Or.inr (Or.inr ⟨⟨hy2, hy1⟩, by grind, ?_⟩)
            rintro z ⟨⟨hz1, hz2⟩, _⟩
            have := hx z hz1
            grind
    · exact r_kn.trans h.known
    · exact r_dyn.trans h.dynStates
    · exact r_log.trans h.log
    · intro x hx
      rw [hP, hpd] at hx
      have hbid := h.sub bid (Or.inr List.mem_cons_self)
      rcases hx with (rfl | hx) | hx | hx
      · exact hbid
      · exact h.sub x (Or.inl hx)
      · by_cases hbP : bid ∈ P
        · have := h.dts_none bid hbP
          simp [setAt, this] at hx
        · have := (h.dts_mem bid x hbP).1 hx
          exact Relation.ReflTransGen.head this.1 hbid
      · exact h.sub x (Or.inr (List.mem_cons_of_mem _ hx))
    · intro x y hx hy
      rw [hP, hpd]
      rw [hP] at hx
      have hxx : x ∈ P → y ∈ P ∨ y ∈ bid :: pending := fun hx => h.closed x y hx hy
      by_cases hxP : x ∈ P
      · rcases hxx hxP with h1 | h1
        · exact Or.inl (Or.inr h1)
        · rcases List.mem_cons.1 h1 with h1 | h1
          · exact Or.inl (Or.inl h1)
          · exact Or.inr (Or.inr h1)
      · have hxb : x = bid := by grind
        subst hxb
        by_cases hyP : y ∈ P
        · exact Or.inl (Or.inr hyP)
        · exact Or.inr (Or.inl ((h.dts_mem x y hxP).2 ⟨hy, hyP⟩))
    · rw [hP, hpd]
      rcases h.root with hr | hr
      · exact Or.inl (Or.inr hr)
      · rcases List.mem_cons.1 hr with h1 | h1
        · exact Or.inl (Or.inl h1)
        · exact Or.inr (Or.inr h1)
  · have h1 := hu.count
    have h2 : edgeCount c2.dependents ≤ edgeCount c1.dependents := h1
    show edgeCount c2.dependents + pd.length + 1 ≤ _
    simp only [List.length_cons]
    omega

theorem invLoop_spec (Y : Sys σ) (ord : HashOrder) (root : Id) (n : Nat) (c0 : Cache σ)
    (hs : Sync c0) (P : IdSet) (pending : List Id) (c : Cache σ)
    (h : LoopInv c0 root P pending c)
    (hn : edgeCount c.dependents + pending.length ≤ n) :
    ∃ c', invLoop Y ord root n P pending c = (c', .done) ∧ Dropped (Hit (Dep c0) root) c0 c' := by
  induction n generalizing P pending c with
  | zero =>
    have : pending = [] := List.length_eq_zero_iff.1 (by omega)
    subst this
    refine ⟨c, by rw [invLoop], ?_⟩
    have hP : (· ∈ P) = Hit (Dep c0) root := by
      funext x
      apply propext
      constructor
      · exact fun hx => h.sub x (Or.inl hx)
      · intro hx
        induction hx using Relation.ReflTransGen.head_induction_on with
        | refl => simpa using h.root
        | head h1 _ ih => simpa using h.closed _ _ ih h1
    exact hP ▸ h.toDropped
  | succ n ih =>
    cases pending with
    | nil =>
      refine ⟨c, by rw [invLoop], ?_⟩
      have hP : (· ∈ P) = Hit (Dep c0) root := by
        funext x
        apply propext
        constructor
        · exact fun hx => h.sub x (Or.inl hx)
        · intro hx
          induction hx using Relation.ReflTransGen.head_induction_on with
          | refl => simpa using h.root
          | head h1 _ ih => simpa using h.closed _ _ ih h1
      exact hP ▸ h.toDropped
    | cons bid pending =>
      obtain ⟨c2, he, hi, hc⟩ := loop_body Y ord root n c0 hs P bid pending c h
      rw [invLoop]
      simp only [he]
      exact ih _ _ _ hi (by simp only; omega)

/-- `invalidate_by_id` terminates without panic and removes exactly the given builder and its
transitive dependents. -/
theorem invalidateById_spec (Y : Sys σ) (ord : HashOrder) (a : Id) (c : Cache σ) (hs : Sync c) :
    ∃ c', invalidateById Y ord a c = (c', .done) ∧ Dropped (Hit (Dep c) a) c c' := by
  have h0 : invalidateById Y ord a c =
      invLoop Y ord a (edgeCount c.dependents + 1) (∅ : IdSet) [a] c := by
    have : ((∅ : IdSet).insert a).insert a = (∅ : IdSet).insert a := by ext x; grind
    unfold invalidateById
    rw [invLoop, invLoop, this]
  rw [h0]
  apply invLoop_spec Y ord a _ c hs
  · exact { dts_none := by simp, dts_some := by simp, dts_mem := by simp, dcs_none := by simp,
            dcs_keep := by simp, art_none := by simp, art_keep := by simp, leafs := by simp,
            known := rfl, dynStates := rfl, log := rfl,
            sub := by
              intro x hx
              have : x = a := by simpa using hx
              subst this
              exact Relation.ReflTransGen.refl
            closed := by simp, root := by simp }
  · simp

end Daab
