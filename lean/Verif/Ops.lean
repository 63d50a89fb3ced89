import Verif.Eval

/-! # The invariant is preserved by every operation -/

open Std

namespace Daab

variable {σ : Sig}

/-- The invariant of a cache with the rest of the state replaced. -/
theorem Dropped.dep {c c' : Cache σ} {a : Id} (h : Dropped (Hit (Dep c) a) c c') (u d : Id) :
    Dep c' u d ↔ Dep c u d ∧ ¬ Hit (Dep c) a u := by
  by_cases hd : Hit (Dep c) a d
  · have h1 := h.dts_none d hd
    constructor
    · intro hu; simp [Dep, setAt, h1] at hu
    · rintro ⟨hu, hn⟩
      exact absurd (Relation.ReflTransGen.head hu hd) hn
  · exact h.dts_mem d u hd

theorem Dropped.sync {c c' : Cache σ} {a : Id} (h : Dropped (Hit (Dep c) a) c c') (hs : Sync c) :
    Sync c' := by
  intro u d
  have h1 := h.dep u d
  unfold Dep at h1
  rw [h1]
  by_cases hu : Hit (Dep c) a u
  · have := h.dcs_none u hu
    have h4 : setAt c'.dependencies u = ∅ := by simp [setAt, this]
    rw [h4]
    simp only [ExtTreeSet.not_mem_empty, iff_false, not_and, not_not]
    exact fun _ => hu
  · have h2 := h.dcs_keep u hu
    have h3 := hs u d
    have h4 : setAt c'.dependencies u = setAt c.dependencies u := by simp [setAt, h2]
    rw [h4]
    exact ⟨fun hx => h3.1 hx.1, fun hx => ⟨h3.2 hx, hu⟩⟩

theorem Dropped.leafNo {c c' : Cache σ} {a : Id} (h : Dropped (Hit (Dep c) a) c c')
    (hl : ∀ a u, a ∈ c.leafs → ¬ Dep c u a) (x u : Id) (hx : x ∈ c'.leafs) : ¬ Dep c' u x := by
  rw [h.dep]
  rintro ⟨h1, h2⟩
  rcases (h.leafs x).1 hx with h3 | h3 | ⟨_, h3⟩
  · exact hl x u h3 h1
  · exact h2 (Relation.ReflTransGen.head h1 h3)
  · exact h2 (h3 u h1)

theorem Dropped.leafOr {c c' : Cache σ} {a : Id} (h : Dropped (Hit (Dep c) a) c c') (x : Id)
    (hl : x ∈ c.leafs ∨ ∃ u, Dep c u x) : x ∈ c'.leafs ∨ ∃ u, Dep c' u x := by
  rcases hl with hl | ⟨u, hu⟩
  · exact Or.inl ((h.leafs x).2 (Or.inl hl))
  · by_cases hall : ∀ y, Dep c y x → Hit (Dep c) a y
    · exact Or.inl ((h.leafs x).2 (Or.inr (Or.inr ⟨⟨u, hall u hu, hu⟩, hall⟩)))
    · have : ∃ y, Dep c y x ∧ ¬ Hit (Dep c) a y := by simpa using hall
      obtain ⟨y, h1, h2⟩ := this
      exact Or.inr ⟨y, (h.dep y x).2 ⟨h1, h2⟩⟩

theorem Dropped.art_iff {c c' : Cache σ} {P : Id → Prop} (h : Dropped P c c') (x : Id) (v : σ.V) :
    c'.artifacts[x]? = some v ↔ c.artifacts[x]? = some v ∧ ¬ P x := by
  by_cases hx : P x
  · simp [h.art_none x hx, hx]
  · simp [h.art_keep x hx, hx]

theorem Dropped.art_mem {c c' : Cache σ} {P : Id → Prop} (h : Dropped P c c') (x : Id)
    (hx : x ∈ c'.artifacts) : x ∈ c.artifacts := by
  rw [mem_getElem] at *
  obtain ⟨v, hv⟩ := hx
  exact ⟨v, ((h.art_iff x v).1 hv).1⟩

theorem absDep_eq {Y : Sys σ} {s : St σ} (hi : Inv Y s) : Dep s.c = (Abs.of s.c.log).dep := by
  funext u d; exact propext (hi.absDep u d)

open Classical in
theorem Dropped.absArt {c c' : Cache σ} {P : Id → Prop} (h : Dropped P c c') {A : Abs σ}
    (hA : ∀ a : Id, c.artifacts[a]? = (A.art a).map (·.2)) (a : Id) :
    c'.artifacts[a]? = ((A.drop P).art a).map (·.2) := by
  unfold Abs.drop
  by_cases ha : P a
  · simp [h.art_none a ha, ha]
  · simp [h.art_keep a ha, ha, hA]

/-! ## `invalidate` -/

theorem Inv.invalidated {Y : Sys σ} {s : St σ} (hi : Inv Y s) {p : Promise σ} {c' : Cache σ}
    (h : Dropped (Hit (Dep s.c) p.id) s.c c') :
    Inv Y { s with c := c'.emit (.invalidate p) } := by
  have hlog : Abs.of (c'.emit (.invalidate p)).log =
      (Abs.of s.c.log).drop (Hit (Dep s.c) p.id) := by
    simp only [Cache.emit, Abs.of, Abs.apply, h.log, absDep_eq hi]
  have hdep : ∀ u d, Dep (c'.emit (.invalidate p)) u d ↔ _ := h.dep
  refine { hi with sync := h.sync hi.sync, depU := ?_, depD := ?_, artDyn := ?_, dynKnown := ?_, leafNo := ?_, knownLeaf := ?_, heapKnown := ?_, bornKnown := ?_, artTy := ?_, dynTy := ?_, absArt := ?_, absArtB := ?_, absDyn := ?_, absDynB := ?_, absDep := ?_ }
  · intro u d hd
    simp only [Cache.emit, h.known]
    exact hi.depU u d ((hdep u d).1 hd).1
  · intro u d hd
    simp only [Cache.emit, h.known]
    exact hi.depD u d ((hdep u d).1 hd).1
  · intro a ha
    simp only [Cache.emit, h.dynStates]
    exact hi.artDyn a (h.art_mem a ha)
  · intro a ha
    simp only [Cache.emit, h.dynStates, h.known] at *
    exact hi.dynKnown a ha
  · exact fun a u ha => h.leafNo hi.leafNo a u ha
  · intro a ha
    simp only [Cache.emit, h.known] at ha
    exact h.leafOr a (hi.knownLeaf a ha)
  · simp only [Cache.emit, h.known]; exact hi.heapKnown
  · simp only [Cache.emit, h.known]; exact hi.bornKnown
  · intro a v b hv hb
    simp only [Cache.emit, h.known, h.art_iff] at *
    exact hi.artTy a v b hv.1 hb
  · simp only [Cache.emit, h.known, h.dynStates]; exact hi.dynTy
  · simp only [hlog]
    exact h.absArt hi.absArt
  · intro a bv
    simp only [hlog, Abs.drop]
    simp only [Cache.emit, h.known]
    split
    · intro h; cases h
    · exact hi.absArtB a bv
  · simp only [hlog, Abs.drop]; simp only [Cache.emit, h.dynStates]; exact hi.absDyn
  · simp only [hlog, Abs.drop]; simp only [Cache.emit, h.known]; exact hi.absDynB
  · intro u d
    simp only [hlog, Abs.drop, hdep, hi.absDep]

theorem invalidate_spec {Y : Sys σ} {s : St σ} (hi : Inv Y s) (ord : HashOrder) (p : Promise σ) :
    ∃ c', invalidate Y ord p s.c = (c'.emit (.invalidate p), .done) ∧
      Dropped (Hit (Dep s.c) p.id) s.c c' := by
  obtain ⟨c', he, hd⟩ := invalidateById_spec Y ord p.id s.c hi.sync
  exact ⟨c', by simp [invalidate, he], hd⟩

/-! ## Forgetting a builder: `purge` and garbage collection -/

/-- The invariant after a builder `a` was invalidated and forgotten. -/
theorem Inv.forgotten {Y : Sys σ} {s : St σ} (hi : Inv Y s) {a : Id} {c' cF : Cache σ}
    (h : Dropped (Hit (Dep s.c) a) s.c c')
    (hdts : cF.dependents = c'.dependents) (hdcs : cF.dependencies = c'.dependencies)
    (hart : cF.artifacts = c'.artifacts)
    (hleaf' : ∀ x, x ≠ a → (x ∈ cF.leafs ↔ x ∈ c'.leafs))
    (hknown : cF.known = s.c.known.erase a) (hdyn : cF.dynStates = s.c.dynStates.erase a)
    (hart_a : (Abs.of cF.log).art = ((Abs.of s.c.log).drop (Hit (Dep s.c) a)).art)
    (hdep_a : (Abs.of cF.log).dep = ((Abs.of s.c.log).drop (Hit (Dep s.c) a)).dep)
    (hst_a : ∀ x, (Abs.of cF.log).state x = if x = a then none else (Abs.of s.c.log).state x) :
    Inv Y { s with c := cF } := by
  have hself : Hit (Dep s.c) a a := Relation.ReflTransGen.refl
  have hdep : ∀ u d, Dep cF u d ↔ Dep s.c u d ∧ ¬ Hit (Dep s.c) a u := by
    intro u d
    rw [← h.dep]
    unfold Dep
    rw [hdts]
  have hnd : ∀ u, ¬ Dep cF u a := by
    intro u hu
    rw [hdep] at hu
    exact hu.2 (Relation.ReflTransGen.head hu.1 hself)
  have hkn : ∀ (x : Id) b, cF.known[x]? = some b ↔ x ≠ a ∧ s.c.known[x]? = some b := by
    intro x b; rw [hknown]; grind
  have hkm : ∀ x, x ∈ cF.known ↔ x ≠ a ∧ x ∈ s.c.known := by
    intro x; rw [hknown]; grind
  have hdn : ∀ (x : Id) d, cF.dynStates[x]? = some d ↔ x ≠ a ∧ s.c.dynStates[x]? = some d := by
    intro x b; rw [hdyn]; grind
  have hdm : ∀ x, x ∈ cF.dynStates ↔ x ≠ a ∧ x ∈ s.c.dynStates := by
    intro x; rw [hdyn]; grind
  have harta : ∀ (x : Id) v, cF.artifacts[x]? = some v → x ≠ a ∧ s.c.artifacts[x]? = some v := by
    intro x v hv
    rw [hart, h.art_iff] at hv
    refine ⟨?_, hv.1⟩
    rintro rfl
    exact hv.2 hself
  refine { hi with sync := ?_, depU := ?_, depD := ?_, artDyn := ?_, dynKnown := ?_, leafNo := ?_, knownLeaf := ?_, heapKnown := ?_, bornKnown := ?_, artTy := ?_, dynTy := ?_, absArt := ?_, absArtB := ?_, absDyn := ?_, absDynB := ?_, absDep := ?_ }
  · have := h.sync hi.sync
    unfold Sync at *
    rw [hdts, hdcs]
    exact this
  · intro u d hd
    rw [hkm]
    rw [hdep] at hd
    refine ⟨?_, hi.depU u d hd.1⟩
    rintro rfl
    exact hd.2 hself
  · intro u d hd
    rw [hkm]
    refine ⟨?_, hi.depD u d ((hdep u d).1 hd).1⟩
    rintro rfl
    exact hnd u hd
  · intro x hx
    obtain ⟨v, hv⟩ := (mem_getElem _ _).1 hx
    obtain ⟨h1, h2⟩ := harta x v hv
    exact (hdm x).2 ⟨h1, hi.artDyn x ((mem_getElem _ _).2 ⟨v, h2⟩)⟩
  · intro x hx
    rw [hdm] at hx
    exact (hkm x).2 ⟨hx.1, hi.dynKnown x hx.2⟩
  · intro x u hx hd
    by_cases hxa : x = a
    · subst hxa; exact hnd u hd
    · have h1 := h.leafNo hi.leafNo x u ((hleaf' x hxa).1 hx)
      unfold Dep at h1 hd
      rw [hdts] at hd
      exact h1 hd
  · intro x hx
    rw [hkm] at hx
    have := h.leafOr x (hi.knownLeaf x hx.2)
    unfold Dep at this ⊢
    rw [hdts, hleaf' x hx.1]
    exact this
  · intro x b b' h1 h2
    exact hi.heapKnown x b b' ((hkn x b).1 h1).2 h2
  · intro x b h1
    exact hi.bornKnown x b ((hkn x b).1 h1).2
  · intro x v b h1 h2
    exact hi.artTy x v b (harta x v h1).2 ((hkn x b).1 h2).2
  · intro x v b h1 h2
    exact hi.dynTy x v b ((hdn x v).1 h1).2 ((hkn x b).1 h2).2
  · intro x
    simp only [hart_a, hart]
    exact h.absArt hi.absArt x
  · intro x bv hx
    simp only [hart_a, Abs.drop] at hx
    split at hx
    · cases hx
    · next hn =>
      rw [hkn]
      refine ⟨?_, hi.absArtB x bv hx⟩
      rintro rfl
      exact hn hself
  · intro x
    have := hi.absDyn x
    simp only [hst_a, hdyn]
    grind
  · intro x bd hx
    simp only [hst_a] at hx
    split at hx
    · cases hx
    · next hn => rw [hkn]; exact ⟨hn, hi.absDynB x bd hx⟩
  · intro u d
    simp only [hdep_a, Abs.drop, hdep, hi.absDep]

theorem drop_state_eq (A : Abs σ) (R : Id → Prop) : (A.drop R).state = A.state := rfl

/-- `Dropped` only looks at artifacts, dependencies and leafs. -/
theorem Dropped.of_rest {P : Id → Prop} {c0 c0' c : Cache σ} (h : Dropped P c0' c)
    (hdts : c0'.dependents = c0.dependents) (hdcs : c0'.dependencies = c0.dependencies)
    (hl : c0'.leafs = c0.leafs)
    (ha : ∀ x : Id, ¬ P x → c0'.artifacts[x]? = c0.artifacts[x]?) :
    Dropped P c0 { c with known := c0.known, dynStates := c0.dynStates, log := c0.log } := by
  have hd : Dep c0' = Dep c0 := by funext u d; simp [Dep, hdts]
  exact {
    dts_none := h.dts_none
    dts_some := hdts ▸ h.dts_some
    dts_mem := hdts ▸ h.dts_mem
    dcs_none := h.dcs_none
    dcs_keep := hdcs ▸ h.dcs_keep
    art_none := h.art_none
    art_keep := fun u hu => (h.art_keep u hu).trans (ha u hu)
    leafs := hd ▸ hl ▸ h.leafs
    known := rfl
    dynStates := rfl
    log := rfl }

theorem purge_spec {Y : Sys σ} {s : St σ} (hi : Inv Y s) (ord : HashOrder) (p : Promise σ) :
    ∃ c' cF, purge Y ord p s.c = (cF, .done) ∧ Dropped (Hit (Dep s.c) p.id) s.c c' ∧
      cF = { c' with
        known := s.c.known.erase p.id, dynStates := s.c.dynStates.erase p.id,
        log := .invalidate p :: .purged p :: s.c.log } := by
  have hs : Sync (({ s.c with
      known := s.c.known.erase p.id, artifacts := s.c.artifacts.erase p.id,
      dynStates := s.c.dynStates.erase p.id } : Cache σ).emit (.purged p)) := hi.sync
  obtain ⟨c', he, hd⟩ := invalidateById_spec Y ord p.id _ hs
  have hd' := Dropped.of_rest (c0 := s.c) hd rfl rfl rfl (by
    intro x hx
    have : x ≠ p.id := by rintro rfl; exact hx Relation.ReflTransGen.refl
    simp only [Cache.emit]
    grind)
  refine ⟨_, c'.emit (.invalidate p), ?_, hd', ?_⟩
  · unfold purge
    simp only [Cache.emit] at he ⊢
    rw [he]
  · have h1 := hd.known
    have h2 := hd.dynStates
    have h3 := hd.log
    simp only [Cache.emit] at h1 h2 h3 ⊢
    rw [h1, h2, h3]

theorem Inv.purged {Y : Sys σ} {s : St σ} (hi : Inv Y s) (ord : HashOrder) (p : Promise σ) :
    Inv Y { s with c := (purge Y ord p s.c).1 } := by
  obtain ⟨c', cF, he, hd, rfl⟩ := purge_spec hi ord p
  rw [he]
  have hdep : Dep s.c = (Abs.of s.c.log).dep := absDep_eq hi
  refine hi.forgotten (a := p.id) hd rfl rfl rfl (by simp) rfl rfl ?_ ?_ ?_
  · simp only [Abs.of, Abs.apply, hdep]; rfl
  · simp only [Abs.of, Abs.apply, hdep]; rfl
  · intro x; simp only [Abs.of, Abs.apply]; rfl

/-- One round of the collecting loop. -/
def collected (a : Id) (c : Cache σ) : Cache σ :=
  { c with
    dynStates := c.dynStates.erase a, known := c.known.erase a,
    leafs := c.leafs.erase a }.emit (.collect a)

theorem Inv.collected {Y : Sys σ} {s : St σ} (hi : Inv Y s) {a : Id} {c' : Cache σ}
    (hd : Dropped (Hit (Dep s.c) a) s.c c') : Inv Y { s with c := collected a c' } := by
  have hdep : Dep s.c = (Abs.of s.c.log).dep := absDep_eq hi
  refine hi.forgotten (a := a) hd rfl rfl rfl ?_ ?_ ?_ ?_ ?_ ?_
  · intro x; simp only [Daab.collected, Cache.emit]; grind
  · simp only [Daab.collected, Cache.emit, hd.known]
  · simp only [Daab.collected, Cache.emit, hd.dynStates]
  · simp only [Daab.collected, Cache.emit, hd.log, Abs.of, Abs.apply, hdep]
  · simp only [Daab.collected, Cache.emit, hd.log, Abs.of, Abs.apply, hdep]
  · intro x; simp only [Daab.collected, Cache.emit, hd.log, Abs.of, Abs.apply]

theorem collectEach_inv {Y : Sys σ} (ord : HashOrder) (l : List Id) {s : St σ} (hi : Inv Y s) :
    Inv Y { s with c := (collectEach Y ord l s.c).1 } ∧ (collectEach Y ord l s.c).2 = .done := by
  induction l generalizing s with
  | nil => exact ⟨hi, rfl⟩
  | cons a l ih =>
    obtain ⟨c', he, hd⟩ := invalidateById_spec Y ord a s.c hi.sync
    rw [collectEach, he]
    exact ih (hi.collected hd)

theorem gcAssertion_true {Y : Sys σ} {s : St σ} (hi : Inv Y s) : gcAssertion s.c = true := by
  unfold gcAssertion
  rw [List.all_eq_true]
  intro a ha
  rw [ExtTreeMap.mem_keys] at ha
  rcases hi.knownLeaf a ha with h | ⟨u, hu⟩
  · simp [h]
  · have : (setAt s.c.dependents a).isEmpty = false := by
      cases he : (setAt s.c.dependents a).isEmpty with
      | false => rfl
      | true => exact absurd hu ((idset_isEmpty _).1 he u)
    simp [this]

theorem Inv.gc {Y : Sys σ} {s : St σ} (hi : Inv Y s) (ord : HashOrder) :
    Inv Y { s with c := (garbageCollection Y ord s).1 } ∧
    ((garbageCollection Y ord s).2 = .done ∨ (garbageCollection Y ord s) = (s.c, .panic .leafUnknown)) := by
  unfold garbageCollection
  rw [gcAssertion_true hi]
  simp only [Bool.not_true, Bool.and_false, Bool.false_eq_true, if_false]
  split
  · exact ⟨hi, Or.inr rfl⟩
  · next l _ => exact ⟨(collectEach_inv ord l hi).1, Or.inl (collectEach_inv ord l hi).2⟩

/-! ## Clearing -/

theorem mem_foldl_insert (l : List Id) (t : IdSet) (x : Id) :
    x ∈ l.foldl (fun t a => t.insert a) t ↔ x ∈ l ∨ x ∈ t := by
  induction l generalizing t with
  | nil => simp
  | cons a l ih => simp only [List.foldl_cons, ih, ExtTreeSet.mem_insert]; grind

theorem Inv.clearedArtifacts {Y : Sys σ} {s : St σ} (hi : Inv Y s) :
    Inv Y (s.onCache clearArtifacts) := by
  have hnd : ∀ u d, ¬ Dep (clearArtifacts s.c) u d := by
    intro u d; simp [Dep, clearArtifacts, Cache.emit, setAt]
  refine { hi with sync := ?_, depU := ?_, depD := ?_, artDyn := ?_, leafNo := ?_, knownLeaf := ?_, artTy := ?_, absArt := ?_, absArtB := ?_, absDyn := ?_, absDynB := ?_, absDep := ?_ }
  · intro u d; simp [St.onCache, clearArtifacts, Cache.emit, setAt]
  · exact fun u d h => absurd h (hnd u d)
  · exact fun u d h => absurd h (hnd u d)
  · intro a; simp [St.onCache, clearArtifacts, Cache.emit]
  · exact fun a u _ => hnd u a
  · intro a ha
    refine Or.inl ?_
    show a ∈ s.c.known.keys.foldl (fun l a => l.insert a) s.c.leafs
    rw [mem_foldl_insert, ExtTreeMap.mem_keys]
    exact Or.inl ha
  · intro a v b; simp [St.onCache, clearArtifacts, Cache.emit]
  · intro a; simp [St.onCache, clearArtifacts, Cache.emit, Abs.of, Abs.apply, Abs.empty]
  · intro a; simp [St.onCache, clearArtifacts, Cache.emit, Abs.of, Abs.apply, Abs.empty]
  · exact hi.absDyn
  · exact hi.absDynB
  · intro u d
    constructor
    · exact fun h => absurd h (hnd u d)
    · simp [St.onCache, clearArtifacts, Cache.emit, Abs.of, Abs.apply, Abs.empty]

theorem Inv.clearedAll {Y : Sys σ} {s : St σ} (hi : Inv Y s) : Inv Y (s.onCache clearAll) := by
  constructor <;>
    simp [St.onCache, clearAll, Cache.emit, Sync, Dep, setAt, Abs.of, Abs.apply, Abs.empty]
  exact hi.bornHeap

end Daab
