import Verif.Drops

/-!
# What is removed is dropped exactly once

`C67`: the artifacts and dynamic states that leave a cache are dropped, each exactly once, and nothing that stays is.
The statements follow the drops themselves: `RanEach D m L m'` says that the destructors of the things in `L` ran, one after the
other, and nothing else happened to the memory.
-/

open Std

namespace Daab

variable {σ : Sig} {Y : Sys σ} {s s' : St σ}

/-! ## Specification -/

/-- From `m`, the destructors of the things in `L` ran, one after the other, and that led to `m'`. -/
inductive RanEach (D : Destructors σ) : Shared σ → List (σ.V ⊕ σ.S) → Shared σ → Prop
  | nil (m : Shared σ) : RanEach D m [] m
  | cons {m m' : Shared σ} (c : Cache σ) (x : σ.V ⊕ σ.S) {L : List (σ.V ⊕ σ.S)} :
      RanEach D (D c m x).1 L m' → RanEach D m (x :: L) m'

/-- `L` lists, each exactly once (in some order), the artifacts and the dynamic states that `s` has and `s'` has not. -/
def Lost (s s' : St σ) (L : List (σ.V ⊕ σ.S)) : Prop :=
  ∃ (A : List (Id × σ.V)) (B : List (Id × σ.S)), A.Nodup ∧ B.Nodup ∧
    (∀ a v, (a, v) ∈ A ↔ Cached s a v ∧ Uncached s' a) ∧
    (∀ a d, (a, d) ∈ B ↔ HasState s a d ∧ s'.c.dynStates[a]? = none) ∧
    L.Perm (A.map (fun x => .inl x.2) ++ B.map (fun x => .inr x.2))

/-- Of the operations that only remove things, those that empty whole maps at once. -/
def Removal.clears : Removal σ → Bool
  | .clearArtifacts => true
  | .clearAll => true
  | _ => false

/-! ## Proofs -/

/-- The same as `Lost`, for caches, and nothing else changed or appeared. -/
def Paid (c c' : Cache σ) (L : List (σ.V ⊕ σ.S)) : Prop :=
  ∃ (A : List (Id × σ.V)) (B : List (Id × σ.S)), A.Nodup ∧ B.Nodup ∧
    (∀ a v, (a, v) ∈ A ↔ c.artifacts[a]? = some v ∧ c'.artifacts[a]? = none) ∧
    (∀ a d, (a, d) ∈ B ↔ c.dynStates[a]? = some d ∧ c'.dynStates[a]? = none) ∧
    (∀ a : Id, c'.artifacts[a]? = none ∨ c'.artifacts[a]? = c.artifacts[a]?) ∧
    (∀ a : Id, c'.dynStates[a]? = none ∨ c'.dynStates[a]? = c.dynStates[a]?) ∧
    L.Perm (A.map (fun x => .inl x.2) ++ B.map (fun x => .inr x.2))

theorem Paid.lost {c c' : Cache σ} {L : List (σ.V ⊕ σ.S)} (h : Paid c c' L) {s s' : St σ} (e : s.c = c) (e' : s'.c = c') :
    Lost s s' L := by
  obtain ⟨A, B, h1, h2, h3, h4, _, _, h5⟩ := h
  subst e e'
  exact ⟨A, B, h1, h2, h3, h4, h5⟩

theorem RanEach.trans {D : Destructors σ} {m m' m'' : Shared σ} {L L' : List (σ.V ⊕ σ.S)} (h : RanEach D m L m')
    (h' : RanEach D m' L' m'') : RanEach D m (L ++ L') m'' := by
  induction h with
  | nil m => exact h'
  | cons c x _ ih => exact .cons c x (ih h')

theorem Paid.same {c c' : Cache σ} (h : c'.artifacts = c.artifacts) (h' : c'.dynStates = c.dynStates) : Paid c c' [] := by
  refine ⟨[], [], .nil, .nil, fun a v => ?_, fun a v => ?_, fun a => .inr (by rw [h]), fun a => .inr (by rw [h']), .nil⟩
  · rw [h]; constructor
    · intro hx; cases hx
    · rintro ⟨h1, h2⟩; rw [h1] at h2; cases h2
  · rw [h']; constructor
    · intro hx; cases hx
    · rintro ⟨h1, h2⟩; rw [h1] at h2; cases h2

/-- The part of `Paid` about one map. -/
theorem Paid.join {α : Type} {m m' m'' : AMap α} {A A' : List (Id × α)} (h : A.Nodup) (h' : A'.Nodup)
    (hA : ∀ a v, (a, v) ∈ A ↔ m[a]? = some v ∧ m'[a]? = none) (hA' : ∀ a v, (a, v) ∈ A' ↔ m'[a]? = some v ∧ m''[a]? = none)
    (hm : ∀ a : Id, m'[a]? = none ∨ m'[a]? = m[a]?) (hm' : ∀ a : Id, m''[a]? = none ∨ m''[a]? = m'[a]?) :
    (A ++ A').Nodup ∧ (∀ a v, (a, v) ∈ A ++ A' ↔ m[a]? = some v ∧ m''[a]? = none) ∧
    ∀ a : Id, m''[a]? = none ∨ m''[a]? = m[a]? := by
  refine ⟨List.nodup_append.2 ⟨h, h', ?_⟩, fun a v => ?_, fun a => ?_⟩
  · rintro ⟨a, v⟩ hx ⟨b, w⟩ hy e
    cases e
    have h1 := ((hA _ _).1 hx).2
    rw [((hA' _ _).1 hy).1] at h1
    cases h1
  · rw [List.mem_append, hA, hA']
    have h1 := hm a
    have h2 := hm' a
    constructor
    · rintro (⟨e1, e2⟩ | ⟨e1, e2⟩)
      · rw [e2] at h2; exact ⟨e1, by rcases h2 with h2 | h2 <;> exact h2⟩
      · rw [e1] at h1
        rcases h1 with h1 | h1
        · cases h1
        · exact ⟨h1.symm, e2⟩
    · rintro ⟨e1, e2⟩
      rcases h1 with h1 | h1
      · exact .inl ⟨e1, h1⟩
      · exact .inr ⟨h1.trans e1, e2⟩
  · rcases hm' a with h1 | h1
    · exact .inl h1
    · rw [h1]; exact hm a

theorem Paid.trans {c c' c'' : Cache σ} {L L' : List (σ.V ⊕ σ.S)} (h : Paid c c' L) (h' : Paid c' c'' L') :
    Paid c c'' (L ++ L') := by
  obtain ⟨A, B, h1, h2, h3, h4, h5, h6, h7⟩ := h
  obtain ⟨A', B', g1, g2, g3, g4, g5, g6, g7⟩ := h'
  obtain ⟨x1, x2, x3⟩ := Paid.join h1 g1 h3 g3 h5 g5
  obtain ⟨y1, y2, y3⟩ := Paid.join h2 g2 h4 g4 h6 g6
  refine ⟨A ++ A', B ++ B', x1, y1, x2, y2, x3, y3, (h7.append g7).trans ?_⟩
  simp only [List.map_append]
  rw [List.append_assoc, List.append_assoc]
  refine List.Perm.append_left _ ?_
  rw [← List.append_assoc, ← List.append_assoc]
  exact List.Perm.append_right _ List.perm_append_comm

theorem erase_cases {α : Type} (m : AMap α) (b : Id) :
    (∀ a v, (a, v) ∈ ((m[b]?).map fun v => (b, v)).toList ↔ m[a]? = some v ∧ (m.erase b)[a]? = none) ∧
    ∀ a : Id, (m.erase b)[a]? = none ∨ (m.erase b)[a]? = m[a]? := by
  constructor
  · intro a v
    rw [ExtTreeMap.getElem?_erase]
    by_cases e : b = a
    · subst e
      cases hv : m[b]? with
      | none => simp
      | some w => simp [eq_comm]
    · have e' : ¬ compare b a = .eq := by simpa using e
      simp only [e', if_false]
      constructor
      · intro h
        cases hv : m[b]? with
        | none => rw [hv] at h; cases h
        | some w => rw [hv] at h; simp at h; exact absurd h.1.symm e
      · rintro ⟨h1, h2⟩
        rw [h1] at h2; cases h2
  · intro a
    rw [ExtTreeMap.getElem?_erase]
    split
    · exact .inl rfl
    · exact .inr rfl

theorem Paid.art {c c' : Cache σ} (b : Id) (h : c'.artifacts = c.artifacts.erase b) (h' : c'.dynStates = c.dynStates) :
    Paid c c' (((c.artifacts[b]?).map .inl).toList) := by
  obtain ⟨h1, h2⟩ := erase_cases c.artifacts b
  obtain ⟨_, B, _, e2, _, e4, _, e6, e7⟩ := Paid.same (c := c) (c' := { c with dynStates := c'.dynStates }) rfl h'
  refine ⟨((c.artifacts[b]?).map fun v => (b, v)).toList, [], ?_, .nil, ?_, ?_, ?_, e6, ?_⟩
  · cases c.artifacts[b]? <;> simp
  · rw [h]; exact h1
  · intro a d
    rw [h']
    constructor
    · intro hx; cases hx
    · rintro ⟨h1, h2⟩; rw [h1] at h2; cases h2
  · rw [h]; exact h2
  · cases c.artifacts[b]? <;> simp

theorem Paid.dyn {c c' : Cache σ} (b : Id) (h : c'.artifacts = c.artifacts) (h' : c'.dynStates = c.dynStates.erase b) :
    Paid c c' (((c.dynStates[b]?).map .inr).toList) := by
  obtain ⟨h1, h2⟩ := erase_cases c.dynStates b
  refine ⟨[], ((c.dynStates[b]?).map fun v => (b, v)).toList, .nil, ?_, ?_, ?_, fun a => .inr (by rw [h]), ?_, ?_⟩
  · cases c.dynStates[b]? <;> simp
  · intro a d
    rw [h]
    constructor
    · intro hx; cases hx
    · rintro ⟨h1, h2⟩; rw [h1] at h2; cases h2
  · rw [h']; exact h1
  · rw [h']; exact h2
  · cases c.dynStates[b]? <;> simp

theorem dropOpt_ran (D : Destructors σ) (c : Cache σ) (m : Shared σ) (o : Option (σ.V ⊕ σ.S)) :
    RanEach D m o.toList (dropOpt D c m o).1 := by
  cases o with
  | none => exact .nil m
  | some x => exact .cons c x (.nil _)

/-- What left the cache, from `c` and `m`, was dropped. -/
def PaidFor (D : Destructors σ) (c : Cache σ) (m : Shared σ) (c' : Cache σ) (m' : Shared σ) : Prop :=
  ∃ L, Paid c c' L ∧ RanEach D m L m'

theorem PaidFor.trans {D : Destructors σ} {c c' c'' : Cache σ} {m m' m'' : Shared σ} (h : PaidFor D c m c' m')
    (h' : PaidFor D c' m' c'' m'') : PaidFor D c m c'' m'' := by
  obtain ⟨L, h1, h2⟩ := h
  obtain ⟨L', g1, g2⟩ := h'
  exact ⟨L ++ L', h1.trans g1, h2.trans g2⟩

theorem PaidFor.same {D : Destructors σ} {c c' : Cache σ} {m : Shared σ} (h : c'.artifacts = c.artifacts)
    (h' : c'.dynStates = c.dynStates) : PaidFor D c m c' m := ⟨[], .same h h', .nil m⟩

theorem PaidFor.art {D : Destructors σ} {c c' : Cache σ} {m : Shared σ} (b : Id) (h : c'.artifacts = c.artifacts.erase b)
    (h' : c'.dynStates = c.dynStates) : PaidFor D c m c' (dropOpt D c' m ((c.artifacts[b]?).map .inl)).1 :=
  ⟨_, .art b h h', dropOpt_ran ..⟩

theorem PaidFor.dyn {D : Destructors σ} {c c' : Cache σ} {m : Shared σ} (b : Id) (h : c'.artifacts = c.artifacts)
    (h' : c'.dynStates = c.dynStates.erase b) : PaidFor D c m c' (dropOpt D c' m ((c.dynStates[b]?).map .inr)).1 :=
  ⟨_, .dyn b h h', dropOpt_ran ..⟩

theorem unlink_stores (processed : IdSet) (bid : Id) (l : List Id) (c : Cache σ) :
    (unlink Y processed bid l c).1.artifacts = c.artifacts ∧ (unlink Y processed bid l c).1.dynStates = c.dynStates := by
  induction l generalizing c with
  | nil => exact ⟨rfl, rfl⟩
  | cons dep rest ih =>
    rw [unlink]
    split
    · exact ih c
    · split
      · exact ⟨rfl, rfl⟩
      · simp only
        split
        · exact ⟨rfl, rfl⟩
        · obtain ⟨h1, h2⟩ := ih _
          rw [h1, h2]
          split <;> exact ⟨rfl, rfl⟩

theorem pops_stores (ord : HashOrder) (i j : IterPoint) (processed : IdSet) (bid : Id) (pending : List Id) (c : Cache σ) :
    (popDependencies Y ord j processed bid (popDependents ord i bid pending c).2).1.artifacts = c.artifacts ∧
    (popDependencies Y ord j processed bid (popDependents ord i bid pending c).2).1.dynStates = c.dynStates := by
  have h1 : (popDependents ord i bid pending c).2.artifacts = c.artifacts ∧
      (popDependents ord i bid pending c).2.dynStates = c.dynStates := by
    unfold popDependents; split <;> exact ⟨rfl, rfl⟩
  rw [← h1.1, ← h1.2]
  unfold popDependencies
  split
  · exact unlink_stores ..
  · exact ⟨rfl, rfl⟩

theorem invLoopD_paid (D : Destructors σ) (ord : HashOrder) (root : Id) (n : Nat) (processed : IdSet) (pending : List Id)
    (c : Cache σ) (m : Shared σ) :
    PaidFor D c m (invLoopD Y D ord root n processed pending c m).1 (invLoopD Y D ord root n processed pending c m).2.1 := by
  induction n generalizing processed pending c m with
  | zero => cases pending <;> exact .same rfl rfl
  | succ n ih =>
    cases pending with
    | nil => exact .same rfl rfl
    | cons bid pending =>
      rw [invLoopD]
      simp only
      have h1 := pops_stores (Y := Y) ord ⟨0, root, n⟩ ⟨1, root, n⟩ (processed.insert bid) bid pending c
      generalize popDependencies Y ord ⟨1, root, n⟩ (processed.insert bid) bid
        (popDependents ord ⟨0, root, n⟩ bid pending c).2 = q at h1 ⊢
      obtain ⟨c1, e⟩ := q
      obtain ⟨h1, h2⟩ := h1
      simp only at h1 h2
      have h3 : PaidFor D c m c1 m := .same h1 h2
      cases e with
      | done =>
        have h4 := h3.trans (PaidFor.art (D := D) (c' := ({ c1 with leafs := c1.leafs.insert bid, artifacts := c1.artifacts.erase bid } : Cache σ))
          (m := m) bid rfl rfl)
        simp only
        split
        · next m1 e => rw [e] at h4; exact h4
        · next m1 e => rw [e] at h4; exact h4.trans (ih ..)
      | panic k => exact h3
      | outOfFuel => exact h3

theorem invalidateD_paid (D : Destructors σ) (ord : HashOrder) (p : Promise σ) (c : Cache σ) (m : Shared σ) :
    PaidFor D c m (invalidateD Y D ord p c m).1 (invalidateD Y D ord p c m).2.1 := by
  have h := invLoopD_paid (Y := Y) D ord p.id (edgeCount c.dependents + 1) ((∅ : IdSet).insert p.id) [p.id] c m
  unfold invalidateD
  change PaidFor D c m (invalidateByIdD Y D ord p.id c m).1 (invalidateByIdD Y D ord p.id c m).2.1 at h
  generalize invalidateByIdD Y D ord p.id c m = x at h ⊢
  obtain ⟨c1, m1, e⟩ := x
  cases e with
  | done => exact h.trans (.same rfl rfl)
  | panic k => exact h
  | outOfFuel => exact h

theorem purgeD_paid (D : Destructors σ) (ord : HashOrder) (p : Promise σ) (c : Cache σ) (m : Shared σ) :
    PaidFor D c m (purgeD Y D ord p c m).1 (purgeD Y D ord p c m).2.1 := by
  unfold purgeD
  have h1 := PaidFor.art (D := D) (c := c) (c' := ({ c with known := c.known.erase p.id, artifacts := c.artifacts.erase p.id } : Cache σ)) (m := m) p.id rfl rfl
  simp only
  split
  · next m1 e => rw [e] at h1; exact h1
  · next m1 e =>
    rw [e] at h1
    have h2 := h1.trans (PaidFor.dyn (D := D)
      (c' := ({ c with known := c.known.erase p.id, artifacts := c.artifacts.erase p.id, dynStates := c.dynStates.erase p.id } : Cache σ).emit (.purged p)) (m := m1) p.id rfl rfl)
    split
    · next m2 e => rw [e] at h2; exact h2
    · next m2 e =>
      rw [e] at h2
      have h3 := h2.trans (invLoopD_paid (Y := Y) D ord p.id (edgeCount c.dependents + 1) ((∅ : IdSet).insert p.id) [p.id] _ m2)
      change PaidFor D c m (invalidateByIdD Y D ord p.id _ m2).1 (invalidateByIdD Y D ord p.id _ m2).2.1 at h3
      generalize invalidateByIdD Y D ord p.id (({ c with known := c.known.erase p.id, artifacts := c.artifacts.erase p.id, dynStates := c.dynStates.erase p.id } : Cache σ).emit (.purged p)) m2 = x at h3 ⊢
      obtain ⟨c3, m3, e3⟩ := x
      cases e3 with
      | done => exact h3.trans (.same rfl rfl)
      | panic k => exact h3
      | outOfFuel => exact h3

theorem collectEachD_paid (D : Destructors σ) (ord : HashOrder) (l : List Id) (c : Cache σ) (m : Shared σ) :
    PaidFor D c m (collectEachD Y D ord l c m).1 (collectEachD Y D ord l c m).2.1 := by
  induction l generalizing c m with
  | nil => exact .same rfl rfl
  | cons a rest ih =>
    rw [collectEachD]
    have h1 := invLoopD_paid (Y := Y) D ord a (edgeCount c.dependents + 1) ((∅ : IdSet).insert a) [a] c m
    change PaidFor D c m (invalidateByIdD Y D ord a c m).1 (invalidateByIdD Y D ord a c m).2.1 at h1
    generalize invalidateByIdD Y D ord a c m = x at h1 ⊢
    obtain ⟨c1, m1, e⟩ := x
    cases e with
    | done =>
      have h2 := h1.trans (PaidFor.dyn (D := D) (c' := ({ c1 with dynStates := c1.dynStates.erase a } : Cache σ)) (m := m1) a rfl rfl)
      simp only
      split
      · next m2 e => rw [e] at h2; exact h2
      · next m2 e => rw [e] at h2; refine h2.trans (.trans ?_ (ih ..)); exact .same rfl rfl
    | panic k => exact h1
    | outOfFuel => exact h1

theorem garbageCollectionD_paid (D : Destructors σ) (ord : HashOrder) (s : St σ) :
    PaidFor D s.c s.mem (garbageCollectionD Y D ord s).1 (garbageCollectionD Y D ord s).2.1 := by
  unfold garbageCollectionD
  split
  · exact .same rfl rfl
  · split
    · exact .same rfl rfl
    · exact collectEachD_paid ..

theorem dropEach_ran (D : Destructors σ) (c : Cache σ) (m : Shared σ) (l : List (σ.V ⊕ σ.S)) :
    ∃ L K, l = L ++ K ∧ RanEach D m L (dropEach D c m l).1 ∧ ((dropEach D c m l).2 = false → K = []) := by
  induction l generalizing m with
  | nil => exact ⟨[], [], rfl, .nil m, fun _ => rfl⟩
  | cons x l ih =>
    rw [dropEach]
    have h0 : RanEach D m [x] (D c m x).1 := .cons c x (.nil _)
    split
    · next m1 e => rw [e] at h0; exact ⟨[x], l, rfl, h0, fun h => by cases h⟩
    · next m1 e =>
      rw [e] at h0
      obtain ⟨L, K, rfl, h1, h2⟩ := ih m1
      exact ⟨x :: L, K, rfl, h0.trans h1, h2⟩

/-- The contents of a map, listed in any order. -/
theorem contents_perm {α : Type} (m : AMap α) (l : List Id) (hl : l.Perm m.keys) :
    ∃ A : List (Id × α), A.Nodup ∧ (∀ a v, (a, v) ∈ A ↔ m[a]? = some v) ∧ l.filterMap (m[·]?) = A.map (·.2) := by
  refine ⟨l.filterMap fun a => (m[a]?).map fun v => (a, v), ?_, fun a v => ?_, ?_⟩
  · have hn : l.Nodup := hl.nodup_iff.2 m.nodup_keys
    refine List.Nodup.filterMap ?_ hn
    intro a a' b h1 h2
    simp only [Option.mem_def, Option.map_eq_some_iff] at h1 h2
    obtain ⟨v, _, rfl⟩ := h1
    obtain ⟨v', _, h⟩ := h2
    exact (Prod.mk.inj h).1.symm
  · simp only [List.mem_filterMap, Option.map_eq_some_iff, Prod.mk.injEq]
    constructor
    · rintro ⟨b, _, w, h1, rfl, rfl⟩; exact h1
    · intro h
      refine ⟨a, hl.mem_iff.2 ?_, v, h, rfl, rfl⟩
      rw [ExtTreeMap.mem_keys, ExtTreeMap.mem_iff_isSome_getElem?, h]; rfl
  · rw [List.map_filterMap]
    congr 1
    funext a
    cases m[a]? <;> rfl

theorem Paid.clearArts {c c' : Cache σ} (h : c'.artifacts = ∅) (h' : c'.dynStates = c.dynStates) (l : List Id)
    (hl : l.Perm c.artifacts.keys) : Paid c c' ((l.filterMap (c.artifacts[·]?)).map .inl) := by
  obtain ⟨A, h1, h2, h3⟩ := contents_perm c.artifacts l hl
  refine ⟨A, [], h1, .nil, fun a v => ?_, fun a d => ?_, fun a => .inl (by rw [h]; simp), fun a => .inr (by rw [h']), ?_⟩
  · rw [h2, h]; simp
  · rw [h']; constructor
    · intro hx; cases hx
    · rintro ⟨h1, h2⟩; rw [h1] at h2; cases h2
  · rw [h3]; simp [Function.comp_def]

theorem Paid.clearDyns {c c' : Cache σ} (h : c'.artifacts = c.artifacts) (h' : c'.dynStates = ∅) (l : List Id)
    (hl : l.Perm c.dynStates.keys) : Paid c c' ((l.filterMap (c.dynStates[·]?)).map .inr) := by
  obtain ⟨B, h1, h2, h3⟩ := contents_perm c.dynStates l hl
  refine ⟨[], B, .nil, h1, fun a d => ?_, fun a v => ?_, fun a => .inr (by rw [h]), fun a => .inl (by rw [h']; simp), ?_⟩
  · rw [h]; constructor
    · intro hx; cases hx
    · rintro ⟨h1, h2⟩; rw [h1] at h2; cases h2
  · rw [h2, h']; simp
  · rw [h3]; simp [Function.comp_def]

theorem clearArtifactsD_paid (D : Destructors σ) (ord : HashOrder) (c : Cache σ) (m : Shared σ) :
    ∃ L K, Paid c (clearArtifactsD D ord c m).1 (L ++ K) ∧ RanEach D m L (clearArtifactsD D ord c m).2.1 ∧
      ((clearArtifactsD D ord c m).2.2 ≠ .panic .user → K = []) := by
  have h1 := Paid.clearArts (c := c) (c' := ({ c with artifacts := ∅ } : Cache σ)) rfl rfl _
    (ord.perm ⟨4, 0, 0⟩ c.artifacts.keys)
  obtain ⟨L, K, h2, h3, h4⟩ := dropEach_ran D ({ c with artifacts := ∅ } : Cache σ) m
    (((ord.f ⟨4, 0, 0⟩ c.artifacts.keys).filterMap (c.artifacts[·]?)).map .inl)
  rw [h2] at h1
  refine ⟨L, K, ?_⟩
  unfold clearArtifactsD
  split
  · next m1 e => rw [e] at h3 h4; exact ⟨h1, h3, fun h => absurd rfl h⟩
  · next m1 e =>
    rw [e] at h3 h4
    refine ⟨?_, h3, fun _ => h4 rfl⟩
    have := h1.trans (Paid.same (c' := clearArtifacts c) rfl rfl)
    rwa [List.append_nil] at this

theorem clearAllD_paid (D : Destructors σ) (ord : HashOrder) (c : Cache σ) (m : Shared σ) :
    ∃ L K, Paid c (clearAllD D ord c m).1 (L ++ K) ∧ RanEach D m L (clearAllD D ord c m).2.1 ∧
      ((clearAllD D ord c m).2.2 ≠ .panic .user → K = []) := by
  have h1 := Paid.clearArts (c := c) (c' := ({ c with artifacts := ∅ } : Cache σ)) rfl rfl _
    (ord.perm ⟨4, 0, 0⟩ c.artifacts.keys)
  obtain ⟨L, K, h2, h3, h4⟩ := dropEach_ran D ({ c with artifacts := ∅ } : Cache σ) m
    (((ord.f ⟨4, 0, 0⟩ c.artifacts.keys).filterMap (c.artifacts[·]?)).map .inl)
  rw [h2] at h1
  unfold clearAllD
  split
  · next m1 e => rw [e] at h3 h4; exact ⟨L, K, h1, h3, fun h => absurd rfl h⟩
  · next m1 e =>
    rw [e] at h3 h4
    obtain rfl := h4 rfl
    rw [List.append_nil] at h1
    have g1 := h1.trans (Paid.clearDyns (c := ({ c with artifacts := ∅ } : Cache σ)) (c' := ({ c with artifacts := ∅, dynStates := ∅ } : Cache σ)) rfl rfl _
      (ord.perm ⟨5, 0, 0⟩ c.dynStates.keys))
    obtain ⟨L', K', g2, g3, g4⟩ := dropEach_ran D ({ c with artifacts := ∅, dynStates := ∅ } : Cache σ) m1
      (((ord.f ⟨5, 0, 0⟩ c.dynStates.keys).filterMap (c.dynStates[·]?)).map .inr)
    simp only [g2] at g1
    rw [← List.append_assoc] at g1
    refine ⟨L ++ L', K', ?_⟩
    split
    · next m2 e => rw [e] at g3 g4; exact ⟨g1, h3.trans g3, fun h => absurd rfl h⟩
    · next m2 e =>
      rw [e] at g3 g4
      refine ⟨?_, h3.trans g3, fun _ => g4 rfl⟩
      have := g1.trans (Paid.same (c' := clearAll c) rfl rfl)
      rwa [List.append_nil] at this

/-! ## The property -/

/-- **C67** What a removal takes out of the cache is dropped, each exactly once, and nothing else is: the destructors that ran
are those of `L`, and what is gone is `L` and `K`, where `K` (what was taken out and is leaked) is empty unless a destructor
panicked in `clear_all` or `clear_artifacts`. -/
theorem C67_removed_is_dropped (D : Destructors σ) (ord : HashOrder) (s : St σ) (op : Removal σ) :
    let x := stepD Y D ord s op
    ∃ L K, Lost s x.1 (L ++ K) ∧ RanEach D s.mem L x.1.mem ∧ (K ≠ [] → op.clears = true ∧ x.2 = .panic .user) := by
  have key : ∀ (x : Cache σ × Shared σ × LoopEnd), PaidFor D s.c s.mem x.1 x.2.1 →
      ∃ L K, Lost s (x.2.1.st x.1) (L ++ K) ∧ RanEach D s.mem L (x.2.1.st x.1).mem ∧
        (K ≠ [] → op.clears = true ∧ x.2.2.res (Ans.unit (σ := σ)) = .panic .user) := by
    rintro x ⟨L, h1, h2⟩
    exact ⟨L, [], by rw [List.append_nil]; exact h1.lost rfl rfl, h2, fun h => absurd rfl h⟩
  have key' : ∀ (x : Cache σ × Shared σ × LoopEnd), op.clears = true → (∃ L K, Paid s.c x.1 (L ++ K) ∧ RanEach D s.mem L x.2.1 ∧
        (x.2.2 ≠ .panic .user → K = [])) →
      ∃ L K, Lost s (x.2.1.st x.1) (L ++ K) ∧ RanEach D s.mem L (x.2.1.st x.1).mem ∧
        (K ≠ [] → op.clears = true ∧ x.2.2.res (Ans.unit (σ := σ)) = .panic .user) := by
    rintro x hc ⟨L, K, h1, h2, h3⟩
    refine ⟨L, K, h1.lost rfl rfl, h2, fun h => ⟨hc, ?_⟩⟩
    by_cases e : x.2.2 = .panic .user
    · rw [e]; rfl
    · exact absurd (h3 e) h
  have none : ∃ L K, Lost s s (L ++ K) ∧ RanEach D s.mem L s.mem ∧ (K ≠ [] → op.clears = true ∧ (Res.stuck : Res (Ans σ)) = .panic .user) :=
    ⟨[], [], (Paid.same rfl rfl).lost rfl rfl, .nil _, fun h => absurd rfl h⟩
  simp only
  unfold stepD
  cases op with
  | invalidate p =>
    simp only [Removal.op, Op.promise?]
    by_cases hl : s.live p = true
    case neg => simp only [hl]; exact none
    case pos => simp only [hl, if_true]; exact key _ (invalidateD_paid (Y := Y) D ord p s.c s.mem)
  | purge p =>
    simp only [Removal.op, Op.promise?]
    by_cases hl : s.live p = true
    case neg => simp only [hl]; exact none
    case pos => simp only [hl, if_true]; exact key _ (purgeD_paid (Y := Y) D ord p s.c s.mem)
  | clearArtifacts => exact key' _ rfl (clearArtifactsD_paid D ord s.c s.mem)
  | clearAll => exact key' _ rfl (clearAllD_paid D ord s.c s.mem)
  | gc => exact key _ (garbageCollectionD_paid (Y := Y) D ord s)

theorem RanEach.recorded {D : Destructors σ} {seen : σ.W → List (σ.V ⊕ σ.S)}
    (hD : ∀ c m x, seen (D c m x).1.w = seen m.w ++ [x]) {m m' : Shared σ} {L : List (σ.V ⊕ σ.S)} (h : RanEach D m L m') :
    seen m'.w = seen m.w ++ L := by
  induction h with
  | nil m => simp
  | cons c x _ ih => rw [ih, hD, List.append_assoc]; rfl

/-- **C67** So if every destructor keeps record of what it dropped, then after a removal that did not panic the record has
grown by exactly what left the cache (and, by `C60_between_partial`, all else stayed). -/
theorem C67_recorded {D : Destructors σ} {seen : σ.W → List (σ.V ⊕ σ.S)}
    (hD : ∀ c m x, seen (D c m x).1.w = seen m.w ++ [x]) (ord : HashOrder) (s : St σ) (op : Removal σ)
    (h : (stepD Y D ord s op).2 ≠ .panic .user) :
    ∃ L, seen (stepD Y D ord s op).1.w = seen s.w ++ L ∧ Lost s (stepD Y D ord s op).1 L := by
  obtain ⟨L, K, h1, h2, h3⟩ := C67_removed_is_dropped (Y := Y) D ord s op
  have hK : K = [] := by by_contra hK; exact h (h3 hK).2
  subst hK
  rw [List.append_nil] at h1
  exact ⟨L, h2.recorded hD, h1⟩

theorem invEachD_paid (D : Destructors σ) (ord : HashOrder) (l : List Id) (c : Cache σ) (m : Shared σ) :
    PaidFor D c m (invEachD Y D ord l c m).1 (invEachD Y D ord l c m).2.1 := by
  induction l generalizing c m with
  | nil => exact .same rfl rfl
  | cons a rest ih =>
    rw [invEachD]
    have h1 := invLoopD_paid (Y := Y) D ord a (edgeCount c.dependents + 1) ((∅ : IdSet).insert a) [a] c m
    change PaidFor D c m (invalidateByIdD Y D ord a c m).1 (invalidateByIdD Y D ord a c m).2.1 at h1
    generalize invalidateByIdD Y D ord a c m = x at h1 ⊢
    obtain ⟨c1, m1, e⟩ := x
    cases e with
    | done => exact h1.trans (ih ..)
    | panic k => exact h1
    | outOfFuel => exact h1

theorem invalidateDependentsD_paid (D : Destructors σ) (ord : HashOrder) (a : Id) (c : Cache σ) (m : Shared σ) :
    PaidFor D c m (invalidateDependentsD Y D ord a c m).1 (invalidateDependentsD Y D ord a c m).2.1 := by
  have h1 : ∀ set, PaidFor D c m (invEachD Y D ord (ord.f ⟨2, a, 0⟩ set) { c with dependents := c.dependents.erase a } m).1
      (invEachD Y D ord (ord.f ⟨2, a, 0⟩ set) { c with dependents := c.dependents.erase a } m).2.1 := by
    intro set
    refine .trans ?_ (invEachD_paid ..)
    exact .same rfl rfl
  unfold invalidateDependentsD
  simp only
  cases c.dependents[a]? with
  | none => exact .same rfl rfl
  | some set =>
    simp only
    have h1 := h1 set.toList
    generalize invEachD Y D ord (ord.f ⟨2, a, 0⟩ set.toList) { c with dependents := c.dependents.erase a } m = x at h1 ⊢
    obtain ⟨c1, m1, e⟩ := x
    cases e with
    | done => exact h1.trans (.same rfl rfl)
    | panic k => exact h1
    | outOfFuel => exact h1

theorem lookupMutD_paid (D : Destructors σ) (ord : HashOrder) (p : Promise σ) (c : Cache σ) (m : Shared σ) :
    PaidFor D c m (lookupMutD Y D ord p c m).1 (lookupMutD Y D ord p c m).2.1 ∧
    ∀ v, (lookupMutD Y D ord p c m).2.2 = .val (some v) → (lookupMutD Y D ord p c m).1.artifacts[p.id]? = some v := by
  have h1 := invalidateDependentsD_paid (Y := Y) D ord p.id c m
  unfold lookupMutD
  generalize invalidateDependentsD Y D ord p.id c m = x at h1 ⊢
  obtain ⟨c1, m1, e⟩ := x
  cases e with
  | done =>
    simp only at h1 ⊢
    split
    · exact ⟨h1, fun v h => by cases h⟩
    · split
      · exact ⟨h1, fun v h => by cases h⟩
      · next v e =>
        refine ⟨h1, fun v' h => ?_⟩
        simp only at h
        split at h
        · cases h; exact e
        · cases h
  | panic k => exact ⟨h1, fun v h => by cases h⟩
  | outOfFuel => exact ⟨h1, fun v h => by cases h⟩

/-- Writing to what is there loses nothing more. -/
theorem Paid.lost_write {c c' : Cache σ} {L : List (σ.V ⊕ σ.S)} (h : Paid c c' L) {s s' : St σ} (e : s.c = c)
    (h1 : ∀ a : Id, s'.c.artifacts[a]? = none ↔ c'.artifacts[a]? = none)
    (h2 : ∀ a : Id, s'.c.dynStates[a]? = none ↔ c'.dynStates[a]? = none) : Lost s s' L := by
  obtain ⟨A, B, g1, g2, g3, g4, _, _, g5⟩ := h
  subst e
  refine ⟨A, B, g1, g2, fun a v => ?_, fun a d => ?_, g5⟩
  · rw [g3]; exact and_congr_right fun _ => (h1 a).symm
  · rw [g4]; exact and_congr_right fun _ => (h2 a).symm

theorem insert_none_iff {α : Type} {m : AMap α} {b : Id} {v w : α} (h : m[b]? = some w) (a : Id) :
    (m.insert b v)[a]? = none ↔ m[a]? = none := by
  rw [ExtTreeMap.getElem?_insert]
  split
  · next e =>
    obtain rfl : b = a := by simpa using e
    rw [h]; simp
  · rfl

/-- **C67** The same for `lookup_mut`: the artifacts it drops are those of the builders that used `p` (see C22), each exactly
once; the artifact of `p` itself is not dropped by the cache (a caller that overwrites it drops the old one). -/
theorem C67_lookup_mut (D : Destructors σ) (n : Nat) (ord : HashOrder) (s : St σ) (p : Promise σ) (f : σ.V → σ.V) :
    let s' := (stepM Y D n ord s (.lookupMut p f)).1
    ∃ L, Lost s s' L ∧ RanEach D s.mem L s'.mem := by
  obtain ⟨⟨L, h1, h2⟩, h3⟩ := lookupMutD_paid (Y := Y) D ord p s.c s.mem
  simp only [stepM]
  split
  · generalize lookupMutD Y D ord p s.c s.mem = x at h1 h2 h3 ⊢
    obtain ⟨c1, m1, r⟩ := x
    cases r with
    | val o =>
      cases o with
      | none => exact ⟨L, h1.lost rfl rfl, h2⟩
      | some v =>
        simp only at h3 ⊢
        have h3 := h3 v rfl
        unfold writeArt
        split
        · next c2 e =>
          split at e
          · cases e
            exact ⟨L, h1.lost_write rfl (fun a => insert_none_iff h3 a) (fun a => Iff.rfl), h2⟩
          · cases e
        · exact ⟨L, h1.lost rfl rfl, h2⟩
    | panic k => exact ⟨L, h1.lost rfl rfl, h2⟩
    | stuck => exact ⟨L, h1.lost rfl rfl, h2⟩
    | overflow => exact ⟨L, h1.lost rfl rfl, h2⟩
  · exact ⟨[], (Paid.same rfl rfl).lost rfl rfl, .nil _⟩

/-- **C67** And for `get_mut` where there is an artifact (where a `lookup_mut` would not answer `None`; otherwise it is built
after that). -/
theorem C67_get_mut (D : Destructors σ) (n : Nat) (ord : HashOrder) (s : St σ) (p : Promise σ) (f : σ.V → σ.V)
    (h : (stepM Y D n ord s (.lookupMut p f)).2 ≠ .val (.optArt none)) :
    let s' := (stepM Y D n ord s (.getMut p f)).1
    ∃ L, Lost s s' L ∧ RanEach D s.mem L s'.mem := by
  obtain ⟨h1, _⟩ := lookupMutD_paid (Y := Y) D ord p s.c s.mem
  simp only [stepM] at h ⊢
  by_cases hl : s.live p = true
  case neg =>
    rw [if_neg (by simpa [Mutation.promise] using hl)]
    exact ⟨[], (Paid.same rfl rfl).lost rfl rfl, .nil _⟩
  case pos =>
    rw [if_pos (by simpa [Mutation.promise] using hl)] at h ⊢
    unfold getMutD
    generalize lookupMutD Y D ord p s.c s.mem = x at h h1 ⊢
    obtain ⟨c1, m1, r⟩ := x
    have fin : ∃ L, Lost s (m1.st c1) L ∧ RanEach D s.mem L m1 := by
      obtain ⟨L, h2, h3⟩ := h1
      exact ⟨L, h2.lost rfl rfl, h3⟩
    cases r with
    | val o =>
      cases o with
      | none => exact absurd rfl h
      | some v =>
        obtain ⟨g1, g3⟩ := lookupMutD_paid (Y := Y) D ord p c1 m1
        obtain ⟨L, h2, h3⟩ := h1.trans g1
        simp only
        generalize lookupMutD Y D ord p c1 m1 = x at h2 h3 g3 ⊢
        obtain ⟨c2, m2, r⟩ := x
        have fin : ∃ L, Lost s (m2.st c2) L ∧ RanEach D s.mem L m2 := ⟨L, h2.lost rfl rfl, h3⟩
        cases r with
        | val o =>
          cases o with
          | none => exact fin
          | some v =>
            simp only at g3 ⊢
            have g3 := g3 v rfl
            unfold writeArt
            split
            · next c3 e =>
              split at e
              · cases e
                exact ⟨L, h2.lost_write rfl (fun a => insert_none_iff g3 a) (fun a => Iff.rfl), h3⟩
              · cases e
            · exact fin
        | panic k => exact fin
        | stuck => exact fin
        | overflow => exact fin
    | panic k => exact fin
    | stuck => exact fin
    | overflow => exact fin

theorem invLoopD_dyn (D : Destructors σ) (ord : HashOrder) (root : Id) (n : Nat) (processed : IdSet) (pending : List Id)
    (c : Cache σ) (m : Shared σ) : (invLoopD Y D ord root n processed pending c m).1.dynStates = c.dynStates := by
  induction n generalizing processed pending c m with
  | zero => cases pending <;> rfl
  | succ n ih =>
    cases pending with
    | nil => rfl
    | cons bid pending =>
      rw [invLoopD]
      simp only
      have h1 := (pops_stores (Y := Y) ord ⟨0, root, n⟩ ⟨1, root, n⟩ (processed.insert bid) bid pending c).2
      generalize popDependencies Y ord ⟨1, root, n⟩ (processed.insert bid) bid
        (popDependents ord ⟨0, root, n⟩ bid pending c).2 = q at h1 ⊢
      obtain ⟨c1, e⟩ := q
      cases e with
      | done =>
        simp only
        split
        · exact h1
        · rw [ih]; exact h1
      | panic k => exact h1
      | outOfFuel => exact h1

theorem invalidateD_dyn (D : Destructors σ) (ord : HashOrder) (p : Promise σ) (c : Cache σ) (m : Shared σ) :
    (invalidateD Y D ord p c m).1.dynStates = c.dynStates := by
  have h := invLoopD_dyn (Y := Y) D ord p.id (edgeCount c.dependents + 1) ((∅ : IdSet).insert p.id) [p.id] c m
  unfold invalidateD
  change (invalidateByIdD Y D ord p.id c m).1.dynStates = _ at h
  generalize invalidateByIdD Y D ord p.id c m = x at h ⊢
  obtain ⟨c1, m1, e⟩ := x
  cases e <;> exact h

/-- **C67** And for `dyn_state_mut` of a dynamic state that exists (otherwise it is initialized then): the artifacts it drops
are dropped exactly once, the dynamic state is kept. -/
theorem C67_dyn_state_mut (D : Destructors σ) (n : Nat) (ord : HashOrder) (s : St σ) (p : Promise σ) (f : σ.S → σ.S)
    {d : σ.S} (hd : HasState s p.id d) :
    let s' := (stepM Y D n ord s (.dynStateMut p f)).1
    (∃ d', HasState s' p.id d') ∧ ∃ L, Lost s s' L ∧ RanEach D s.mem L s'.mem := by
  obtain ⟨L, h1, h2⟩ := invalidateD_paid (Y := Y) D ord p s.c s.mem
  have h3 := invalidateD_dyn (Y := Y) D ord p s.c s.mem
  have fin : ∀ s' : St σ, s'.c.artifacts = (invalidateD Y D ord p s.c s.mem).1.artifacts →
      s'.c.dynStates = s.c.dynStates → s'.mem = (invalidateD Y D ord p s.c s.mem).2.1 →
      (∃ d', HasState s' p.id d') ∧ ∃ L, Lost s s' L ∧ RanEach D s.mem L s'.mem := by
    intro s' e1 e2 e3
    refine ⟨⟨d, by simp only [HasState, e2]; exact hd⟩, L, ?_, e3 ▸ h2⟩
    exact h1.lost_write rfl (fun a => by rw [e1]) (fun a => by rw [e2, h3])
  simp only [stepM]
  split
  · unfold dynStateMutD
    generalize invalidateD Y D ord p s.c s.mem = x at h1 h2 h3 fin ⊢
    obtain ⟨c1, m1, e⟩ := x
    simp only at h3
    have hd1 : c1.dynStates[p.id]? = some d := by rw [h3]; exact hd
    cases e with
    | done =>
      simp only
      have hmk : ∀ c : Cache σ, (makeKnown p c).artifacts = c.artifacts ∧ (makeKnown p c).dynStates = c.dynStates := by
        intro c; unfold makeKnown; repeat' split
        all_goals exact ⟨rfl, rfl⟩
      have he : ∃ r : Res σ.S, ensureDyn Y p (m1.st c1) = ((m1.st c1).onCache (makeKnown p), r) ∧ ∀ v, r = .val v → v = d := by
        unfold ensureDyn
        have : ((m1.st c1).onCache (makeKnown p)).c.dynStates[p.id]? = some d := by
          simp only [St.onCache, Shared.st, (hmk c1).2]; exact hd1
        simp only [this]
        exact ⟨_, rfl, fun v h => by split at h <;> cases h; rfl⟩
      obtain ⟨r, he, hr⟩ := he
      rw [he]
      cases r with
      | val d' =>
        obtain rfl := hr d' rfl
        simp only
        split
        · refine ⟨⟨f d', ?_⟩, L, h1.lost_write rfl (fun a => ?_) (fun a => ?_), h2⟩
          · simp [HasState, St.onCache, Cache.emit]
          · simp only [St.onCache, Cache.emit, Shared.st, (hmk c1).1]
          · simp only [St.onCache, Cache.emit, Shared.st, (hmk c1).2]
            exact insert_none_iff hd1 a
        · exact fin _ (hmk c1).1 ((hmk c1).2.trans h3) rfl
      | panic k => exact fin _ (hmk c1).1 ((hmk c1).2.trans h3) rfl
      | stuck => exact fin _ (hmk c1).1 ((hmk c1).2.trans h3) rfl
      | overflow => exact fin _ (hmk c1).1 ((hmk c1).2.trans h3) rfl
    | panic k => exact fin _ rfl h3 rfl
    | outOfFuel => exact fin _ rfl h3 rfl
  · exact ⟨⟨d, hd⟩, [], (Paid.same rfl rfl).lost rfl rfl, .nil _⟩

/-! ## Examples -/

namespace Demo

/-- The world is the record of what was dropped. -/
abbrev sigD : Sig := ⟨Nat, Nat, Nat, Nat, List (Nat ⊕ Nat), Nat, inferInstance, inferInstance⟩

/-- Builder `b` lives at address `10 + b`. -/
def PD (b : Nat) : Promise sigD := ⟨10 + b, b⟩

/-- 0 returns its dynamic state (initially 0); 1 returns the artifact of 0, plus 100; 2 returns 2. -/
def codeD : Nat → Prog sigD
  | 0 => .myState id fun d => .ret (.ok d)
  | 1 => .resolve .bin (PD 0) fun r => match r with
    | .ok v => .ret (.ok (v + 100))
    | .error e => .ret (.error e)
  | b => .ret (.ok b)

/-- The system of these builders. -/
def YD : Sys sigD where
  code := codeD
  init b w := (w, some b)
  vty _ := 0
  sty _ := 0
  artTy _ := 0
  stTy _ := 0
  clone v := v
  debug := true

/-- All three are built, to 0, 100 and 2. -/
def sD : St sigD := runOps YD 9 ord [.alloc (PD 0), .alloc (PD 1), .alloc (PD 2), .get .bin (PD 1), .get .bin (PD 2)] (St.new [])

/-- Destructors that keep record. -/
def recording : Destructors sigD := .plain fun w x => (w ++ [x], false)

/-- Such that also panic, except the one of the artifact 0. -/
def recordingBomb : Destructors sigD := .plain fun w x => (w ++ [x], x != .inl 0)

/-- They meet the hypotheses of `C67_recorded`. -/
example : ∃ L, (stepD YD recording ord sD (.invalidate (PD 0))).1.w = sD.w ++ L ∧
    Lost sD (stepD YD recording ord sD (.invalidate (PD 0))).1 L :=
  C67_recorded (seen := id) (fun _ _ _ => rfl) ord sD (.invalidate (PD 0)) (fun h => by cases h)

/-- What is dropped by `invalidate(0)`, `purge(2)`, `clear_artifacts` and `clear_all` in this state. -/
example : (stepD YD recording ord sD (.invalidate (PD 0))).1.w = [.inl (0 : Nat), .inl (100 : Nat)] ∧
    (stepD YD recording ord sD (.purge (PD 2))).1.w = [.inl (2 : Nat), .inr (2 : Nat)] ∧
    (stepD YD recording ord sD .clearArtifacts).1.w = [.inl (0 : Nat), .inl (100 : Nat), .inl (2 : Nat)] ∧
    (stepD YD recording ord sD .clearAll).1.w =
      [.inl (0 : Nat), .inl (100 : Nat), .inl (2 : Nat), .inr (0 : Nat), .inr (1 : Nat), .inr (2 : Nat)] := by decide +kernel

/-- With builders 1 and 2 dead, the garbage collection drops their artifacts and dynamic states. -/
example : (stepD YD recording ord (freeB 11 (freeB 12 sD)) .gc).1.w =
    [.inl (100 : Nat), .inr (1 : Nat), .inl (2 : Nat), .inr (2 : Nat)] := by decide +kernel

/-- If the destructor of artifact 100 panics, `clear_artifacts` leaks the artifact 2 (`K` in `C67_removed_is_dropped` cannot
be left out), while `invalidate` leaks nothing. -/
example : (stepD YD recordingBomb ord sD .clearArtifacts).2 = .panic .user ∧
    (stepD YD recordingBomb ord sD .clearArtifacts).1.w = [.inl (0 : Nat), .inl (100 : Nat)] ∧
    Uncached (stepD YD recordingBomb ord sD .clearArtifacts).1 12 :=
  ⟨rfl, by decide +kernel, by simp only [Uncached]; decide +kernel⟩

example := C67_removed_is_dropped (Y := YD) recordingBomb ord sD .clearArtifacts

/-- The mutable accesses. -/
example : (stepM YD recording 9 ord sD (.lookupMut (PD 2) fun _ => 3)).1.w = ([] : List (Nat ⊕ Nat)) ∧
    (stepM YD recording 9 ord sD (.dynStateMut (PD 0) fun _ => 3)).1.w = [.inl (0 : Nat), .inl (100 : Nat)] ∧
    HasState sD 10 0 := ⟨by decide +kernel, by decide +kernel, rfl⟩

example := C67_lookup_mut (Y := YD) recording 9 ord sD (PD 2) fun _ => 3

example := C67_get_mut (Y := YD) recording 9 ord sD (PD 2) (fun _ => 3) (fun h => by cases h)

example := C67_dyn_state_mut (Y := YD) recording 9 ord sD (PD 0) (fun _ => 3) (d := (0 : Nat)) rfl

end Demo

end Daab
