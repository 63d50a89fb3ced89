import Verif.Footprint
import Verif.Anyhow
import Verif.Props5
import Mathlib.Data.Set.Card

/-!
# How much work invalidation and garbage collection do

The only loops of `RawCache` besides the calls of builders are those of `invalidate_by_id`,
`invalidate_dependents`, `clear_artifacts` and `garbage_collection`.  The functions below count how often the
bodies of these loops are executed; they follow the functions of `Model.lean` and take all intermediate
states from them.  The cost of one execution of a loop body is a constant number of hash table
operations, which is trusted to be (expected, amortized) constant; not counted is what the destructors of
dropped artifacts and the freeing of the tables themselves cost.
-/

set_option autoImplicit false
namespace Daab
open Std

variable {σ : Sig} {Y : Sys σ} {s : St σ}

/-- `internal.rs` 814-835: executions of the body of the inner `for` loop. -/
def unlinkWork (Y : Sys σ) (processed : IdSet) (bid : Id) : List Id → Cache σ → Nat
  | [], _ => 0
  | dep :: rest, c =>
    if dep ∈ processed then 1 + unlinkWork Y processed bid rest c
    else
      match c.dependents[dep]? with
      | none => 1
      | some set =>
        let c := { c with dependents := c.dependents.insert dep (set.erase bid) }
        if Y.debug && !(set.contains bid) then 1
        else
          let c := if (set.erase bid).isEmpty then { c with leafs := c.leafs.insert dep } else c
          1 + unlinkWork Y processed bid rest c

/-- `internal.rs` 806-809: executions of the body of the `for` loop that pushes the dependents. -/
def pushWork (bid : Id) (c : Cache σ) : Nat :=
  match c.dependents[bid]? with
  | some set => set.size
  | none => 0

/-- `internal.rs` 812-836: executions of the body of the `for` loop over the dependencies. -/
def dependenciesWork (Y : Sys σ) (ord : HashOrder) (i : IterPoint) (processed : IdSet) (bid : Id) (c : Cache σ) : Nat :=
  match c.dependencies[bid]? with
  | some set =>
    unlinkWork Y processed bid (ord.f i set.toList) { c with dependencies := c.dependencies.erase bid }
  | none => 0

/-- `internal.rs` 801-843: executions of the bodies of the `while` loop and of the loops in it. -/
def invLoopWork (Y : Sys σ) (ord : HashOrder) (root : Id) : Nat → IdSet → List Id → Cache σ → Nat
  | _, _, [], _ => 0
  | 0, _, _ :: _, _ => 0
  | n + 1, processed, bid :: pending, c =>
    let processed := processed.insert bid
    let r := popDependents ord ⟨0, root, n⟩ bid pending c
    let q := popDependencies Y ord ⟨1, root, n⟩ processed bid r.2
    1 + pushWork bid c + dependenciesWork Y ord ⟨1, root, n⟩ processed bid r.2 +
      match q with
      | (c, .done) =>
        let c := { c with leafs := c.leafs.insert bid }
        let c := { c with artifacts := c.artifacts.erase bid }
        invLoopWork Y ord root n processed r.1 c
      | _ => 0

/-- `internal.rs` 789-845: executions of loop bodies in `invalidate_by_id`. -/
def invalidateWork (Y : Sys σ) (ord : HashOrder) (a : Id) (c : Cache σ) : Nat :=
  invLoopWork Y ord a (edgeCount c.dependents + 1) ((∅ : IdSet).insert a) [a] c

/-- `internal.rs` 852-854: executions of loop bodies in the loop of `invalidate_dependents`. -/
def invEachWork (Y : Sys σ) (ord : HashOrder) : List Id → Cache σ → Nat
  | [], _ => 0
  | a :: rest, c =>
    1 + invalidateWork Y ord a c +
      match invalidateById Y ord a c with
      | (c, .done) => invEachWork Y ord rest c
      | _ => 0

/-- `internal.rs` 850-859: executions of loop bodies in `invalidate_dependents`. -/
def mutWork (Y : Sys σ) (ord : HashOrder) (a : Id) (c : Cache σ) : Nat :=
  match c.dependents[a]? with
  | some set => invEachWork Y ord (ord.f ⟨2, a, 0⟩ set.toList) { c with dependents := c.dependents.erase a }
  | none => 0

/-- `internal.rs` 905-910: executions of loop bodies in the loop of `garbage_collection`. -/
def collectWork (Y : Sys σ) (ord : HashOrder) : List Id → Cache σ → Nat
  | [], _ => 0
  | a :: rest, c =>
    1 + invalidateWork Y ord a c +
      match invalidateById Y ord a c with
      | (c, .done) =>
        collectWork Y ord rest
          ({ c with
              dynStates := c.dynStates.erase a,
              known := c.known.erase a,
              leafs := c.leafs.erase a }.emit (.collect a))
      | _ => 0

/-- `internal.rs` 898-903: how many leafs the selection of the unreachable ones looks at; it ends in a panic
at one that is not known. -/
def selectWork (s : St σ) : List Id → Nat
  | [] => 0
  | a :: rest =>
    1 + match s.c.known[a]? with
      | none => 0
      | some _ => selectWork s rest

/-- `internal.rs` 884-911: executions of loop bodies in `garbage_collection`, the iterators of the
assertion (debug builds only) and of the selection of the unreachable leafs included.  Simplification: an
assertion that fails would end its iterator earlier. -/
def gcWork (Y : Sys σ) (ord : HashOrder) (s : St σ) : Nat :=
  (if Y.debug then s.c.known.size else 0) +
    if Y.debug && !gcAssertion s.c then 0 else
    selectWork s (ord.f ⟨3, 0, 0⟩ s.c.leafs.toList) +
      match selectDead s (ord.f ⟨3, 0, 0⟩ s.c.leafs.toList) with
      | none => 0
      | some l => collectWork Y ord l s.c

/-- `src/cache.rs` 320-830: executions of loop bodies of the cache in an operation; what a builder does is not
counted, in particular there is no loop of the cache in `get` and `resolve` (`internal.rs` 228-262, 310-620). -/
def opWork (Y : Sys σ) (ord : HashOrder) (s : St σ) : Op σ → Nat
  | .invalidate p | .dynStateMut p _ => invalidateWork Y ord p.id s.c
  | .purge p =>
    let c := { s.c with known := s.c.known.erase p.id }
    let c := { c with artifacts := c.artifacts.erase p.id }
    invalidateWork Y ord p.id ({ c with dynStates := c.dynStates.erase p.id }.emit (.purged p))
  | .lookupMut p _ => mutWork Y ord p.id s.c
  | .getMut p _ =>
    -- the second lookup of `get_mut`, `internal.rs` 565
    mutWork Y ord p.id s.c +
      match lookupMut Y ord p s.c with
      | (c, .val (some _)) => mutWork Y ord p.id c
      | _ => 0
  | .clearArtifacts => s.c.known.size
  | .gc => gcWork Y ord s
  | _ => 0

/-- The work of all operations of a history. -/
def playWork (Y : Sys σ) : History σ → St σ → Nat
  | [], _ => 0
  | (n, ord, op) :: h, s => opWork Y ord s op + playWork Y h (step Y n ord s op).1

/-! ## Upper bounds -/

theorem unlinkWork_le (processed : IdSet) (bid : Id) (l : List Id) (c : Cache σ) :
    unlinkWork Y processed bid l c ≤ l.length := by
  induction l generalizing c with
  | nil => simp [unlinkWork]
  | cons dep rest ih =>
    rw [unlinkWork]
    simp only [List.length_cons]
    split
    · have := ih c; omega
    · split
      · omega
      · split
        · omega
        · next set hs hf =>
          have := ih (if (set.erase bid).isEmpty then
            { c with dependents := c.dependents.insert dep (set.erase bid), leafs := c.leafs.insert dep }
            else { c with dependents := c.dependents.insert dep (set.erase bid) })
          omega

theorem unlinkWork_done (processed : IdSet) (bid : Id) (l : List Id) (c : Cache σ)
    (h : (unlink Y processed bid l c).2 = .done) : unlinkWork Y processed bid l c = l.length := by
  induction l generalizing c with
  | nil => simp [unlinkWork]
  | cons dep rest ih =>
    rw [unlinkWork]
    rw [unlink] at h
    simp only [List.length_cons]
    by_cases hp : dep ∈ processed
    · simp only [hp, if_true] at h ⊢
      have := ih c h; omega
    · simp only [hp, if_false] at h ⊢
      cases hs : c.dependents[dep]? with
      | none => rw [hs] at h; simp at h
      | some set =>
        rw [hs] at h
        simp only at h ⊢
        by_cases hf : (Y.debug && !(set.contains bid)) = true
        · simp only [hf, if_true] at h; cases h
        · simp only [hf] at h ⊢
          have := ih _ h
          simp only [Bool.false_eq_true, if_false]
          rw [this]; omega

theorem unlink_deps (processed : IdSet) (bid : Id) (l : List Id) (c : Cache σ) :
    (unlink Y processed bid l c).1.dependencies = c.dependencies := by
  induction l generalizing c with
  | nil => rfl
  | cons dep rest ih =>
    rw [unlink]
    split
    · exact ih c
    · split
      · rfl
      · simp only
        split
        · rfl
        · rw [ih]; split <;> rfl

theorem popDependents_deps (ord : HashOrder) (i : IterPoint) (bid : Id) (pending : List Id) (c : Cache σ) :
    (popDependents ord i bid pending c).2.dependencies = c.dependencies := by
  unfold popDependents; split <;> rfl

theorem pushWork_eq (ord : HashOrder) (i : IterPoint) (bid : Id) (pending : List Id) (c : Cache σ) :
    pushWork bid c + pending.length = (popDependents ord i bid pending c).1.length ∧
    pushWork bid c + edgeCount (popDependents ord i bid pending c).2.dependents = edgeCount c.dependents := by
  unfold pushWork popDependents
  cases hs : c.dependents[bid]? with
  | none => simp
  | some set =>
    have := edgeCount_erase _ _ _ hs
    have h2 : (ord.f i set.toList).length = set.size := by
      rw [(ord.perm i _).length_eq, ExtTreeSet.length_toList]
    simp only [length_foldl_cons]
    omega

theorem dependenciesWork_le (ord : HashOrder) (i : IterPoint) (processed : IdSet) (bid : Id) (c : Cache σ) :
    dependenciesWork Y ord i processed bid c + edgeCount (popDependencies Y ord i processed bid c).1.dependencies ≤
      edgeCount c.dependencies := by
  unfold dependenciesWork popDependencies
  cases hs : c.dependencies[bid]? with
  | none => simp
  | some set =>
    have := edgeCount_erase _ _ _ hs
    have h2 : (ord.f i set.toList).length = set.size := by
      rw [(ord.perm i _).length_eq, ExtTreeSet.length_toList]
    have := unlinkWork_le (Y := Y) processed bid (ord.f i set.toList) { c with dependencies := c.dependencies.erase bid }
    simp only [unlink_deps]
    omega

theorem dependenciesWork_done (ord : HashOrder) (i : IterPoint) (processed : IdSet) (bid : Id) (c : Cache σ)
    (h : (popDependencies Y ord i processed bid c).2 = .done) :
    dependenciesWork Y ord i processed bid c + edgeCount (popDependencies Y ord i processed bid c).1.dependencies =
      edgeCount c.dependencies := by
  unfold popDependencies at h
  unfold dependenciesWork popDependencies
  cases hs : c.dependencies[bid]? with
  | none => simp
  | some set =>
    rw [hs] at h
    have := edgeCount_erase _ _ _ hs
    have h2 : (ord.f i set.toList).length = set.size := by
      rw [(ord.perm i _).length_eq, ExtTreeSet.length_toList]
    have := unlinkWork_done (Y := Y) processed bid (ord.f i set.toList) { c with dependencies := c.dependencies.erase bid } h
    simp only [unlink_deps]
    omega

theorem invLoopWork_le (ord : HashOrder) (root : Id) (n : Nat) (processed : IdSet) (pending : List Id) (c : Cache σ) :
    let c' := (invLoop Y ord root n processed pending c).1
    invLoopWork Y ord root n processed pending c + 2 * edgeCount c'.dependents + edgeCount c'.dependencies ≤
      pending.length + 2 * edgeCount c.dependents + edgeCount c.dependencies := by
  induction n generalizing processed pending c with
  | zero =>
    cases pending with
    | nil => simp [invLoop, invLoopWork]
    | cons => simp [invLoop, invLoopWork]
  | succ n ih =>
    cases pending with
    | nil => simp [invLoop, invLoopWork]
    | cons bid pending =>
      obtain ⟨a1, a2⟩ := pushWork_eq ord ⟨0, root, n⟩ bid pending c
      have a3 := popDependents_deps ord ⟨0, root, n⟩ bid pending c
      simp only [invLoop, invLoopWork]
      generalize popDependents ord ⟨0, root, n⟩ bid pending c = r at a1 a2 a3 ⊢
      obtain ⟨pd, c1⟩ := r
      simp only at a1 a2 a3 ⊢
      have b1 := dependenciesWork_le (Y := Y) ord ⟨1, root, n⟩ (processed.insert bid) bid c1
      have b2 := (popDependencies_any (Y := Y) ord ⟨1, root, n⟩ (processed.insert bid) bid c1).2.2.2.1
      generalize popDependencies Y ord ⟨1, root, n⟩ (processed.insert bid) bid c1 = q at b1 b2 ⊢
      obtain ⟨c2, e⟩ := q
      simp only [List.length_cons] at b1 b2 ⊢
      cases e with
      | done =>
        have := ih (processed.insert bid) pd { c2 with leafs := c2.leafs.insert bid, artifacts := c2.artifacts.erase bid }
        simp only at this ⊢
        rw [a3] at b1
        omega
      | panic k => simp only; rw [a3] at b1; omega
      | outOfFuel => simp only; rw [a3] at b1; omega

theorem invLoopWork_done (ord : HashOrder) (root : Id) (n : Nat) (processed : IdSet) (pending : List Id) (c : Cache σ)
    (h : (invLoop Y ord root n processed pending c).2 = .done) :
    edgeCount c.dependencies ≤ invLoopWork Y ord root n processed pending c +
      edgeCount (invLoop Y ord root n processed pending c).1.dependencies := by
  induction n generalizing processed pending c with
  | zero =>
    cases pending with
    | nil => simp [invLoop, invLoopWork]
    | cons => simp [invLoop] at h
  | succ n ih =>
    cases pending with
    | nil => simp [invLoop, invLoopWork]
    | cons bid pending =>
      have a3 := popDependents_deps ord ⟨0, root, n⟩ bid pending c
      simp only [invLoop] at h
      simp only [invLoop, invLoopWork]
      generalize popDependents ord ⟨0, root, n⟩ bid pending c = r at a3 h ⊢
      obtain ⟨pd, c1⟩ := r
      simp only at a3 h ⊢
      have b1 := dependenciesWork_done (Y := Y) ord ⟨1, root, n⟩ (processed.insert bid) bid c1
      generalize popDependencies Y ord ⟨1, root, n⟩ (processed.insert bid) bid c1 = q at b1 h ⊢
      obtain ⟨c2, e⟩ := q
      cases e with
      | done =>
        have := ih (processed.insert bid) pd { c2 with leafs := c2.leafs.insert bid, artifacts := c2.artifacts.erase bid } h
        have := b1 rfl
        simp only at *
        rw [a3] at *
        omega
      | panic k => cases h
      | outOfFuel => cases h

theorem invalidateWork_le (ord : HashOrder) (a : Id) (c : Cache σ) :
    let c' := (invalidateById Y ord a c).1
    invalidateWork Y ord a c + 2 * edgeCount c'.dependents + edgeCount c'.dependencies ≤
      1 + 2 * edgeCount c.dependents + edgeCount c.dependencies :=
  invLoopWork_le ord a _ _ [a] c

theorem invalidateWork_done (ord : HashOrder) (a : Id) (c : Cache σ) (h : (invalidateById Y ord a c).2 = .done) :
    edgeCount c.dependencies ≤ invalidateWork Y ord a c + edgeCount (invalidateById Y ord a c).1.dependencies :=
  invLoopWork_done ord a _ _ [a] c h

theorem invEachWork_le (ord : HashOrder) (l : List Id) (c : Cache σ) :
    let c' := (invEach Y ord l c).1
    invEachWork Y ord l c + 2 * edgeCount c'.dependents + edgeCount c'.dependencies ≤
      2 * l.length + 2 * edgeCount c.dependents + edgeCount c.dependencies := by
  induction l generalizing c with
  | nil => simp [invEach, invEachWork]
  | cons a rest ih =>
    have h := invalidateWork_le (Y := Y) ord a c
    simp only [invEach, invEachWork, List.length_cons]
    generalize invalidateById Y ord a c = r at h ⊢
    obtain ⟨c1, e⟩ := r
    cases e with
    | done => have := ih c1; simp only at *; omega
    | panic k => simp only at *; omega
    | outOfFuel => simp only at *; omega

theorem mutWork_le (ord : HashOrder) (a : Id) (c : Cache σ) :
    let c' := (invalidateDependents Y ord a c).1
    mutWork Y ord a c + 2 * edgeCount c'.dependents + edgeCount c'.dependencies ≤
      2 * edgeCount c.dependents + edgeCount c.dependencies := by
  unfold mutWork invalidateDependents
  cases hs : c.dependents[a]? with
  | none => simp [Cache.emit]
  | some set =>
    have h1 := edgeCount_erase _ _ _ hs
    have h2 : (ord.f ⟨2, a, 0⟩ set.toList).length = set.size := by
      rw [(ord.perm _ _).length_eq, ExtTreeSet.length_toList]
    have h := invEachWork_le (Y := Y) ord (ord.f ⟨2, a, 0⟩ set.toList) { c with dependents := c.dependents.erase a }
    simp only at h ⊢
    generalize invEach Y ord (ord.f ⟨2, a, 0⟩ set.toList) { c with dependents := c.dependents.erase a } = r at h ⊢
    obtain ⟨c1, e⟩ := r
    cases e with
    | done => simp only [Cache.emit] at *; omega
    | panic k => simp only at *; omega
    | outOfFuel => simp only at *; omega

theorem collectWork_le (ord : HashOrder) (l : List Id) (c : Cache σ) :
    let c' := (collectEach Y ord l c).1
    collectWork Y ord l c + 2 * edgeCount c'.dependents + edgeCount c'.dependencies ≤
      2 * l.length + 2 * edgeCount c.dependents + edgeCount c.dependencies := by
  induction l generalizing c with
  | nil => simp [collectEach, collectWork]
  | cons a rest ih =>
    have h := invalidateWork_le (Y := Y) ord a c
    simp only [collectEach, collectWork, List.length_cons]
    generalize invalidateById Y ord a c = r at h ⊢
    obtain ⟨c1, e⟩ := r
    cases e with
    | done =>
      have := ih ({ c1 with
              dynStates := c1.dynStates.erase a,
              known := c1.known.erase a,
              leafs := c1.leafs.erase a }.emit (.collect a))
      simp only [Cache.emit] at *; omega
    | panic k => simp only at *; omega
    | outOfFuel => simp only at *; omega

theorem collectWork_done (ord : HashOrder) (l : List Id) (c : Cache σ) (hd : (collectEach Y ord l c).2 = .done) :
    edgeCount c.dependencies ≤ collectWork Y ord l c + edgeCount (collectEach Y ord l c).1.dependencies := by
  induction l generalizing c with
  | nil => simp [collectEach, collectWork]
  | cons a rest ih =>
    have h := invalidateWork_done (Y := Y) ord a c
    simp only [collectEach] at hd
    simp only [collectEach, collectWork]
    generalize invalidateById Y ord a c = r at h hd ⊢
    obtain ⟨c1, e⟩ := r
    cases e with
    | done =>
      have := ih _ hd
      have := h rfl
      simp only [Cache.emit] at *; omega
    | panic k => cases hd
    | outOfFuel => cases hd

theorem selectDead_length (s : St σ) (l : List Id) {m : List Id} (h : selectDead s l = some m) : m.length ≤ l.length := by
  induction l generalizing m with
  | nil => simp [selectDead] at h; simp [← h]
  | cons a rest ih =>
    simp only [selectDead] at h
    cases hk : s.c.known[a]? with
    | none => rw [hk] at h; cases h
    | some b =>
      rw [hk] at h
      cases hr : selectDead s rest with
      | none => rw [hr] at h; cases h
      | some m' =>
        rw [hr] at h
        have := ih hr
        simp only [Option.some.injEq] at h
        subst h
        split <;> simp <;> omega

theorem selectDead_known (s : St σ) (l : List Id) {m : List Id} (h : selectDead s l = some m) :
    ∀ a ∈ l, a ∈ s.c.known := by
  induction l generalizing m with
  | nil => simp
  | cons a rest ih =>
    simp only [selectDead] at h
    cases hk : s.c.known[a]? with
    | none => rw [hk] at h; cases h
    | some b =>
      rw [hk] at h
      cases hr : selectDead s rest with
      | none => rw [hr] at h; cases h
      | some m' =>
        intro x hx
        rcases List.mem_cons.1 hx with rfl | hx
        · rw [← ExtTreeMap.isSome_getElem?_iff_mem, hk]; rfl
        · exact ih hr x hx

theorem selectWork_le (s : St σ) (l : List Id) (hl : l.Nodup) :
    (∀ m, selectDead s l = some m → selectWork s l = l.length ∧ l.length ≤ s.c.known.size) ∧
    selectWork s l ≤ s.c.known.size + 1 := by
  have key : ∃ k : List Id, k.Nodup ∧ (∀ a ∈ k, a ∈ l) ∧ (∀ a ∈ k, a ∈ s.c.known) ∧ selectWork s l ≤ k.length + 1 ∧
      ∀ m, selectDead s l = some m → selectWork s l = l.length := by
    induction l with
    | nil => exact ⟨[], by simp, by simp, by simp, by simp [selectWork], by simp [selectWork]⟩
    | cons a rest ih =>
      obtain ⟨k, h1, h0, h2, h3, h4⟩ := ih (List.nodup_cons.1 hl).2
      cases hk : s.c.known[a]? with
      | none => exact ⟨[], by simp, by simp, by simp, by simp [selectWork, hk], by simp [selectDead, hk]⟩
      | some b =>
        refine ⟨a :: k, List.nodup_cons.2 ⟨fun h => (List.nodup_cons.1 hl).1 (h0 a h), h1⟩, ?_, ?_, ?_, ?_⟩
        · intro x hx
          rcases List.mem_cons.1 hx with rfl | hx
          · simp
          · exact List.mem_cons_of_mem _ (h0 x hx)
        · intro x hx
          rcases List.mem_cons.1 hx with rfl | hx
          · rw [← ExtTreeMap.isSome_getElem?_iff_mem, hk]; rfl
          · exact h2 x hx
        · simp only [selectWork, hk, List.length_cons]; omega
        · intro m hm
          simp only [selectDead, hk] at hm
          cases hr : selectDead s rest with
          | none => rw [hr] at hm; cases hm
          | some m' =>
            have := h4 m' hr
            simp only [selectWork, hk, List.length_cons]; omega
  have size : ∀ k : List Id, k.Nodup → (∀ a ∈ k, a ∈ s.c.known) → k.length ≤ s.c.known.size := by
    intro k h1 h2
    rw [← ExtTreeMap.length_keys]
    exact (List.Nodup.subperm h1 fun a ha => ExtTreeMap.mem_keys.2 (h2 a ha)).length_le
  obtain ⟨k, h1, h0, h2, h3, h4⟩ := key
  refine ⟨fun m hm => ⟨h4 m hm, size l hl (selectDead_known s l hm)⟩, ?_⟩
  have := size k h1 h2
  omega

/-- What the uses recorded in the cache will have cost when all are removed again. -/
def Cache.pot (c : Cache σ) : Nat := 2 * edgeCount c.dependents + edgeCount c.dependencies

theorem gcWork_le (ord : HashOrder) (s : St σ) :
    gcWork Y ord s + (garbageCollection Y ord s).1.pot ≤ 4 * s.c.known.size + 1 + s.c.pot := by
  unfold gcWork garbageCollection Cache.pot
  have hd : (if Y.debug = true then s.c.known.size else 0) ≤ s.c.known.size := by split <;> omega
  by_cases hf : (Y.debug && !gcAssertion s.c) = true
  · simp only [hf, if_true]; omega
  · simp only [hf, Bool.false_eq_true, if_false]
    have hnd : (ord.f ⟨3, 0, 0⟩ s.c.leafs.toList).Nodup :=
      ((ord.perm _ _).nodup_iff).2 (idset_toList_nodup _)
    obtain ⟨h1, h2⟩ := selectWork_le s _ hnd
    cases hs : selectDead s (ord.f ⟨3, 0, 0⟩ s.c.leafs.toList) with
    | none => simp only; omega
    | some l =>
      have h3 := selectDead_length s _ hs
      obtain ⟨h4, h5⟩ := h1 l hs
      have h6 := collectWork_le (Y := Y) ord l s.c
      simp only at h6 ⊢
      omega

theorem gcWork_done (ord : HashOrder) (s : St σ) (h : (garbageCollection Y ord s).2 = .done) :
    edgeCount s.c.dependencies ≤ gcWork Y ord s + edgeCount (garbageCollection Y ord s).1.dependencies := by
  unfold garbageCollection at h
  unfold gcWork garbageCollection
  split at h
  · cases h
  · next hf =>
    simp only [hf]
    cases hs : selectDead s (ord.f ⟨3, 0, 0⟩ s.c.leafs.toList) with
    | none => rw [hs] at h; cases h
    | some l =>
      rw [hs] at h
      have := collectWork_done (Y := Y) ord l s.c h
      simp only [Bool.false_eq_true, if_false]
      omega

/-! ## The number of uses -/

/-- All pairs in a dependency table. -/
def edgeList (m : AMap IdSet) : List (Id × Id) := m.toList.flatMap fun kv => kv.2.toList.map fun x => (x, kv.1)

theorem edgeList_length (m : AMap IdSet) : (edgeList m).length = edgeCount m := by
  unfold edgeList edgeCount
  simp [List.length_flatMap, ExtTreeSet.length_toList]

theorem mem_edgeList {m : AMap IdSet} {u d : Id} : (u, d) ∈ edgeList m ↔ u ∈ setAt m d := by
  unfold edgeList
  simp only [List.mem_flatMap, List.mem_map, Prod.mk.injEq]
  rw [mem_setAt]
  constructor
  · rintro ⟨⟨k, t⟩, h1, x, h2, rfl, rfl⟩
    rw [ExtTreeMap.mem_toList_iff_getElem?_eq_some] at h1
    exact ⟨t, h1, ExtTreeSet.mem_toList.1 h2⟩
  · rintro ⟨t, h1, h2⟩
    exact ⟨(d, t), ExtTreeMap.mem_toList_iff_getElem?_eq_some.2 h1, u, ExtTreeSet.mem_toList.2 h2, rfl, rfl⟩

theorem edgeList_nodup (m : AMap IdSet) : (edgeList m).Nodup := by
  unfold edgeList
  rw [List.nodup_flatMap]
  constructor
  · rintro ⟨k, t⟩ _
    exact (idset_toList_nodup t).map fun x y h => by simpa using h
  · have h1 : (m.toList.map Prod.fst).Nodup := by
      rw [ExtTreeMap.map_fst_toList_eq_keys]; exact ExtTreeMap.nodup_keys
    rw [List.nodup_iff_pairwise_ne, List.pairwise_map] at h1
    refine h1.imp ?_
    rintro ⟨k, t⟩ ⟨k', t'⟩ hne ⟨x, y⟩ h1 h2
    simp only [List.mem_map, Prod.mk.injEq] at h1 h2
    obtain ⟨_, _, _, rfl⟩ := h1
    obtain ⟨_, _, _, rfl⟩ := h2
    exact hne rfl

theorem edgeCount_ncard (m : AMap IdSet) : edgeCount m = Set.ncard {x : Id × Id | x.1 ∈ setAt m x.2} := by
  have : {x : Id × Id | x.1 ∈ setAt m x.2} = ((edgeList m).toFinset : Set (Id × Id)) := by
    ext ⟨u, d⟩
    simp [mem_edgeList]
  rw [this, Set.ncard_coe_finset, List.toFinset_card_of_nodup (edgeList_nodup m), edgeList_length]

/-- How many pairs `(u, d)` of builders there are such that `u` is recorded to have used `d`. -/
noncomputable def uses (s : St σ) : Nat := Set.ncard {x : Id × Id | UsesNow s x.1 x.2}

theorem uses_finite (s : St σ) : {x : Id × Id | UsesNow s x.1 x.2}.Finite := by
  have : {x : Id × Id | UsesNow s x.1 x.2} = ((edgeList s.c.dependents).toFinset : Set (Id × Id)) := by
    ext ⟨u, d⟩
    simp only [Set.mem_ofPred_eq, List.coe_toFinset, mem_edgeList]
    exact usesNow_iff s u d
  rw [this]
  exact Finset.finite_toSet _

theorem uses_dependents (s : St σ) : uses s = edgeCount s.c.dependents := by
  rw [edgeCount_ncard]
  unfold uses
  congr 1
  ext ⟨u, d⟩
  exact usesNow_iff s u d

theorem uses_dependencies (hi : Inv Y s) : uses s = edgeCount s.c.dependencies := by
  rw [edgeCount_ncard]
  unfold uses
  have : (fun x : Id × Id => (x.2, x.1)) '' {x : Id × Id | UsesNow s x.1 x.2} =
      {x : Id × Id | x.1 ∈ setAt s.c.dependencies x.2} := by
    ext ⟨d, u⟩
    simp only [Set.mem_image, Set.mem_ofPred_eq, Prod.mk.injEq, Prod.exists]
    constructor
    · rintro ⟨u', d', h, rfl, rfl⟩
      exact (hi.sync _ _).1 ((usesNow_iff ..).1 h)
    · intro h
      exact ⟨u, d, (usesNow_iff ..).2 ((hi.sync _ _).2 h), rfl, rfl⟩
  rw [← this, Set.ncard_image_of_injective]
  rintro ⟨a, b⟩ ⟨c, d⟩ h
  simp only [Prod.mk.injEq] at h ⊢
  exact ⟨h.2, h.1⟩

theorem pot_uses (hi : Inv Y s) : s.c.pot = 3 * uses s := by
  have h1 := uses_dependents s
  have h2 := uses_dependencies hi
  unfold Cache.pot
  omega

/-! ## Where the uses come from -/

/-- How often a builder has resolved another one so far, over the whole life of the cache. -/
def resolves (s : St σ) : Nat := s.c.log.countP fun e => match e with | .resolve .. => true | _ => false

theorem edgeCount_insert_one (m : AMap IdSet) (k x : Id) :
    edgeCount (m.insert k ((setAt m k).insert x)) ≤ edgeCount m + 1 := by
  have h2 := edgeCount_erase (m.insert k ((setAt m k).insert x)) k ((setAt m k).insert x) (by simp)
  have h3 : (m.insert k ((setAt m k).insert x)).erase k = m.erase k := by
    ext x; grind
  rw [h3] at h2
  have h4 : ((setAt m k).insert x).size ≤ (setAt m k).size + 1 := by
    rw [ExtTreeSet.size_insert]; split <;> omega
  cases hk : m[k]? with
  | none =>
    have h5 : m.erase k = m := by
      ext x; grind
    have : (setAt m k).size = 0 := by simp [setAt, hk]
    rw [h5] at h2
    omega
  | some t =>
    have := edgeCount_erase m k t hk
    have : (setAt m k).size = t.size := by simp [setAt, hk]
    omega

theorem Micro.pot {s s' : St σ} (h : Micro Y s s') : s'.c.pot + 3 * resolves s ≤ s.c.pot + 3 * resolves s' := by
  cases h with
  | known p _ => unfold resolves St.onCache makeKnown Cache.pot; split <;> exact Nat.le_refl _
  | track u q _ _ _ =>
    have h1 := edgeCount_insert_one s.c.dependents q.id u.id
    have h2 := edgeCount_insert_one s.c.dependencies u.id q.id
    simp only [resolves, St.onCache, addEdge, Cache.emit, Cache.pot, List.countP_cons]
    simp only [if_true]
    omega
  | alloc q h => rw [resolves, resolves, allocB_c h]
  | free a => exact Nat.le_refl _
  | world w => exact Nat.le_refl _
  | _ => simp [resolves, St.onCache, Cache.emit, Cache.pot]

theorem Micros.pot {s s' : St σ} (h : Micros Y s s') : s'.c.pot + 3 * resolves s ≤ s.c.pot + 3 * resolves s' := by
  induction h with
  | refl => exact Nat.le_refl _
  | tail _ hm ih => have := hm.pot; omega

end Daab
