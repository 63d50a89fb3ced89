import Verif.Ops

/-! # Analysis of `invalidate_dependents`, `lookup_mut`, `get_mut` -/

open Std

namespace Daab

variable {σ : Sig}

/-- The inner loop dies at the first dependency without counterpart. -/
theorem unlink_panic (Y : Sys σ) (processed : IdSet) (bid a : Id) (l : List Id) (hl : l.Nodup)
    (ha : a ∈ l) (hap : a ∉ processed) (c : Cache σ) (hca : c.dependents[a]? = none)
    (h : ∀ d ∈ l, d ≠ a → d ∉ processed → bid ∈ setAt c.dependents d) :
    ∃ c', unlink Y processed bid l c = (c', .panic .noCounterpart) := by
  induction l generalizing c with
  | nil => cases ha
  | cons dep rest ih =>
    obtain ⟨hnot, hrest⟩ := List.nodup_cons.1 hl
    rw [unlink]
    by_cases hd : dep = a
    · subst hd
      rw [if_neg hap]
      simp only [hca]
      exact ⟨c, rfl⟩
    · have ha' : a ∈ rest := by
        rcases List.mem_cons.1 ha with h | h
        · exact absurd h.symm hd
        · exact h
      by_cases hp : dep ∈ processed
      · rw [if_pos hp]
        exact ih hrest ha' c hca (fun d hd => h d (List.mem_cons_of_mem _ hd))
      · rw [if_neg hp]
        have hb := h dep List.mem_cons_self hd hp
        obtain ⟨set, hset, hmem⟩ := mem_setAt.1 hb
        simp only [hset]
        have hc : set.contains bid = true := by simpa using hmem
        simp only [hc, Bool.not_true, Bool.and_false, Bool.false_eq_true, if_false]
        apply ih hrest ha'
        · have : (c.dependents.insert dep (set.erase bid))[a]? = none := by grind
          split <;> exact this
        · intro d hd1 hd2 hd3
          have h1 := h d (List.mem_cons_of_mem _ hd1) hd2 hd3
          have h2 : d ≠ dep := by rintro rfl; exact hnot hd1
          have : bid ∈ setAt (c.dependents.insert dep (set.erase bid)) d := by
            rw [setAt_insert, if_neg h2]; exact h1
          split <;> exact this

theorem idset_toList_nodup (set : IdSet) : set.toList.Nodup := by
  have := ExtTreeSet.distinct_toList (t := set)
  rw [List.nodup_iff_pairwise_ne]
  refine this.imp ?_
  intro a b hab heq
  subst heq
  simp at hab

/-- `invalidate_by_id` dies if a dependency of the root has no counterpart. -/
theorem invalidateById_panic (Y : Sys σ) (ord : HashOrder) (y a : Id) (hay : a ≠ y) (c : Cache σ)
    (ha : a ∈ setAt c.dependencies y) (hca : c.dependents[a]? = none)
    (h : ∀ d ∈ setAt c.dependencies y, d ≠ a → d ≠ y → y ∈ setAt c.dependents d) :
    ∃ c', invalidateById Y ord y c = (c', .panic .noCounterpart) := by
  unfold invalidateById
  rw [invLoop]
  have h0 : ((∅ : IdSet).insert y).insert y = (∅ : IdSet).insert y := by ext x; grind
  rw [h0]
  generalize hr : popDependents ord ⟨0, y, edgeCount c.dependents⟩ y [] c = r
  have hr2 : r.2.dependencies = c.dependencies ∧
      ∀ d, d ≠ y → r.2.dependents[d]? = c.dependents[d]? := by
    subst hr
    unfold popDependents
    split
    · refine ⟨rfl, fun d hd => ?_⟩
      simp only
      grind
    · exact ⟨rfl, fun _ _ => rfl⟩
  have : ∃ c', popDependencies Y ord ⟨1, y, edgeCount c.dependents⟩ ((∅ : IdSet).insert y) y r.2 =
      (c', .panic .noCounterpart) := by
    unfold popDependencies
    rw [hr2.1]
    obtain ⟨set, hset, hmem⟩ := mem_setAt.1 ha
    have hset' : setAt c.dependencies y = set := by simp [setAt, hset]
    rw [hset'] at h
    simp only [hset]
    have hperm := ord.perm ⟨1, y, edgeCount c.dependents⟩ set.toList
    have hl : ∀ d, d ∈ ord.f ⟨1, y, edgeCount c.dependents⟩ set.toList ↔ d ∈ set := by
      intro d; rw [hperm.mem_iff]; simp
    apply unlink_panic Y _ y a _ (hperm.nodup_iff.2 (idset_toList_nodup set))
    · exact (hl a).2 hmem
    · rw [ExtTreeSet.mem_insert]; grind
    · exact (hr2.2 a hay).trans hca
    · intro d hd1 hd2 hd3
      have hdy : d ≠ y := by rintro rfl; apply hd3; simp
      have := h d ((hl d).1 hd1) hd2 hdy
      simpa only [setAt, hr2.2 d hdy] using this
  obtain ⟨c', he⟩ := this
  exact ⟨c', by simp only [he]⟩

/-- Invalidation of a builder all of whose dependents are itself, after its entry in `dependents` was
removed. -/
theorem invalidateById_self (Y : Sys σ) (ord : HashOrder) (a : Id) (c : Cache σ) (hs : Sync c) :
    ∃ c', invalidateById Y ord a { c with dependents := c.dependents.erase a } = (c', .done) ∧
      Dropped (· = a) c c' := by
  unfold invalidateById
  rw [invLoop]
  have h0 : ((∅ : IdSet).insert a).insert a = (∅ : IdSet).insert a := by ext x; grind
  rw [h0]
  simp only
  generalize edgeCount (c.dependents.erase a) = n
  have hinit : LoopInv c a (∅ : IdSet) [a] c :=
    { dts_none := by simp, dts_some := by simp, dts_mem := by simp, dcs_none := by simp,
      dcs_keep := by simp, art_none := by simp, art_keep := by simp, leafs := by simp,
      known := rfl, dynStates := rfl, log := rfl,
      sub := by
        intro x hx
        have : x = a := by simpa using hx
        subst this
        exact Relation.ReflTransGen.refl
      closed := by simp, root := by simp }
  obtain ⟨c2, he, hi, _⟩ := loop_body Y ord a n c hs ∅ a [] c hinit
  have h1 : popDependents ord ⟨0, a, n⟩ a [] { c with dependents := c.dependents.erase a } =
      ([], { c with dependents := c.dependents.erase a }) := by
    simp [popDependents]
  have h2 : (popDependents ord ⟨0, a, n⟩ a [] c).2 = { c with dependents := c.dependents.erase a } := by
    unfold popDependents
    split
    · rfl
    · next hn =>
      have : c.dependents.erase a = c.dependents := by ext x; grind
      rw [this]
  rw [h2] at he
  simp only [h1, he]
  refine ⟨_, by rw [invLoop], ?_⟩
  have hP : (fun x : Id => x ∈ (∅ : IdSet).insert a) = (· = a) := by
    funext x; apply propext; rw [ExtTreeSet.mem_insert]; grind
  exact hP ▸ hi.toDropped

/-- Either the accessed builder has another builder depending on it, and the code panics, or not,
and nothing but itself can be invalidated. -/
theorem invalidateDependents_panics (Y : Sys σ) (ord : HashOrder) (a x : Id) (c : Cache σ)
    (hs : Sync c) (hx : Dep c x a) (hxa : x ≠ a) :
    ∃ c', invalidateDependents Y ord a c = (c', .panic .noCounterpart) := by
  unfold invalidateDependents
  obtain ⟨set, hset, hmem⟩ := mem_setAt.1 hx
  have hset' : setAt c.dependents a = set := by simp [setAt, hset]
  simp only [hset]
  have hperm := ord.perm ⟨2, a, 0⟩ set.toList
  have hl : ∀ d, d ∈ ord.f ⟨2, a, 0⟩ set.toList ↔ Dep c d a := by
    intro d; rw [hperm.mem_iff]; unfold Dep; rw [hset']; simp
  have hnd := hperm.nodup_iff.2 (idset_toList_nodup set)
  generalize ord.f ⟨2, a, 0⟩ set.toList = l at hl hnd
  -- a builder other than `a` panics, in any cache that agrees with `c` where it matters
  have hpan : ∀ (y : Id) (c1 : Cache σ), y ≠ a → Dep c y a → c1.dependents[a]? = none →
      c1.dependencies[y]? = c.dependencies[y]? →
      (∀ d, d ≠ a → (y ∈ setAt c1.dependents d ↔ y ∈ setAt c.dependents d)) →
      ∃ c', invalidateById Y ord y c1 = (c', .panic .noCounterpart) := by
    intro y c1 hya hy h1 h2 h3
    have h4 : setAt c1.dependencies y = setAt c.dependencies y := by simp [setAt, h2]
    refine invalidateById_panic Y ord y a hya.symm c1 ?_ h1 ?_
    · rw [h4]; exact (hs y a).1 hy
    · intro d hd hda _
      rw [h4] at hd
      exact (h3 d hda).2 ((hs y d).2 hd)
  have hfirst : ∀ y, y ≠ a → Dep c y a → ∃ c', invalidateById Y ord y
      { c with dependents := c.dependents.erase a } = (c', .panic .noCounterpart) := by
    intro y hya hy
    refine hpan y _ hya hy (by simp) rfl ?_
    intro d hd
    have : (c.dependents.erase a)[d]? = c.dependents[d]? := by grind
    simp only [setAt, this]
  have hgoal : ∃ c', invEach Y ord l { c with dependents := c.dependents.erase a } =
      (c', .panic .noCounterpart) := by
    cases l with
    | nil => exact absurd ((hl x).2 hx) (by simp)
    | cons y l =>
      rw [invEach]
      by_cases hya : y = a
      · subst hya
        obtain ⟨c', he, hd⟩ := invalidateById_self Y ord y c hs
        rw [he]
        simp only
        cases l with
        | nil =>
          have := (hl x).2 hx
          simp [hxa] at this
        | cons z l =>
          have hzy : z ≠ y := by
            rintro rfl
            simp at hnd
          have hz : Dep c z y := (hl z).1 (by simp)
          rw [invEach]
          obtain ⟨c'', he'⟩ := hpan z c' hzy hz (hd.dts_none y rfl) (hd.dcs_keep z hzy) (by
            intro d hdy
            rw [hd.dts_mem d z hdy]
            simp [hzy])
          rw [he']
          exact ⟨c'', rfl⟩
      · obtain ⟨c', he⟩ := hfirst y hya ((hl y).1 (by simp))
        rw [he]
        exact ⟨c', rfl⟩
  obtain ⟨c', he⟩ := hgoal
  exact ⟨c', by rw [he]⟩

/-- The cache after `invalidate_dependents a` if nothing depends on `a`. -/
theorem invalidateDependents_none (Y : Sys σ) (ord : HashOrder) (a : Id) (c : Cache σ)
    (h : ∀ x, ¬ Dep c x a) :
    invalidateDependents Y ord a c =
      ({ c with dependents := c.dependents.erase a, leafs := c.leafs.insert a }.emit (.mutDeps a),
        .done) := by
  unfold invalidateDependents
  cases hset : c.dependents[a]? with
  | none =>
    have : c.dependents.erase a = c.dependents := by ext x; grind
    simp only [this]
  | some set =>
    have hset' : setAt c.dependents a = set := by simp [setAt, hset]
    have hnil : set.toList = [] := by
      apply List.eq_nil_iff_forall_not_mem.2
      intro x hx
      refine h x ?_
      unfold Dep
      rw [hset']
      simpa using hx
    have hf : ord.f ⟨2, a, 0⟩ set.toList = [] := by
      have := ord.perm ⟨2, a, 0⟩ set.toList
      rw [hnil] at this ⊢
      exact this.eq_nil
    simp only [hf, invEach]

/-- The cache after `invalidate_dependents a` if `a` depends on itself, and nothing else does. -/
theorem invalidateDependents_self (Y : Sys σ) (ord : HashOrder) (a : Id) (c : Cache σ)
    (hs : Sync c) (h1 : Dep c a a) (h : ∀ x, Dep c x a → x = a) :
    ∃ c', invalidateDependents Y ord a c = (c'.emit (.mutDeps a), .done) ∧
      Dropped (· = a) c c' := by
  unfold invalidateDependents
  obtain ⟨set, hset, hmem⟩ := mem_setAt.1 h1
  have hset' : setAt c.dependents a = set := by simp [setAt, hset]
  simp only [hset]
  have hl : ord.f ⟨2, a, 0⟩ set.toList = [a] := by
    have hperm := ord.perm ⟨2, a, 0⟩ set.toList
    have hnd := hperm.nodup_iff.2 (idset_toList_nodup set)
    have hm : ∀ d, d ∈ ord.f ⟨2, a, 0⟩ set.toList ↔ d = a := by
      intro d
      rw [hperm.mem_iff]
      constructor
      · intro hd; exact h d (by unfold Dep; rw [hset']; simpa using hd)
      · rintro rfl; simpa using hmem
    generalize ord.f ⟨2, a, 0⟩ set.toList = l at hm hnd
    cases l with
    | nil => exact absurd ((hm a).2 rfl) (by simp)
    | cons y l =>
      have hy : y = a := (hm y).1 (by simp)
      subst hy
      cases l with
      | nil => rfl
      | cons z l =>
        have hz : z = y := (hm z).1 (by simp)
        subst hz
        simp at hnd
  rw [hl]
  obtain ⟨c', he, hd⟩ := invalidateById_self Y ord a c hs
  refine ⟨{ c' with leafs := c'.leafs.insert a }, ?_, ?_⟩
  · simp only [invEach, he]
  · have hl : c'.leafs.insert a = c'.leafs := by
      have : a ∈ c'.leafs := (hd.leafs a).2 (Or.inr (Or.inl rfl))
      ext x; grind
    rw [hl]
    exact hd

/-- If nothing but `a` depends on `a`, then `Hit` and `StrictHit` are simple. -/
theorem hit_self {dep : Id → Id → Prop} {a : Id} (h : ∀ x, dep x a → x = a) (x : Id) :
    Hit dep a x ↔ x = a := by
  constructor
  · intro hx
    induction hx using Relation.ReflTransGen.head_induction_on with
    | refl => rfl
    | head h1 _ ih => subst ih; exact h _ h1
  · rintro rfl; exact Relation.ReflTransGen.refl

theorem strictHit_self {dep : Id → Id → Prop} {a : Id} (h : ∀ x, dep x a → x = a) (h1 : dep a a)
    (x : Id) : StrictHit dep a x ↔ x = a := by
  constructor
  · intro hx; exact (hit_self h x).1 hx.to_reflTransGen
  · rintro rfl; exact Relation.TransGen.single h1

theorem strictHit_none {dep : Id → Id → Prop} {a : Id} (h : ∀ x, ¬ dep x a) (x : Id) :
    ¬ StrictHit dep a x := by
  intro hx
  obtain ⟨y, _, hy⟩ := Relation.TransGen.tail'_iff.1 hx
  exact h y hy

/-- `c'` has no entry in its dependency maps that `c` has not. -/
def Thinner (c' c : Cache σ) : Prop :=
  (∀ d : Id, d ∈ c'.dependents → d ∈ c.dependents) ∧ ∀ u : Id, u ∈ c'.dependencies → u ∈ c.dependencies

theorem Dropped.thinner {P : Id → Prop} {c c' : Cache σ} (h : Dropped P c c') : Thinner c' c := by
  constructor
  · intro d hd
    rw [mem_getElem] at hd ⊢
    obtain ⟨x, hx⟩ := hd
    by_cases hp : P d
    · rw [h.dts_none d hp] at hx; cases hx
    · have := h.dts_some d hp
      rw [hx] at this
      exact Option.isSome_iff_exists.1 this.symm
  · intro u hu
    rw [mem_getElem] at hu ⊢
    by_cases hp : P u
    · rw [h.dcs_none u hp] at hu; simp at hu
    · rw [h.dcs_keep u hp] at hu; exact hu

/-- `invalidate_dependents` either hits its bug, or the invariant holds afterwards. -/
theorem Inv.invalidateDependents {Y : Sys σ} {s : St σ} (hi : Inv Y s) (ord : HashOrder) (a : Id) :
    (∃ c', invalidateDependents Y ord a s.c = (c', .panic .noCounterpart) ∧ ∃ x, x ≠ a ∧ Dep s.c x a) ∨
    (∃ c', invalidateDependents Y ord a s.c = (c', .done) ∧ (∀ x, Dep s.c x a → x = a) ∧
      Inv Y { s with c := c' } ∧ (∀ x, ¬ Dep c' x a) ∧ c'.known = s.c.known ∧
      c'.dynStates = s.c.dynStates ∧
      (∀ x v, c'.artifacts[x]? = some v ↔ s.c.artifacts[x]? = some v ∧ ¬ StrictHit (Dep s.c) a x) ∧
      (∀ u d, Dep c' u d ↔ Dep s.c u d ∧ ¬ StrictHit (Dep s.c) a u) ∧
      c'.log = .mutDeps a :: s.c.log ∧ (∀ x, x ∈ c'.leafs → x = a ∨ x ∈ s.c.leafs ∨ x ∈ s.c.known) ∧
      Thinner c' s.c) := by
  by_cases hex : ∃ x, x ≠ a ∧ Dep s.c x a
  · obtain ⟨x, hxa, hx⟩ := hex
    obtain ⟨c', he⟩ := invalidateDependents_panics Y ord a x s.c hi.sync hx hxa
    exact Or.inl ⟨c', he, x, hxa, hx⟩
  · have hall : ∀ x, Dep s.c x a → x = a := by grind
    right
    by_cases hself : Dep s.c a a
    · obtain ⟨c', he, hd⟩ := invalidateDependents_self Y ord a s.c hi.sync hself hall
      have hP : (· = a) = Hit (Dep s.c) a := by
        funext x; exact propext (hit_self hall x).symm
      have hS : StrictHit (Dep s.c) a = Hit (Dep s.c) a := by
        funext x; exact propext ((strictHit_self hall hself x).trans (hit_self hall x).symm)
      have hd' : Dropped (Hit (Dep s.c) a) s.c c' := hP ▸ hd
      refine ⟨_, he, hall, ?_, ?_, hd.known, hd.dynStates, ?_, ?_, ?_, ?_, hd.thinner⟩
      · have hinv := hi.invalidated (p := ⟨a, (s.c.known[a]?).getD
          (match h : s.c.known[a]? with
            | some b => b
            | none => absurd (hi.depU _ _ hself) (by grind))⟩) hd'
        have hlog : Abs.of (c'.emit (.mutDeps a)).log =
            (Abs.of s.c.log).drop (Hit (Dep s.c) a) := by
          simp only [Cache.emit, Abs.of, Abs.apply, hd.log, ← absDep_eq hi, hS]
        have hlog2 : ∀ b, Abs.of (c'.emit (.invalidate ⟨a, b⟩)).log =
            (Abs.of s.c.log).drop (Hit (Dep s.c) a) := by
          intro b
          simp only [Cache.emit, Abs.of, Abs.apply, hd.log, ← absDep_eq hi]
        exact { hinv with
          sync := hinv.sync
          absArt := by have := hinv.absArt; simp only [hlog2, hlog] at this ⊢; exact this
          absArtB := by have := hinv.absArtB; simp only [hlog2, hlog] at this ⊢; exact this
          absDyn := by have := hinv.absDyn; simp only [hlog2, hlog] at this ⊢; exact this
          absDynB := by have := hinv.absDynB; simp only [hlog2, hlog] at this ⊢; exact this
          absDep := by have := hinv.absDep; simp only [hlog2, hlog] at this ⊢; exact this }
      · intro x hx
        have := hd.dts_none a rfl
        simp [Dep, Cache.emit, setAt, this] at hx
      · intro x v
        simp only [Cache.emit, hS]
        exact hd'.art_iff x v
      · intro u d
        rw [hS]
        exact hd'.dep u d
      · simp only [Cache.emit, hd.log]
      · intro x hx
        simp only [Cache.emit] at hx
        rcases (hd.leafs x).1 hx with h | h | ⟨⟨u, _, h⟩, _⟩
        · exact Or.inr (Or.inl h)
        · exact Or.inl h
        · exact Or.inr (Or.inr (hi.depD _ _ h))
    · have hno : ∀ x, ¬ Dep s.c x a := by
        intro x hx
        have := hall x hx
        subst this
        exact hself hx
      refine ⟨_, invalidateDependents_none Y ord a s.c hno, hall, ?_, ?_, rfl, rfl, ?_, ?_, rfl, ?_,
        fun d hd => by simp only [Cache.emit] at hd; grind, fun _ h => h⟩
      · have hdep : ∀ u d, Dep ({ s.c with
            dependents := s.c.dependents.erase a, leafs := s.c.leafs.insert a }.emit (.mutDeps a)) u d ↔
            Dep s.c u d := by
          intro u d
          by_cases hd : d = a
          · subst hd
            constructor
            · intro h; simp [Dep, Cache.emit, setAt] at h
            · intro h; exact absurd h (hno u)
          · have : (s.c.dependents.erase a)[d]? = s.c.dependents[d]? := by grind
            simp only [Dep, Cache.emit, setAt, this]
        have hdrop : (Abs.of s.c.log).drop (StrictHit (Abs.of s.c.log).dep a) = Abs.of s.c.log := by
          have hn : ∀ x, ¬ StrictHit (Abs.of s.c.log).dep a x := by
            rw [← absDep_eq hi]; exact strictHit_none hno
          unfold Abs.drop
          simp [hn]
        have hlog : Abs.of ({ s.c with
            dependents := s.c.dependents.erase a, leafs := s.c.leafs.insert a }.emit (.mutDeps a)).log =
            Abs.of s.c.log := by
          simp only [Cache.emit, Abs.of, Abs.apply, hdrop]
        refine { hi with sync := ?_, depU := ?_, depD := ?_, leafNo := ?_, knownLeaf := ?_, absArt := ?_, absArtB := ?_, absDyn := ?_, absDynB := ?_, absDep := ?_ }
        · intro u d
          have := hdep u d
          unfold Dep at this
          rw [this]
          exact hi.sync u d
        · intro u d h; exact hi.depU u d ((hdep u d).1 h)
        · intro u d h; exact hi.depD u d ((hdep u d).1 h)
        · intro x u hx
          rw [hdep]
          have := hi.leafNo x u
          have := hno u
          simp only [Cache.emit] at hx
          grind
        · intro x hx
          have := hi.knownLeaf x hx
          simp only [hdep]
          simp only [Cache.emit]
          grind
        · simp only [hlog]; exact hi.absArt
        · simp only [hlog]; exact hi.absArtB
        · simp only [hlog]; exact hi.absDyn
        · simp only [hlog]; exact hi.absDynB
        · intro u d
          simp only [hlog, hdep]
          exact hi.absDep u d
      · intro x hx
        simp [Dep, Cache.emit, setAt] at hx
      · intro x v
        have := strictHit_none hno x
        simp [Cache.emit, this]
      · intro u d
        have := strictHit_none hno u
        simp only [this, not_false_eq_true, and_true]
        by_cases hd : d = a
        · subst hd
          constructor
          · intro h; simp [Dep, Cache.emit, setAt] at h
          · intro h; exact absurd h (hno u)
        · have : (s.c.dependents.erase a)[d]? = s.c.dependents[d]? := by grind
          simp only [Dep, Cache.emit, setAt, this]
      · intro x hx
        simp only [Cache.emit] at hx
        grind

end Daab
