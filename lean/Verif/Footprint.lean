import Verif.Leaf
import Verif.Props4
import Mathlib.Data.List.Nodup
import Mathlib.Data.List.Perm.Subperm

/-!
# C66: how much the cache keeps

The entries of the six tables of `RawCache`, counted.
-/

open Std

namespace Daab

variable {σ : Sig} {Y : Sys σ} {s : St σ}

/-- The tables `dependents` and `dependencies` (`internal.rs` 85-113) have rows for known builders only. -/
def Rows (s : St σ) : Prop :=
  (∀ d : Id, d ∈ s.c.dependents → d ∈ s.c.known) ∧ ∀ u : Id, u ∈ s.c.dependencies → u ∈ s.c.known

theorem makeKnown_mem (p : Promise σ) (c : Cache σ) {a : Id} (h : a ∈ c.known) : a ∈ (makeKnown p c).known := by
  rw [mem_getElem, makeKnown_getElem]
  obtain ⟨b, hb⟩ := (mem_getElem _ _).1 h
  grind

theorem makeKnown_self (p : Promise σ) (c : Cache σ) : p.id ∈ (makeKnown p c).known := by
  rw [mem_getElem, makeKnown_getElem]
  cases h : c.known[p.id]? <;> simp

theorem Rows.made (h : Rows s) (p : Promise σ) : Rows (s.onCache (makeKnown p)) := by
  constructor
  · intro d hd
    simp only [St.onCache, makeKnown_dependents] at hd
    exact makeKnown_mem p _ (h.1 d hd)
  · intro d hd
    simp only [St.onCache, makeKnown_dependencies] at hd
    exact makeKnown_mem p _ (h.2 d hd)

theorem rows_init (p : Promise σ) (s : St σ) (h : Rows s) : Rows (ensureDyn Y p s).1 := by
  have h1 := h.made p
  unfold ensureDyn
  simp only
  split
  · exact h1
  · split
    · exact h1
    · split <;> exact h1

theorem rows_own (p : Promise σ) (L : Promise σ → Prop) (s s' : St σ) (hr : Running Y p s) (hs : OwnStep Y L p s s')
    (h : Rows s) : Rows s' := by
  cases hs with
  | track q _ hl =>
    have h1 := h.made q
    have hk : p.id ∈ (makeKnown q s.c).known := makeKnown_mem q _ ((mem_getElem _ _).2 ⟨_, hr.known⟩)
    have hq := makeKnown_self q s.c
    constructor
    · intro d hd
      have hd : d ∈ (makeKnown q s.c).dependents.insert q.id ((setAt (makeKnown q s.c).dependents q.id).insert p.id) := hd
      show d ∈ (makeKnown q s.c).known
      rw [ExtTreeMap.mem_insert] at hd
      rcases hd with hd | hd
      · rw [← LawfulEqCmp.eq_of_compare hd]; exact hq
      · exact h1.1 d hd
    · intro d hd
      have hd : d ∈ (makeKnown q s.c).dependencies.insert p.id ((setAt (makeKnown q s.c).dependencies p.id).insert q.id) := hd
      show d ∈ (makeKnown q s.c).known
      rw [ExtTreeMap.mem_insert] at hd
      rcases hd with hd | hd
      · rw [← LawfulEqCmp.eq_of_compare hd]; exact hk
      · exact h1.2 d hd
  | wrote d _ => exact h
  | world w => exact h
  | alloc q ha =>
    unfold Rows
    rw [allocB_c ha]
    exact h
  | free a => exact h

theorem rows_ops (Y : Sys σ) : OpsPreserve Y Rows fun _ => True := by
  constructor
  · intro n hp p s hi hj hl ha he
    exact build_preserves (p := p) (Prog.only_true _) hp (fun s _ _ h _ => rows_init p s h) (fun _ _ h => h)
      (rows_own p _) (fun _ _ _ _ _ _ h => h) hi hj hl ha he
  · intro p s _ _ h _; exact rows_init p s h
  · intro s s' hi hr h
    cases hr with
    | inval p c' hd =>
      have ht := hd.thinner
      constructor
      · intro d hx; simp only [Cache.emit, hd.known]; exact h.1 d (ht.1 d hx)
      · intro d hx; simp only [Cache.emit, hd.known]; exact h.2 d (ht.2 d hx)
    | purge p c' hd =>
      have ht := hd.thinner
      constructor
      · intro d hx
        have hne : d ≠ p.id := by
          rintro rfl
          simp only [mem_getElem, hd.dts_none p.id .refl] at hx
          simp at hx
        have := h.1 d (ht.1 d hx)
        simp only
        grind
      · intro d hx
        have hne : d ≠ p.id := by
          rintro rfl
          simp only [mem_getElem, hd.dcs_none p.id .refl] at hx
          simp at hx
        have := h.2 d (ht.2 d hx)
        simp only
        grind
    | gc c' l _ _ hsw =>
      constructor
      · intro d hx
        simp only [mem_getElem] at hx ⊢
        have hn : ¬ Garbage s d := by
          intro hg; rw [hsw.dts_none d hg] at hx; simp at hx
        rw [hsw.known_keep d hn, ← mem_getElem]
        refine h.1 d ?_
        have := hsw.dts_some d hn
        obtain ⟨x, hx⟩ := hx
        rw [hx] at this
        exact (mem_getElem _ _).2 (Option.isSome_iff_exists.1 this.symm)
      · intro d hx
        simp only [mem_getElem] at hx ⊢
        have hn : ¬ Garbage s d := by
          intro hg; rw [hsw.dcs_none d hg] at hx; simp at hx
        rw [hsw.known_keep d hn, ← mem_getElem]
        rw [hsw.dcs_keep d hn] at hx
        exact h.2 d ((mem_getElem _ _).2 hx)
    | mutDeps a c' _ h1 _ _ _ _ ht =>
      constructor
      · intro d hx; simp only [h1]; exact h.1 d (ht.1 d hx)
      · intro d hx; simp only [h1]; exact h.2 d (ht.2 d hx)
    | write p v f _ _ hv => exact h
    | clearArtifacts => constructor <;> (intro d hd; simp [St.onCache, clearArtifacts, Cache.emit] at hd)
    | clearAll => constructor <;> (intro d hd; simp [St.onCache, clearAll, Cache.emit] at hd)
    | alloc q ha =>
      unfold Rows
      rw [allocB_c ha]
      exact h
    | free a => exact h
    | world f _ => exact h
  · intro p f s d _ _ _ _ _ _ h
    exact h

theorem rows_hooks (Y : Sys σ) (D : Hooks σ) : HooksPreserve Y Rows D := by
  refine ⟨?_, fun _ _ h => h⟩
  intro n hp p s hi hj hl ha he
  exact buildH_preserves (p := p) (Prog.only_true _) hp (fun _ _ h => h) (fun s _ _ h _ => rows_init p s h) (fun _ _ h => h)
    (rows_own p _) (fun _ _ _ _ _ _ _ h => h) hi hj hl ha he

theorem Reachable.rows (h : Reachable Y s) : Rows s :=
  h.preserved (rows_ops Y) (rows_hooks Y) fun w => by constructor <;> simp [St.new]

/-! ## Counting -/

theorem size_le_of_keys {α β : Type} {m : AMap α} {n : AMap β} (h : ∀ a : Id, a ∈ m → a ∈ n) : m.size ≤ n.size := by
  rw [← ExtTreeMap.length_keys, ← ExtTreeMap.length_keys]
  refine (List.Nodup.subperm (ExtTreeMap.nodup_keys) ?_).length_le
  intro a ha
  rw [ExtTreeMap.mem_keys] at ha ⊢
  exact h a ha

theorem set_size_le {α : Type} {t : IdSet} {n : AMap α} (h : ∀ a : Id, a ∈ t → a ∈ n) : t.size ≤ n.size := by
  rw [← ExtTreeSet.length_toList, ← ExtTreeMap.length_keys]
  refine (List.Nodup.subperm (idset_toList_nodup t) ?_).length_le
  intro a ha
  rw [ExtTreeSet.mem_toList] at ha
  rw [ExtTreeMap.mem_keys]
  exact h a ha

theorem edgeCount_le {m : AMap IdSet} {k : Nat} (h : ∀ a : Id, (setAt m a).size ≤ k) : edgeCount m ≤ m.size * k := by
  unfold edgeCount
  rw [← ExtTreeMap.length_toList]
  have : ∀ x ∈ m.toList.map fun kv => kv.2.size, x ≤ k := by
    intro x hx
    obtain ⟨⟨a, t⟩, hm, rfl⟩ := List.mem_map.1 hx
    have := h a
    rw [ExtTreeMap.mem_toList_iff_getElem?_eq_some] at hm
    simpa [setAt, hm] using this
  clear h
  rw [← List.length_map (f := fun kv : Id × IdSet => kv.2.size) (as := m.toList)]
  generalize m.toList.map (fun kv => kv.2.size) = l at this
  induction l with
  | nil => simp
  | cons x l ih =>
    have h1 := this x (by simp)
    have h2 := ih fun y hy => this y (by simp [hy])
    simp only [List.sum_cons, List.length_cons, Nat.add_mul, Nat.one_mul]
    omega

/-! ## The property -/

/-- Number of entries of all tables of `RawCache` (`internal.rs` 85-113), those of the inner sets included. -/
def Cache.entries (c : Cache σ) : Nat :=
  c.artifacts.size + c.dynStates.size + c.known.size + (c.dependents.size + edgeCount c.dependents) +
    (c.dependencies.size + edgeCount c.dependencies) + c.leafs.size

/-- **C66**, what does hold.  Let `k` be the answer of `number_of_known_builders()`.  There are at most `k`
artifacts, `k` dynamic states, `k` rows in either dependency table, each with at most `k` entries: nothing
is kept about builders that are not known. -/
theorem C66_tables_bounded_partial (h : Reachable Y s) {n : Nat} {ord : HashOrder} {k : Nat}
    (hk : (step Y n ord s .numKnown).2 = .val (.nat k)) :
    s.c.artifacts.size ≤ k ∧ s.c.dynStates.size ≤ k ∧
    s.c.dependents.size ≤ k ∧ (∀ a, (setAt s.c.dependents a).size ≤ k) ∧
    s.c.dependencies.size ≤ k ∧ ∀ a, (setAt s.c.dependencies a).size ≤ k := by
  have hk : s.c.known.size = k := by simpa [step, Op.promise?, exec, numKnown] using hk
  subst hk
  have hi := h.inv
  have hr := h.rows
  refine ⟨size_le_of_keys fun a ha => hi.dynKnown a (hi.artDyn a ha), size_le_of_keys hi.dynKnown,
    size_le_of_keys hr.1, fun a => set_size_le fun x hx => hi.depU x a hx, size_le_of_keys hr.2,
    fun a => set_size_le fun x hx => hi.depD a x ((hi.sync a x).2 hx)⟩

/-- **C66**, what does hold: beyond what is bounded by the number `k` of known builders there is one entry per
id that was purged (or invalidated or mutably looked up while unknown) and has not been known since. -/
theorem C66_entries_bounded_partial (h : Reachable Y s) {n : Nat} {ord : HashOrder} {k : Nat}
    (hk : (step Y n ord s .numKnown).2 = .val (.nat k)) :
    ∃ strays : List Id, strays.Nodup ∧ (∀ a, a ∈ strays ↔ Strayed Y a s) ∧
      s.c.entries ≤ 6 * k + 2 * (k * k) + strays.length := by
  obtain ⟨h1, h2, h3, h4, h5, h6⟩ := C66_tables_bounded_partial h hk
  have hk : s.c.known.size = k := by simpa [step, Op.promise?, exec, numKnown] using hk
  subst hk
  have hmem : ∀ a, a ∈ (s.c.leafs.toList.filter fun a => decide (a ∉ s.c.known)) ↔ StrayLeaf s.c a := by
    intro a
    simp [StrayLeaf]
  have hnd : (s.c.leafs.toList.filter fun a => decide (a ∉ s.c.known)).Nodup := (idset_toList_nodup _).filter _
  generalize s.c.leafs.toList.filter (fun a => decide (a ∉ s.c.known)) = l at hmem hnd
  refine ⟨l, hnd, fun a => (hmem a).trans (strayed_iff h a), ?_⟩
  · have hl : s.c.leafs.size ≤ s.c.known.size + l.length := by
      rw [← ExtTreeSet.length_toList, ← ExtTreeMap.length_keys, ← List.length_append]
      refine (List.Nodup.subperm (idset_toList_nodup _) ?_).length_le
      intro a ha
      by_cases hm : a ∈ s.c.known
      · exact List.mem_append_left _ (ExtTreeMap.mem_keys.2 hm)
      · exact List.mem_append_right _ ((hmem a).2 ⟨by simpa using ha, hm⟩)
    have e1 := edgeCount_le h4
    have e2 := edgeCount_le h6
    have e3 := Nat.mul_le_mul_right s.c.known.size h3
    have e4 := Nat.mul_le_mul_right s.c.known.size h5
    unfold Cache.entries
    omega

/-- **C66**, what does hold: as long as `garbage_collection()` would return, the number of known builders
bounds everything the cache keeps. -/
theorem C66_entries_bounded_calm_partial (h : Reachable Y s) {n : Nat} {ord : HashOrder} {k : Nat}
    (hk : (step Y n ord s .numKnown).2 = .val (.nat k)) (hgc : (step Y n ord s .gc).2 = .val .unit) :
    s.c.entries ≤ 6 * k + 2 * (k * k) := by
  obtain ⟨l, _, h2, h3⟩ := C66_entries_bounded_partial h hk
  have hn : ∀ a, ¬ Strayed Y a s := by
    intro a ha
    exact (C21_gc_panics_iff_partial h n ord).2.2 ⟨a, ha⟩ hgc
  have : l = [] := List.eq_nil_iff_forall_not_mem.2 fun a ha => hn a ((h2 a).1 ha)
  subst this
  simpa using h3

/-- **C66** If no builder is known and `garbage_collection()` would return, the cache is empty. -/
theorem C66_empty_partial (h : Reachable Y s) {n : Nat} {ord : HashOrder}
    (hk : (step Y n ord s .numKnown).2 = .val (.nat 0)) (hgc : (step Y n ord s .gc).2 = .val .unit) :
    s.c.entries = 0 := by
  have := C66_entries_bounded_calm_partial h hk hgc
  omega

/-- **C66** is false: purging (or invalidating) a builder the cache does not know makes it keep one more
entry, although no builder is known more than before; and a garbage collection does not remove it but panics. -/
theorem C66_leak (h : Reachable Y s) {p : Promise σ} (hl : s.live p = true) (hk : ¬ Known s p.id)
    (hs : ¬ Strayed Y p.id s) (n : Nat) (ord : HashOrder) {op : Op σ} (hop : op = .purge p ∨ op = .invalidate p) :
    let s' := (step Y n ord s op).1
    (step Y n ord s op).2 = .val .unit ∧ s'.c.entries = s.c.entries + 1 ∧
    (step Y n ord s' .numKnown).2 = (step Y n ord s .numKnown).2 ∧
    step Y n ord s' .gc = (s', .panic .leafUnknown) := by
  suffices hx : (step Y n ord s op).2 = .val .unit ∧ (step Y n ord s op).1.c.entries = s.c.entries + 1 ∧
      (step Y n ord s op).1.c.known = s.c.known by
    obtain ⟨h1, h2, h3⟩ := hx
    have hg : (step Y n ord s op).2.goesOn := by rw [h1]; trivial
    have hr := Reachable.step n ord op h hg
    refine ⟨h1, h2, congrArg (fun m : AMap σ.B => (Res.val (Ans.nat m.size) : Res (Ans σ))) h3, ?_⟩
    have hst : Strayed Y p.id (step Y n ord s op).1 := by
      refine .made h (.plain n ord) hg ?_ (by unfold Known; rw [h3]; exact hk)
      rcases hop with rfl | rfl
      · exact .inl ⟨p, rfl, rfl⟩
      · exact .inr (.inl ⟨p, rfl, rfl⟩)
    obtain ⟨g1, g2⟩ := C21_gc_panics_iff_partial hr n ord
    rcases g1 with g1 | g1
    · exact absurd g1 (g2.2 ⟨_, hst⟩)
    · exact g1
  have hi := h.inv
  have hkn : p.id ∉ s.c.known := hk
  have hno : ∀ x, ¬ Dep s.c x p.id := fun x hx => hkn (hi.depD _ _ hx)
  have hno' : ∀ x, ¬ Dep s.c p.id x := fun x hx => hkn (hi.depU _ _ hx)
  have hh := hit_none hno
  have hlf : p.id ∉ s.c.leafs := fun hx => hs ((strayed_iff h p.id).1 ⟨hx, hkn⟩)
  have hr := h.rows
  have main : ∀ c', Dropped (Hit (Dep s.c) p.id) s.c c' →
      c'.artifacts = s.c.artifacts ∧ c'.dependents = s.c.dependents ∧ c'.dependencies = s.c.dependencies ∧
      c'.leafs = s.c.leafs.insert p.id := by
    intro c' hd
    rw [hh] at hd
    refine ⟨?_, ?_, ?_, ?_⟩
    · ext a : 1
      by_cases ha : a = p.id
      · subst ha
        rw [hd.art_none _ rfl]
        cases hx : s.c.artifacts[p.id]? with
        | none => rfl
        | some v => exact absurd (hi.dynKnown _ (hi.artDyn _ ((mem_getElem _ _).2 ⟨v, hx⟩))) hkn
      · exact hd.art_keep a ha
    · ext a : 1
      by_cases ha : a = p.id
      · subst ha
        rw [hd.dts_none _ rfl]
        cases hx : s.c.dependents[p.id]? with
        | none => rfl
        | some v => exact absurd (hr.1 _ ((mem_getElem _ _).2 ⟨v, hx⟩)) hkn
      · have h1 := hd.dts_some a ha
        have h2 := fun x => hd.dts_mem a x ha
        cases hx : c'.dependents[a]? with
        | none =>
          rw [hx] at h1
          cases hy : s.c.dependents[a]? with
          | none => rfl
          | some y => rw [hy] at h1; cases h1
        | some x =>
          rw [hx] at h1
          cases hy : s.c.dependents[a]? with
          | none => rw [hy] at h1; cases h1
          | some y =>
            congr 1
            ext z : 1
            have := h2 z
            simp only [setAt, hx, hy, Option.getD_some] at this
            rw [this]
            have hz : z ∈ y → z ≠ p.id := by
              rintro hz rfl
              exact hno' a (mem_setAt.2 ⟨y, hy, hz⟩)
            exact ⟨fun h => h.1, fun h => ⟨h, hz h⟩⟩
    · ext a : 1
      by_cases ha : a = p.id
      · subst ha
        rw [hd.dcs_none _ rfl]
        cases hx : s.c.dependencies[p.id]? with
        | none => rfl
        | some v => exact absurd (hr.2 _ ((mem_getElem _ _).2 ⟨v, hx⟩)) hkn
      · exact hd.dcs_keep a ha
    · ext a
      rw [hd.leafs]
      have : (∃ u, u = p.id ∧ Dep s.c u a) ↔ False := by
        simp only [iff_false]
        rintro ⟨u, rfl, hu⟩
        exact hno' a hu
      rw [this, ExtTreeSet.mem_insert]
      constructor
      · rintro (h | h | h)
        · exact .inr h
        · exact .inl (by rw [h]; exact ReflCmp.compare_self)
        · exact h.1.elim
      · rintro (h | h)
        · exact .inr (.inl (LawfulEqCmp.eq_of_compare h).symm)
        · exact .inl h
  have hsz : (s.c.leafs.insert p.id).size = s.c.leafs.size + 1 := by
    rw [ExtTreeSet.size_insert, if_neg (by simpa using hlf)]
  rcases hop with rfl | rfl
  · obtain ⟨c', cF, he, hd, hF⟩ := purge_spec hi ord p
    obtain ⟨m1, m2, m3, m4⟩ := main c' hd
    subst hF
    have hkE : s.c.known.erase p.id = s.c.known := by ext a : 1; grind
    have hdn : p.id ∉ s.c.dynStates := fun hx => hkn (hi.dynKnown _ hx)
    have hdE : s.c.dynStates.erase p.id = s.c.dynStates := by ext a : 1; grind
    rw [step_live rfl hl]
    simp only [exec, he, LoopEnd.res]
    refine ⟨trivial, ?_, ?_⟩
    · simp only [Cache.entries, m1, m2, m3, m4, hkE, hdE, hsz]; omega
    · exact hkE
  · obtain ⟨c', he, hd⟩ := invalidate_spec hi ord p
    obtain ⟨m1, m2, m3, m4⟩ := main c' hd
    rw [step_live rfl hl]
    simp only [exec, he, LoopEnd.res]
    refine ⟨trivial, ?_, ?_⟩
    · simp only [Cache.entries, Cache.emit, m1, m2, m3, m4, hd.known, hd.dynStates, hsz]; omega
    · exact hd.known

namespace Demo

/-- The bounds for a state with three known builders: 3 artifacts, 3 states, 3 uses. -/
example : (step Demo.Y 9 ord s1 .numKnown).2 = .val (.nat 3) ∧ (step Demo.Y 9 ord s1 .gc).2 = .val .unit ∧
    s1.c.entries = 20 := ⟨rfl, rfl, by decide⟩

example : s1.c.entries ≤ 6 * 3 + 2 * (3 * 3) :=
  C66_entries_bounded_calm_partial (n := 9) (ord := ord) reach1 rfl rfl

/-- With a purged builder: one stray. -/
example : let s := after [.get .bin (P 2), .purge (P 1)]
    (step Demo.Y 9 ord s .numKnown).2 = .val (.nat 2) ∧ (step Demo.Y 9 ord s .gc).2 = .panic .leafUnknown :=
  ⟨rfl, rfl⟩

theorem stray_step {n : Nat} {s : St sig} (h : Reachable Demo.Y s) (hk : s.c.known = ∅) (he : s.c.entries = n)
    (hl : ∀ a, a ∈ s.c.leafs → a < 10 + n) (hh : ∀ a, a ∈ s.heap → a < 10 + n) (hb : ∀ b ∈ s.born, b < n) :
    ∃ s', Reachable Demo.Y s' ∧ s'.c.known = ∅ ∧ s'.c.entries = n + 1 ∧
      (∀ a, a ∈ s'.c.leafs → a < 10 + (n + 1)) ∧ (∀ a, a ∈ s'.heap → a < 10 + (n + 1)) ∧ ∀ b ∈ s'.born, b < n + 1 := by
  have ha : allocB (P n) s = some { s with heap := s.heap.insert (10 + n) n, born := n :: s.born } := by
    unfold allocB
    rw [if_neg]
    · rfl
    · have h1 : 10 + n ∉ s.heap := fun h => Nat.lt_irrefl _ (hh _ h)
      have h3 : n ∉ s.born := fun h => Nat.lt_irrefl _ (hb _ h)
      simp [P, hk, h1, h3]
  have e1 : step Demo.Y 0 ord s (.alloc (P n)) =
      ({ s with heap := s.heap.insert (10 + n) n, born := n :: s.born }, .val .unit) := by
    simp only [step, Op.promise?, exec, ha]
  have r1 : Reachable Demo.Y { s with heap := s.heap.insert (10 + n) n, born := n :: s.born } := by
    have := Reachable.step 0 ord (.alloc (P n)) h (by rw [e1]; trivial)
    rwa [e1] at this
  generalize hs1 : ({ s with heap := s.heap.insert (10 + n) n, born := n :: s.born } : St sig) = s1 at r1
  have c1 : s1.c = s.c := by rw [← hs1]
  have hlive : s1.live (P n) = true := by rw [← hs1]; simp [St.live, P]
  have hns : ¬ StrayLeaf s1.c (P n).id := by
    intro hx
    rw [c1] at hx
    exact Nat.lt_irrefl _ (hl _ hx.1)
  have hL := C66_leak r1 hlive (by unfold Known; rw [c1, hk]; simp) (fun hx => hns ((strayed_iff r1 _).2 hx)) 0 ord
    (.inl rfl)
  simp only at hL
  obtain ⟨l1, l2, l3, _⟩ := hL
  have hg : (step Demo.Y 0 ord s1 (.purge (P n))).2.goesOn := by rw [l1]; trivial
  have r2 := Reachable.step 0 ord (.purge (P n)) r1 hg
  have hst := step_stray r1.inv 0 ord (.purge (P n)) hg
  have hheap : (step Demo.Y 0 ord s1 (.purge (P n))).1.heap = s1.heap ∧
      (step Demo.Y 0 ord s1 (.purge (P n))).1.born = s1.born := by
    rw [step_live rfl hlive]; exact ⟨rfl, rfl⟩
  generalize step Demo.Y 0 ord s1 (.purge (P n)) = x at *
  obtain ⟨s2, r⟩ := x
  simp only at *
  have hk2 : s2.c.known = ∅ := by
    simp only [step, Op.promise?, exec, numKnown, c1, hk, Res.val.injEq, Ans.nat.injEq] at l3
    rw [← ExtTreeMap.isEmpty_iff, ExtTreeMap.isEmpty_eq_size_beq_zero, l3]
    rfl
  refine ⟨s2, r2, hk2, by rw [l2, c1, he], ?_, ?_, ?_⟩
  · intro a hx
    obtain ⟨_, _, h3⟩ := (hst a).1 ⟨hx, by rw [hk2]; simp⟩
    rcases h3 with (⟨p, hp, rfl⟩ | ⟨p, hp, _⟩ | ⟨p, f, hp, _⟩ | ⟨p, f, hp, _⟩) | h3
    · cases hp; simp only [P]; omega
    · cases hp
    · cases hp
    · cases hp
    · have := hl a (by rw [← c1]; exact h3.1)
      omega
  · intro a hx
    rw [hheap.1, ← hs1] at hx
    simp only [ExtTreeMap.mem_insert] at hx
    rcases hx with hx | hx
    · have : 10 + n = a := LawfulEqCmp.eq_of_compare hx
      omega
    · have := hh a hx; omega
  · intro b hx
    rw [hheap.2, ← hs1] at hx
    simp only [List.mem_cons] at hx
    rcases hx with rfl | hx
    · omega
    · have := hb b hx; omega

/-- **C66** is false: without ever knowing a builder the cache can be made to keep any number of entries. -/
theorem C66_leak_unbounded (n : Nat) : ∃ s, Reachable Demo.Y s ∧ (step Demo.Y 0 ord s .numKnown).2 = .val (.nat 0) ∧
    s.c.entries = n := by
  have : ∃ s, Reachable Demo.Y s ∧ s.c.known = ∅ ∧ s.c.entries = n ∧
      (∀ a, a ∈ s.c.leafs → a < 10 + n) ∧ (∀ a, a ∈ s.heap → a < 10 + n) ∧ ∀ b ∈ s.born, b < n := by
    induction n with
    | zero => exact ⟨St.new (0 : Nat), .new _, rfl, by decide, by simp [St.new], by simp [St.new], by simp [St.new]⟩
    | succ n ih =>
      obtain ⟨s, h1, h2, h3, h4, h5, h6⟩ := ih
      exact stray_step h1 h2 h3 h4 h5 h6
  obtain ⟨s, h1, h2, h3, _⟩ := this
  exact ⟨s, h1, by simp [step, Op.promise?, exec, numKnown, h2], h3⟩

/-- `C66_empty_partial`: everything is dropped and collected. -/
example : let s := after [.get .bin (P 1), .free 10, .free 11, .gc, .gc]
    (step Demo.Y 9 ord s .numKnown).2 = .val (.nat 0) ∧ (step Demo.Y 9 ord s .gc).2 = .val .unit ∧ s.c.entries = 0 :=
  ⟨rfl, rfl, C66_empty_partial (n := 9) (ord := ord) (reach _ (by decide)) rfl rfl⟩

/-- `C66_tables_bounded_partial`, `C66_entries_bounded_partial`. -/
example : s1.c.artifacts.size ≤ 3 ∧ s1.c.artifacts.size = 3 :=
  ⟨(C66_tables_bounded_partial (n := 9) (ord := ord) reach1 rfl).1, by decide⟩

example := C66_entries_bounded_partial (Y := Demo.Y) (n := 9) (ord := ord) (k := 2)
  (reach [.get .bin (P 2), .purge (P 1)] (by decide)) rfl

end Demo
end Daab
