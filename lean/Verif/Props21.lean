import Verif.Props13
import Mathlib.Data.Finset.Card

/-!
# C20: what is left after sufficiently many garbage collections
-/

open Std

namespace Daab

variable {σ : Sig} {Y : Sys σ} {s : St σ}

/-- `a` is used, directly, through others or trivially, by a builder somebody holds, or by one that is on a cycle
of uses. -/
def Held (s : St σ) (a : Id) : Prop :=
  ∃ u, Hit (UsesNow s) a u ∧ (¬ Dead s u ∨ StrictHit (UsesNow s) u u)

theorem Held.not_garbage {a : Id} (h : Held s a) : ¬ (Known s a ∧ Dead s a ∧ ∀ u, ¬ UsesNow s u a) := by
  rintro ⟨_, hd, hn⟩
  obtain ⟨u, hu, h | h⟩ := h
  · rcases Relation.ReflTransGen.cases_tail hu with rfl | ⟨x, _, hx⟩
    · exact h hd
    · exact hn x hx
  · rcases Relation.ReflTransGen.cases_tail hu with rfl | ⟨x, _, hx⟩
    · obtain ⟨x, _, hx⟩ := Relation.TransGen.tail'_iff.1 h
      exact hn x hx
    · exact hn x hx

/-- A collection changes nothing about what is held. -/
theorem Held.gc (h : Reachable Y s) {n : Nat} {ord : HashOrder} {s' : St σ} {r : Ans σ}
    (hs : step Y n ord s .gc = (s', .val r)) (a : Id) : Held s' a ↔ Held s a := by
  obtain ⟨_, _, _, c4⟩ := C20_gc_collects h hs
  have hheap : s'.heap = s.heap := by
    have := (C19_gc_keeps_live h n ord).2.2.1
    rwa [hs] at this
  have hdead : ∀ u, Dead s' u ↔ Dead s u := by
    intro u; unfold Dead St.live; rw [hheap]
  have mono : ∀ u d, UsesNow s' u d → UsesNow s u d := fun u d h => ((c4 u d).1 h).1
  constructor
  · rintro ⟨u, hu, hh⟩
    refine ⟨u, Relation.ReflTransGen.mono mono _ _ hu, ?_⟩
    rcases hh with hh | hh
    · exact .inl fun h => hh ((hdead u).2 h)
    · exact .inr (Relation.TransGen.mono mono _ _ hh)
  · rintro ⟨u, hu, hh⟩
    -- everything that `u` uses is held
    have fwd : ∀ x y, Relation.ReflTransGen (UsesNow s) u x → UsesNow s x y → UsesNow s' x y := by
      intro x y hx hxy
      exact (c4 x y).2 ⟨hxy, Held.not_garbage ⟨u, hx, hh⟩⟩
    have path : ∀ x, Relation.ReflTransGen (UsesNow s) u x → Relation.ReflTransGen (UsesNow s') u x := by
      intro x hx
      induction hx with
      | refl => exact .refl
      | tail h1 h2 ih => exact ih.tail (fwd _ _ h1 h2)
    refine ⟨u, path a hu, ?_⟩
    rcases hh' : hh with hh | hh
    · exact .inl fun h => hh ((hdead u).1 h)
    · obtain ⟨x, hx, hxu⟩ := Relation.TransGen.tail'_iff.1 hh
      exact .inr (Relation.TransGen.tail' (path x hx) (fwd x u hx hxu))

open Classical in
/-- The users of `a`, directly or through others. -/
noncomputable def usersOf (s : St σ) (a : Id) : Finset Id :=
  s.c.known.keys.toFinset.filter fun u => StrictHit (UsesNow s) a u

theorem mem_usersOf (h : Reachable Y s) {a u : Id} : u ∈ usersOf s a ↔ StrictHit (UsesNow s) a u := by
  classical
  simp only [usersOf, Finset.mem_filter, List.mem_toFinset, ExtTreeMap.mem_keys, and_iff_right_iff_imp]
  intro hu
  obtain ⟨x, hx, _⟩ := Relation.TransGen.head'_iff.1 hu
  rw [usesNow_iff] at hx
  exact h.inv.depU _ _ hx

theorem usersOf_card (h : Reachable Y s) {a : Id} (hk : Known s a) (ha : ¬ Held s a) :
    (usersOf s a).card < numKnown s.c := by
  classical
  have h1 : usersOf s a ⊂ s.c.known.keys.toFinset := by
    refine (Finset.ssubset_iff_of_subset (Finset.filter_subset _ _)).2 ⟨a, by simpa [Known] using hk, ?_⟩
    change a ∉ usersOf s a
    rw [mem_usersOf h]
    exact fun hc => ha ⟨a, .refl, .inr hc⟩
  refine (Finset.card_lt_card h1).trans_eq ?_
  rw [List.toFinset_card_of_nodup]
  · exact ExtTreeMap.length_keys
  · have := s.c.known.distinct_keys
    exact this.imp fun h e => by subst e; simp at h

theorem not_held_dead (h : Reachable Y s) (k : Nat) {a : Id} (ha : ¬ Held s a) (hc : (usersOf s a).card ≤ k) :
    DeadWithin s k a := by
  have hd : Dead s a := by
    by_contra hd
    exact ha ⟨a, .refl, .inl hd⟩
  induction k generalizing a with
  | zero =>
    refine ⟨hd, fun u hu => ?_⟩
    have : u ∈ usersOf s a := (mem_usersOf h).2 (.single hu)
    rw [Finset.card_eq_zero.1 (Nat.le_zero.1 hc)] at this
    simp at this
  | succ k ih =>
    refine ⟨hd, fun u hu => ?_⟩
    have hau : ¬ Held s u := by
      rintro ⟨x, hx, hh⟩
      exact ha ⟨x, hx.tail hu, hh⟩
    refine ih hau ?_ (by by_contra hd; exact hau ⟨u, .refl, .inl hd⟩)
    have : usersOf s u ⊂ usersOf s a := by
      refine Finset.ssubset_iff_subset_ne.2 ⟨fun x hx => ?_, fun e => ?_⟩
      · rw [mem_usersOf h] at hx ⊢
        exact hx.tail hu
      · have : u ∈ usersOf s u := by rw [e]; exact (mem_usersOf h).2 (.single hu)
        rw [mem_usersOf h] at this
        exact hau ⟨u, .refl, .inr this⟩
    have := Finset.card_lt_card this
    omega

theorem held_stays (ords : List HashOrder) (h : Reachable Y s)
    (hret : ∀ r ∈ (play Y (ords.map fun o => ((0 : Nat), o, Op.gc)) s).2, r = .val .unit) :
    let s' := (play Y (ords.map fun o => (0, o, .gc)) s).1
    (∀ a, Held s a → Known s a → Known s' a) ∧ (∀ a, Known s' a → Known s a) ∧
    (∀ a, Held s a → (∀ v, Cached s' a v ↔ Cached s a v) ∧ ∀ d, HasState s' a d ↔ HasState s a d) := by
  induction ords generalizing s with
  | nil => exact ⟨fun _ _ h => h, fun _ h => h, fun _ _ => ⟨fun _ => Iff.rfl, fun _ => Iff.rfl⟩⟩
  | cons o ords ih =>
    simp only [List.map_cons, play] at hret ⊢
    have h0 : (step Y 0 o s .gc).2 = .val .unit := hret _ (by simp)
    obtain ⟨s1, e⟩ : ∃ s1, step Y 0 o s .gc = (s1, .val .unit) := ⟨_, Prod.ext rfl h0⟩
    rw [e] at hret ⊢
    have hr : Reachable Y s1 := by
      have := Reachable.step 0 o .gc h (by rw [e]; trivial)
      rwa [e] at this
    have hH := Held.gc h e
    obtain ⟨c1, c2, c3, _⟩ := C20_gc_collects h e
    obtain ⟨i1, i2, i3⟩ := ih hr (fun r hr => hret r (List.mem_cons_of_mem _ hr))
    refine ⟨fun a ha hk => i1 a ((hH a).2 ha) ((c1 a).2 ⟨hk, ha.not_garbage⟩), fun a hk => ((c1 a).1 (i2 a hk)).1,
      fun a ha => ?_⟩
    obtain ⟨j1, j2⟩ := i3 a ((hH a).2 ha)
    refine ⟨fun v => (j1 v).trans ?_, fun d => (j2 d).trans ?_⟩
    · rw [c2]; exact and_iff_left ha.not_garbage
    · rw [c3]; exact and_iff_left ha.not_garbage

theorem gc_all_return (ords : List HashOrder) (h : Reachable Y s)
    (hret : ∀ o, (step Y 0 o s .gc).2 = .val .unit) :
    ∀ r ∈ (play Y (ords.map fun o => ((0 : Nat), o, Op.gc)) s).2, r = .val .unit := by
  induction ords generalizing s with
  | nil => intro r hr; cases hr
  | cons o ords ih =>
    intro r hr
    simp only [List.map_cons, play] at hr
    obtain ⟨s1, e⟩ : ∃ s1, step Y 0 o s .gc = (s1, .val .unit) := ⟨_, Prod.ext rfl (hret o)⟩
    rw [e] at hr
    rcases List.mem_cons.1 hr with rfl | hr
    · rfl
    · have hs1 : Reachable Y s1 := by
        have := Reachable.step 0 o .gc h (by rw [e]; trivial)
        rwa [e] at this
      exact ih hs1 (fun o' => gc_again h e 0 o') r hr

/-- **C20** (the limit) After as many collections in a row as there are known builders (or more), exactly those
builders are left that somebody holds, that are used by such a builder directly or through others, or that are on,
or used by, a cycle of uses; these keep their artifacts and dynamic states. -/
theorem C20_gc_limit (h : Reachable Y s) {ord0 : HashOrder} (hret : (step Y 0 ord0 s .gc).2 = .val .unit)
    (ords : List HashOrder) {m : Nat} (hm : (step Y 0 ord0 s .numKnown).2 = .val (.nat m)) (hk : m ≤ ords.length) :
    let e := play Y (ords.map fun o => (0, o, .gc)) s
    (∀ r ∈ e.2, r = .val .unit) ∧
    (∀ a, Known e.1 a ↔
      Known s a ∧ ∃ u, Hit (UsesNow s) a u ∧ (¬ Dead s u ∨ StrictHit (UsesNow s) u u)) ∧
    (∀ a, Known e.1 a → (∀ v, Cached e.1 a v ↔ Cached s a v) ∧ ∀ d, HasState e.1 a d ↔ HasState s a d) := by
  have hm : numKnown s.c = m := by
    have : (step Y 0 ord0 s .numKnown).2 = .val (.nat (numKnown s.c)) := rfl
    rw [this] at hm
    cases hm; rfl
  subst hm
  intro e
  have hall : ∀ r ∈ e.2, r = .val .unit := by
    exact gc_all_return ords h fun o => by rw [← hret]; exact (step_order h.inv 0 o ord0 .gc).2
  obtain ⟨k1, k2, k3⟩ := held_stays ords h hall
  have key : ∀ a, Known e.1 a ↔ Known s a ∧ Held s a := by
    intro a
    refine ⟨fun ha => ⟨k2 a ha, ?_⟩, fun ha => k1 a ha.2 ha.1⟩
    by_contra hh
    have := usersOf_card h (k2 a ha) hh
    exact (C20_gc_chain h (not_held_dead h _ hh le_rfl) hret ords (by omega)).2 ha
  exact ⟨hall, key, fun a ha => k3 a ((key a).1 ha).2⟩

/-- **C20** (no leak) If nobody holds any builder any more and there are no cycles of uses, then after that many
collections the cache is empty: it knows no builder, has no artifact and no dynamic state. -/
theorem C20_no_leak (h : Reachable Y s) {ord0 : HashOrder} (hret : (step Y 0 ord0 s .gc).2 = .val .unit)
    (hdead : ∀ a, Dead s a) (hacyclic : ∀ a, ¬ StrictHit (UsesNow s) a a)
    (ords : List HashOrder) {m : Nat} (hm : (step Y 0 ord0 s .numKnown).2 = .val (.nat m)) (hk : m ≤ ords.length) :
    let s' := (play Y (ords.map fun o => (0, o, .gc)) s).1
    (step Y 0 ord0 s' .numKnown).2 = .val (.nat 0) ∧ (∀ a v, ¬ Cached s' a v) ∧ ∀ a d, ¬ HasState s' a d := by
  obtain ⟨h0, h1, _⟩ := C20_gc_limit h hret ords hm hk
  have hr : ∀ (ords : List HashOrder) (s : St σ), Reachable Y s →
      (∀ r ∈ (play Y (ords.map fun o => ((0 : Nat), o, Op.gc)) s).2, r = .val .unit) →
      Reachable Y (play Y (ords.map fun o => ((0 : Nat), o, Op.gc)) s).1 := by
    intro ords
    induction ords with
    | nil => intro s h _; exact h
    | cons o ords ih =>
      intro s h h0
      simp only [List.map_cons, play] at h0 ⊢
      have h1 : (step Y 0 o s .gc).2 = .val .unit := h0 _ (by simp)
      exact ih _ (.step 0 o .gc h (by rw [h1]; trivial)) fun r hr => h0 r (List.mem_cons_of_mem _ hr)
  have hr := hr ords s h h0
  have hno : ∀ a, ¬ Known (play Y (ords.map fun o => ((0 : Nat), o, Op.gc)) s).1 a := by
    intro a ha
    obtain ⟨_, u, _, hu | hu⟩ := (h1 a).1 ha
    · exact hu (hdead u)
    · exact hacyclic u hu
  generalize (play Y (ords.map fun o => ((0 : Nat), o, Op.gc)) s).1 = s' at hr hno ⊢
  refine ⟨?_, fun a v ha => ?_, fun a d ha => ?_⟩
  · have : s'.c.known = ∅ := by
      apply ExtTreeMap.ext_getElem?
      intro a
      cases hg : s'.c.known[a]? with
      | none => simp
      | some b => exact absurd ((mem_getElem _ _).2 ⟨b, hg⟩) (hno a)
    change Res.val (Ans.nat (numKnown s'.c)) = _
    rw [numKnown, this]
    rfl
  · exact hno a (hr.inv.dynKnown _ (hr.inv.artDyn _ ((mem_getElem _ _).2 ⟨v, ha⟩)))
  · exact hno a (hr.inv.dynKnown _ ((mem_getElem _ _).2 ⟨d, ha⟩))

/-! ## The hypotheses are met -/

/-- C20_gc_limit: builder 2 (which uses 1 and 0) and 1 are dropped, 0 is still held, 9 uses itself and is dropped:
after the collections 0 and 9 are left. -/
example : let s := Demo.after [.dynStateMut (Demo.P 0) (fun _ => 5), .get .bin (Demo.P 2), .get .bin (Demo.P 9),
      .free 12, .free 11, .free 19]
    Reachable Demo.Y s ∧ (step Demo.Y 0 Demo.ord s .gc).2 = .val .unit ∧
    (step Demo.Y 0 Demo.ord s .numKnown).2 = .val (.nat 4) ∧ Known s 10 ∧ Known s 11 ∧ Known s 12 ∧ Known s 19 ∧
    ¬ Dead s 10 ∧ StrictHit (UsesNow s) 19 19 ∧
    (let s' := (play Demo.Y ([Demo.ord, Demo.ord, Demo.ord, Demo.ord].map fun o => (0, o, .gc)) s).1
     Known s' 10 ∧ ¬ Known s' 11 ∧ ¬ Known s' 12 ∧ Known s' 19) :=
  ⟨Demo.reach _ (by decide), rfl, rfl, by unfold Known; decide, by unfold Known; decide, by unfold Known; decide,
    by unfold Known; decide, fun h => absurd (h (Demo.P 0) rfl) (by decide),
    Relation.TransGen.single ⟨_, rfl, by decide⟩, by unfold Known; decide, by unfold Known; decide,
    by unfold Known; decide, by unfold Known; decide⟩

/-- C20_no_leak: builder 1 uses 0, both are dropped. -/
example : let s := runOps Demo.Y 9 Demo.ord [.alloc (Demo.P 0), .alloc (Demo.P 1), .get .bin (Demo.P 1), .free 10,
      .free 11] (St.new 0)
    Reachable Demo.Y s ∧ (step Demo.Y 0 Demo.ord s .gc).2 = .val .unit ∧ (∀ a, Dead s a) ∧
    (∀ a, ¬ StrictHit (UsesNow s) a a) ∧ (step Demo.Y 0 Demo.ord s .numKnown).2 = .val (.nat 2) ∧
    UsesNow s 11 10 := by
  intro s
  have hu : ∀ u d, UsesNow s u d → u = 11 ∧ d = 10 := by
    rintro u d ⟨set, h1, h2⟩
    have e : s.c.dependents = (∅ : AMap IdSet).insert 10 ((∅ : IdSet).insert 11) := rfl
    rw [e] at h1
    grind
  refine ⟨Reachable.runOps _ (Reachable.new (Y := Demo.Y) (0 : Nat)) (by decide), rfl, ?_, ?_, rfl, ⟨_, rfl, by decide⟩⟩
  · intro a p _
    have e : s.heap = ∅ := rfl
    simp [St.live, e]
  · intro a ha
    obtain ⟨x, h1, _⟩ := Relation.TransGen.head'_iff.1 ha
    obtain ⟨y, _, h2⟩ := Relation.TransGen.tail'_iff.1 ha
    have h1 := (hu _ _ h1).1
    have h2 := (hu _ _ h2).2
    rw [h1] at h2
    cases h2

end Daab
