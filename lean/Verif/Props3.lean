import Verif.HashIndep
import Verif.Props2

/-!
# Properties: hash order, clearing, garbage collection, mutable access, panics
-/

open Std

namespace Daab

variable {σ : Sig} {Y : Sys σ} {s : St σ}

/-! ## C09 -/

/-- **C09** One operation under two hash orders: the same answer, and the same state (for the garbage
collection: up to the order of the ghost events).  The only exception is the state after the panic of
finding 2 (mutable access, C22). -/
theorem C09_order_irrelevant (h : Reachable Y s) (n : Nat) (ord ord' : HashOrder) (op : Op σ)
    (hp : (step Y n ord s op).2 ≠ .panic .noCounterpart) :
    (step Y n ord s op).2 = (step Y n ord' s op).2 ∧
    SameButLog (step Y n ord s op).1 (step Y n ord' s op).1 ∧
    (op ≠ .gc → (step Y n ord s op).1 = (step Y n ord' s op).1) := by
  obtain ⟨h1 | h1, h2⟩ := step_order h.inv n ord ord' op
  · exact ⟨h2, h1.1, fun hg => h1.2 hg hp⟩
  · exact absurd h1 hp

/-- The hypotheses are met by `invalidate(0)`, which iterates over two dependents, in different orders. -/
example : step Demo.Y 9 Demo.ord Demo.s1 (.invalidate (Demo.P 0)) =
    step Demo.Y 9 Demo.ord' Demo.s1 (.invalidate (Demo.P 0)) :=
  Prod.ext ((C09_order_irrelevant Demo.reach1 9 Demo.ord Demo.ord' (.invalidate (Demo.P 0))
      (by intro h; cases (show Res.val Ans.unit = _ from h))).2.2 (by intro h; cases h))
    (C09_order_irrelevant Demo.reach1 9 Demo.ord Demo.ord' (.invalidate (Demo.P 0))
      (by intro h; cases (show Res.val Ans.unit = _ from h))).1

/-- **C09** Whole histories: if a history can be played to its end under some hash orders, then under
all hash orders every operation gives the same answer, and the final states are the same. -/
theorem C09_order_irrelevant_history (h : Reachable Y s) {hist hist' : History σ}
    (hops : SameOps hist hist') (hg : ∀ r ∈ (play Y hist s).2, r.goesOn) :
    (play Y hist s).2 = (play Y hist' s).2 ∧ SameButLog (play Y hist s).1 (play Y hist' s).1 := by
  suffices H : ∀ s s' : St σ, Reachable Y s → Reachable Y s' → SameButLog s s' →
      (∀ r ∈ (play Y hist s).2, r.goesOn) →
      (play Y hist s).2 = (play Y hist' s').2 ∧ SameButLog (play Y hist s).1 (play Y hist' s').1 from
    H s s h h (SameButLog.refl s) hg
  clear h hg
  unfold SameOps at hops
  induction hops with
  | nil => intro s s' _ _ hs _; exact ⟨rfl, hs⟩
  | @cons x y hist hist' hxy hrest ih =>
    obtain ⟨n, ord, op⟩ := x
    obtain ⟨n', ord', op'⟩ := y
    obtain ⟨rfl, rfl⟩ := hxy
    intro s s' hr hr' hs hg
    simp only [play] at hg ⊢
    have hg1 : (step Y n ord s op).2.goesOn := hg _ (by simp)
    obtain ⟨h1, h2⟩ := hs.step (Y := Y) n ord op
    have hg2 : (step Y n ord s' op).2.goesOn := h2 ▸ hg1
    have hne : (step Y n ord s' op).2 ≠ .panic .noCounterpart := by
      intro he; rw [he] at hg2; exact hg2 rfl
    obtain ⟨h3, h4, _⟩ := C09_order_irrelevant hr' n ord ord' op hne
    have hg3 : (step Y n ord' s' op).2.goesOn := h3 ▸ hg2
    obtain ⟨h5, h6⟩ := ih _ _ (Reachable.step n ord op hr hg1) (Reachable.step n ord' op hr' hg3)
      (h1.trans h4) (fun r hr => hg r (List.mem_cons_of_mem _ hr))
    exact ⟨by rw [h5, h2, h3], h6⟩

/-- The hypotheses are met by a history that invalidates, rebuilds and collects. -/
example : let ops : List (Op Demo.sig) := [.invalidate (Demo.P 0), .get .bin (Demo.P 2), .free 12, .gc]
    SameOps (ops.map fun o => (9, Demo.ord, o)) (ops.map fun o => (9, Demo.ord', o)) ∧
    ∀ r ∈ (play Demo.Y (ops.map fun o => (9, Demo.ord, o)) Demo.s1).2, r.goesOn := by
  refine ⟨by simp [SameOps], ?_⟩
  decide

/-! ## C15, C44 -/

theorem play_sameButLog {s s' : St σ} (h : SameButLog s s') (hist : History σ) :
    (play Y hist s).2 = (play Y hist s').2 ∧ SameButLog (play Y hist s).1 (play Y hist s').1 := by
  induction hist generalizing s s' with
  | nil => exact ⟨rfl, h⟩
  | cons x hist ih =>
    obtain ⟨n, ord, op⟩ := x
    obtain ⟨h1, h2⟩ := h.step (Y := Y) n ord op
    obtain ⟨h3, h4⟩ := ih h1
    simp only [play]
    exact ⟨by rw [h2, h3], h4⟩

/-- **C15** After `clear_all` every later history gives the same answers as with a newly created
cache in the same surroundings (world, living builders). -/
theorem C15_clear_all_history (n : Nat) (ord : HashOrder) (s : St σ) (hist : History σ) :
    (play Y hist (step Y n ord s .clearAll).1).2 =
      (play Y hist { St.new s.w with heap := s.heap, born := s.born }).2 := by
  refine (play_sameButLog ?_ hist).1
  rfl

/-- After `clear_all` builder 0 answers its initial state again (it was 5 before). -/
example : (play Demo.Y [(9, Demo.ord, .get .bin (Demo.P 0))] Demo.s1).2 = [.val (.art (.ok 5))] ∧
    (play Demo.Y [(9, Demo.ord, .get .bin (Demo.P 0))] (step Demo.Y 9 Demo.ord Demo.s1 .clearAll).1).2 =
      [.val (.art (.ok 0))] :=
  ⟨rfl, (C15_clear_all_history 9 Demo.ord Demo.s1 _).trans rfl⟩

/-- **C44** Whatever the doctor was told before (or if there was none, `log := []`), all later answers
and states are the same. -/
theorem C44_doctor_no_influence (s : St σ) (seen : List (Event σ)) (hist : History σ) :
    (play Y hist { s with c := { s.c with log := seen } }).2 = (play Y hist s).2 ∧
    SameButLog (play Y hist { s with c := { s.c with log := seen } }).1 (play Y hist s).1 :=
  play_sameButLog (s := { s with c := { s.c with log := seen } }) (s' := s) rfl hist

/-- A history with an invalidation and a rebuild, with and without a doctor before. -/
example : let hist : History Demo.sig := [(9, Demo.ord, .invalidate (Demo.P 0)), (9, Demo.ord, .get .bin (Demo.P 2))]
    (play Demo.Y hist { Demo.s1 with c := { Demo.s1.c with log := [] } }).2 = [.val .unit, .val (.art (.ok 110))] :=
  (C44_doctor_no_influence Demo.s1 [] _).1.trans rfl

/-! ## C19, C20 garbage collection -/

theorem dead_iff {a : Id} : Dead s a ↔ s.heap[a]? = none := by
  constructor
  · intro h
    cases hh : s.heap[a]? with
    | none => rfl
    | some b =>
      have := h ⟨a, b⟩ rfl
      have h2 := (live_iff (s := s) (p := ⟨a, b⟩)).2 hh
      rw [this] at h2; cases h2
  · intro h p hp
    cases hl : s.live p with
    | false => rfl
    | true => rw [live_iff, hp, h] at hl; cases hl

theorem garbage_dead (hi : Inv Y s) (a : Id) :
    Garbage s a ↔ Known s a ∧ Dead s a ∧ ∀ u, ¬ UsesNow s u a := by
  constructor
  · intro hg
    refine ⟨?_, not_live_of_garbage hi hg, ?_⟩
    · obtain ⟨b, hb, _⟩ := hg; exact (mem_getElem _ _).2 ⟨b, hb⟩
    · intro u; rw [usesNow_iff]; exact hg.choose_spec.2.2 u
  · rintro ⟨h1, h2, h3⟩
    obtain ⟨b, hb⟩ := (mem_getElem _ _).1 h1
    refine ⟨b, hb, ?_, fun u => by rw [← usesNow_iff]; exact h3 u⟩
    rw [dead_iff.1 h2]; simp

theorem step_gc (h : Reachable Y s) (n : Nat) (ord : HashOrder) :
    (step Y n ord s .gc = (s, .panic .leafUnknown) ∧ ∃ a, a ∈ s.c.leafs ∧ a ∉ s.c.known) ∨
    ((∀ a, a ∈ s.c.leafs → a ∈ s.c.known) ∧ ∃ c', step Y n ord s .gc = ({ s with c := c' }, .val .unit) ∧
      Swept (Garbage s) s.c c' ∧
      ∃ l : List Id, (∀ x, x ∈ l ↔ Garbage s x) ∧ c'.log = l.map Event.collect ++ s.c.log) := by
  rcases gc_spec h.inv ord with ⟨e, h1⟩ | ⟨h1, c', e, h2, h3⟩
  · left; refine ⟨?_, h1⟩; simp only [step, Op.promise?, exec, e, LoopEnd.res]
  · right; refine ⟨h1, c', ?_, h2, h3⟩; simp only [step, Op.promise?, exec, e, LoopEnd.res]

/-- **C19** The garbage collection (whether it returns or panics) keeps artifact, dynamic state,
known status and recorded uses of every builder that is still referenced, changes nothing outside the
cache, and calls no builder (all events are ghost `collect` events of unreferenced builders). -/
theorem C19_gc_keeps_live (h : Reachable Y s) (n : Nat) (ord : HashOrder) :
    let s' := (step Y n ord s .gc).1
    (∀ p : Promise σ, s.live p = true →
      s'.live p = true ∧
      (∀ v, Cached s' p.id v ↔ Cached s p.id v) ∧ (∀ d, HasState s' p.id d ↔ HasState s p.id d) ∧
      (Known s' p.id ↔ Known s p.id) ∧ (∀ d, UsesNow s' p.id d ↔ UsesNow s p.id d)) ∧
    s'.w = s.w ∧ s'.heap = s.heap ∧ (∀ e, Since s s' e → ∃ a, e = .collect a ∧ Dead s a) := by
  rcases step_gc h n ord with ⟨e, _⟩ | ⟨_, c', e, h2, l, h3, h4⟩
  · rw [e]
    refine ⟨fun p hl => ⟨hl, fun _ => Iff.rfl, fun _ => Iff.rfl, Iff.rfl, fun _ => Iff.rfl⟩,
      rfl, rfl, ?_⟩
    rintro e ⟨new, hn, he⟩
    simp only at hn
    have : new = [] := by simpa using hn
    rw [this] at he; cases he
  · rw [e]
    refine ⟨?_, rfl, rfl, ?_⟩
    · intro p hl
      have hng : ¬ Garbage s p.id := fun hg => by
        have := not_live_of_garbage h.inv hg p rfl
        rw [hl] at this; cases this
      refine ⟨hl, ?_, ?_, ?_, ?_⟩
      · intro v; unfold Cached; simp only [h2.art_keep _ hng]
      · intro v; unfold HasState; simp only [h2.dyn_keep _ hng]
      · unfold Known; simp only [mem_getElem, h2.known_keep _ hng]
      · intro d
        rw [usesNow_iff, usesNow_iff]
        simp only [h2.dep, hng, not_false_eq_true, and_true]
    · rintro e ⟨new, hn, he⟩
      simp only [h4] at hn
      have := List.append_cancel_right hn
      rw [← this] at he
      obtain ⟨a, ha, rfl⟩ := List.mem_map.1 he
      exact ⟨a, rfl, not_live_of_garbage h.inv ((h3 a).1 ha)⟩

/-- A case in which the garbage collection does something: 2 is not referenced any more, 1 is. -/
example : let s := (step Demo.Y 9 Demo.ord Demo.s1 (.free 12)).1
    Cached (step Demo.Y 9 Demo.ord s .gc).1 11 105 ∧ Uncached (step Demo.Y 9 Demo.ord s .gc).1 12 :=
  ⟨by unfold Cached; decide, by unfold Uncached; decide⟩

/-- `C19_gc_keeps_live`: 2 is freed and collected, 1 is still referenced and keeps its artifact. -/
example : let s := (step Demo.Y 9 Demo.ord Demo.s1 (.free 12)).1
    Cached (step Demo.Y 9 Demo.ord s .gc).1 11 105 :=
  (((C19_gc_keeps_live (Demo.reach1.step 9 Demo.ord (.free 12) trivial) 9 Demo.ord).1 (Demo.P 1)
    (by decide)).2.1 105).2 (by unfold Cached; decide)

/-- **C20** (one round) A garbage collection that returns makes exactly those known builders unknown
which nobody references and which nothing is recorded to use; it drops their artifacts and states, and
nothing else. -/
theorem C20_gc_collects (h : Reachable Y s) {n : Nat} {ord : HashOrder} {s' : St σ} {r : Ans σ}
    (hs : step Y n ord s .gc = (s', .val r)) :
    let G := fun a => Known s a ∧ Dead s a ∧ ∀ u, ¬ UsesNow s u a
    (∀ a, Known s' a ↔ Known s a ∧ ¬ G a) ∧
    (∀ a v, Cached s' a v ↔ Cached s a v ∧ ¬ G a) ∧
    (∀ a d, HasState s' a d ↔ HasState s a d ∧ ¬ G a) ∧
    (∀ u d, UsesNow s' u d ↔ UsesNow s u d ∧ ¬ G u) := by
  rcases step_gc h n ord with ⟨e, _⟩ | ⟨_, c', e, h2, l, h3, h4⟩
  · rw [hs] at e; cases e
  · rw [hs] at e
    cases e
    intro G
    have hG : ∀ a, G a ↔ Garbage s a := fun a => (garbage_dead h.inv a).symm
    have key : ∀ {α : Type} (m m' : AMap α) (x : Id), (Garbage s x → m'[x]? = none) →
        (¬ Garbage s x → m'[x]? = m[x]?) → ∀ v, m'[x]? = some v ↔ m[x]? = some v ∧ ¬ Garbage s x := by
      intro α m m' x h1 h2 v
      by_cases hg : Garbage s x
      · simp [h1 hg, hg]
      · simp [h2 hg, hg]
    simp only [hG]
    refine ⟨?_, ?_, ?_, ?_⟩
    · intro a
      unfold Known
      simp only [mem_getElem]
      simp only [key _ _ a (h2.known_none a) (h2.known_keep a)]
      simp
    · intro a v; exact key _ _ a (h2.art_none a) (h2.art_keep a) v
    · intro a v; exact key _ _ a (h2.dyn_none a) (h2.dyn_keep a) v
    · intro u d
      rw [usesNow_iff, usesNow_iff]
      exact h2.dep u d

example : ∃ s', step Demo.Y 9 Demo.ord (step Demo.Y 9 Demo.ord Demo.s1 (.free 12)).1 .gc =
    (s', .val .unit) ∧ ¬ Known s' 12 ∧ Known s' 11 := ⟨_, rfl, by unfold Known; decide, by unfold Known; decide⟩

/-- `a` is unreferenced, and so are all builders recorded to use it directly or indirectly; the
longest chain of users has length `k`. -/
def DeadWithin (s : St σ) : Nat → Id → Prop
  | 0, a => Dead s a ∧ ∀ u, ¬ UsesNow s u a
  | k + 1, a => Dead s a ∧ ∀ u, UsesNow s u a → DeadWithin s k u

theorem DeadWithin.succ {k : Nat} {a : Id} (h : DeadWithin s k a) : DeadWithin s (k + 1) a := by
  induction k generalizing a with
  | zero => exact ⟨h.1, fun u hu => absurd hu (h.2 u)⟩
  | succ k ih => exact ⟨h.1, fun u hu => ih (h.2 u hu)⟩

/-- After one round the chain is shorter. -/
theorem DeadWithin.gc (h : Reachable Y s) {n : Nat} {ord : HashOrder} {s' : St σ} {r : Ans σ}
    (hs : step Y n ord s .gc = (s', .val r)) {k : Nat} {a : Id} (hd : DeadWithin s (k + 1) a) :
    DeadWithin s' k a ∨ ¬ Known s' a := by
  have hc := C20_gc_collects h hs
  have hk := C19_gc_keeps_live h n ord
  simp only [hs] at hk
  simp only at hc
  obtain ⟨c1, _, _, c4⟩ := hc
  have hdead : ∀ a, Dead s' a ↔ Dead s a := by
    intro a; rw [dead_iff, dead_iff, hk.2.2.1]
  have hkn : ∀ u d, UsesNow s u d → Known s u := by
    intro u d hu; rw [usesNow_iff] at hu; exact h.inv.depU _ _ hu
  clear hk
  by_cases hka : Known s' a
  swap; exact Or.inr hka
  left
  clear hka
  induction k generalizing a with
  | zero =>
    refine ⟨(hdead a).2 hd.1, fun u hu => ?_⟩
    obtain ⟨hu1, hu2⟩ := (c4 u a).1 hu
    exact hu2 ⟨hkn _ _ hu1, hd.2 u hu1⟩
  | succ k ih =>
    refine ⟨(hdead a).2 hd.1, fun u hu => ?_⟩
    obtain ⟨hu1, _⟩ := (c4 u a).1 hu
    exact ih (hd.2 u hu1)

/-- If all leafs are known, they are known after the garbage collection. -/
theorem gc_again (h : Reachable Y s) {n : Nat} {ord : HashOrder} {s' : St σ} {r : Ans σ}
    (hs : step Y n ord s .gc = (s', .val r)) (n' : Nat) (ord' : HashOrder) :
    (step Y n' ord' s' .gc).2 = .val .unit := by
  have hg : (step Y n ord s .gc).2.goesOn := by rw [hs]; trivial
  have hr : Reachable Y s' := by have := Reachable.step n ord .gc h hg; rwa [hs] at this
  rcases step_gc h n ord with ⟨e, _⟩ | ⟨hl, c', e, h2, _⟩
  · rw [hs] at e; cases e
  · rw [hs] at e
    cases e
    rcases step_gc hr n' ord' with ⟨_, a, ha, hna⟩ | ⟨_, c'', e, _⟩
    · exfalso
      simp only at ha hna
      obtain ⟨h4, h5⟩ := (h2.leafs a).1 ha
      refine hna ?_
      rw [mem_getElem, h2.known_keep a h4, ← mem_getElem]
      rcases h5 with h5 | ⟨⟨u, hu, hdep⟩, _⟩
      · exact hl a h5
      · exact h.inv.depD u a hdep
    · rw [e]

/-- **C20** (several rounds) If the garbage collection returns once, it returns any number of times in
a row; and a builder whose transitive users are all unreferenced is gone after (longest chain of
users + 1) collections. -/
theorem C20_gc_chain (h : Reachable Y s) {a : Id} {k : Nat} (hd : DeadWithin s k a)
    {ord0 : HashOrder} (hret : (step Y 0 ord0 s .gc).2 = .val .unit) (ords : List HashOrder) (hk : k < ords.length) :
    let e := play Y (ords.map fun o => (0, o, .gc)) s
    (∀ r ∈ e.2, r = .val .unit) ∧ ¬ Known e.1 a := by
  suffices H : ∀ (ords : List HashOrder) (s : St σ), Reachable Y s →
      (∀ o, (step Y 0 o s .gc).2 = .val .unit) →
      (∀ r ∈ (play Y (ords.map fun o => (0, o, .gc)) s).2, r = .val .unit) ∧
      (∀ a, ¬ Known s a → ¬ Known (play Y (ords.map fun o => (0, o, .gc)) s).1 a) ∧
      (∀ k a, k < ords.length → DeadWithin s k a →
        ¬ Known (play Y (ords.map fun o => (0, o, .gc)) s).1 a) by
    have hall : ∀ o, (step Y 0 o s .gc).2 = .val .unit := by
      intro o
      rw [← hret]
      exact (step_order h.inv 0 o ord0 .gc).2
    obtain ⟨h1, _, h3⟩ := H ords s h hall
    exact ⟨h1, h3 k a hk hd⟩
  clear hd hret hk h ords
  intro ords
  induction ords with
  | nil => intro s _ _; exact ⟨by simp [play], fun a ha => ha, fun k a hk => absurd hk (by simp)⟩
  | cons o ords ih =>
    intro s h hret
    have ho := hret o
    obtain ⟨s', hst⟩ : ∃ s', step Y 0 o s .gc = (s', .val .unit) := ⟨_, Prod.ext rfl ho⟩
    have hr : Reachable Y s' := by
      have := Reachable.step 0 o .gc h (by rw [hst]; trivial)
      rwa [hst] at this
    obtain ⟨i1, i2, i3⟩ := ih s' hr (fun o' => gc_again h hst 0 o')
    have hc := (C20_gc_collects h hst).1
    simp only [List.map_cons, play, hst]
    refine ⟨?_, ?_, ?_⟩
    · intro r hr
      rcases List.mem_cons.1 hr with rfl | hr
      · rfl
      · exact i1 r hr
    · intro a ha
      exact i2 a fun hk => ha ((hc a).1 hk).1
    · intro k a hk hd
      cases k with
      | zero => exact i2 a fun hka => ((hc a).1 hka).2 ⟨((hc a).1 hka).1, hd⟩
      | succ k =>
        rcases hd.gc h hst with h1 | h1
        · exact i3 k a (by simpa using hk) h1
        · exact i2 a h1

/-- Builders 0, 1 and 2 are freed.  2 is used by nobody, 1 only by 2, 0 by 1 and 2: three collections. -/
example : let s := runOps Demo.Y 9 Demo.ord [.free 10, .free 11, .free 12] Demo.s1
    let e := play Demo.Y ([Demo.ord, Demo.ord', Demo.ord].map fun o => (0, o, .gc)) s
    Known s 10 ∧ ¬ Known e.1 10 := by
  refine ⟨by unfold Known; decide, ?_⟩
  have hr : Reachable Demo.Y (runOps Demo.Y 9 Demo.ord [.free 10, .free 11, .free 12] Demo.s1) :=
    Reachable.runOps _ Demo.reach1 (by decide)
  have h0 : DeadWithin (runOps Demo.Y 9 Demo.ord [.free 10, .free 11, .free 12] Demo.s1) 2 10 := by
    have hd : ∀ a ∈ [10, 11, 12], Dead (runOps Demo.Y 9 Demo.ord [.free 10, .free 11, .free 12] Demo.s1) a := by
      intro a ha p hp
      have h1 : ∀ a ∈ [10, 11, 12],
          (runOps Demo.Y 9 Demo.ord [.free 10, .free 11, .free 12] Demo.s1).heap[a]? = none := by decide
      simp [St.live, hp, h1 a ha]
    have hn : ∀ u, ¬ UsesNow (runOps Demo.Y 9 Demo.ord [.free 10, .free 11, .free 12] Demo.s1) u 12 := by
      rintro u ⟨us, h, _⟩
      cases (show none = some us from h)
    have h1 : ∀ u, UsesNow (runOps Demo.Y 9 Demo.ord [.free 10, .free 11, .free 12] Demo.s1) u 11 → u = 12 := by
      rintro u ⟨us, h, hu⟩
      cases (show some ((∅ : IdSet).insert 12) = some us from h)
      grind
    have h2 : ∀ u, UsesNow (runOps Demo.Y 9 Demo.ord [.free 10, .free 11, .free 12] Demo.s1) u 10 →
        u = 11 ∨ u = 12 := by
      rintro u ⟨us, h, hu⟩
      cases (show some (((∅ : IdSet).insert 11).insert 12) = some us from h)
      grind
    refine ⟨hd 10 (by simp), fun u hu => ?_⟩
    rcases h2 u hu with rfl | rfl
    · refine ⟨hd 11 (by simp), fun u hu => ?_⟩
      obtain rfl := h1 u hu
      exact ⟨hd 12 (by simp), hn⟩
    · exact ⟨hd 12 (by simp), fun u hu => absurd hu (hn u)⟩
  exact (C20_gc_chain hr h0 (ord0 := Demo.ord) rfl [Demo.ord, Demo.ord', Demo.ord] (by decide)).2

end Daab
