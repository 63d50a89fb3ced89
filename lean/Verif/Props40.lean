import Verif.Props39

/-!
# C14, C16, C17, C19, C20, C28, C29: with any hooks

Clearing the artifacts, counting, asking for known builders and garbage collection run no foreign code, so that no doctor can change
what they do.  And in systems of pure builders, what `get` answers depends neither on the history nor on what the hooks have done
or do now.
-/

open Std

namespace Daab

section
variable {σ : Sig} {Y : Sys σ} {s s' : St σ} {r : Res (Ans σ)}

/-- The operations that run no foreign code at all: no builder, initialiser, doctor, `Debug` or `Clone`. -/
def Op.quiet : Op σ → Prop
  | .gc | .clearArtifacts | .isKnown _ | .numKnown => True
  | _ => False

theorem went_quiet {op : Op σ} (hw : Went Y s op s' r) (hq : op.quiet) : ∃ n ord, step Y n ord s op = (s', r) := by
  obtain ⟨D, n, ord, rfl, rfl⟩ := went_plain hw
  refine ⟨n, ord, ?_⟩
  cases op <;> first | exact hq.elim | rfl

/-- **C14** `clear_artifacts` removes all artifacts and recorded uses and keeps all else; it runs no hook, so it always returns. -/
theorem C14_any_hooks (hw : Went Y s .clearArtifacts s' r) :
    r = .val .unit ∧ (∀ a, Uncached s' a) ∧ (∀ u d, ¬ UsesNow s' u d) ∧
    (∀ a d, HasState s' a d ↔ HasState s a d) ∧ (∀ a, Known s' a ↔ Known s a) ∧ s'.w = s.w ∧ s'.heap = s.heap := by
  obtain ⟨n, ord, e⟩ := went_quiet hw trivial
  have := C14_clear_artifacts (Y := Y) n ord s
  simpa only [e] using this

/-- **C16** `is_builder_known(p)` changes nothing, and answers whether `p` is known; if it is not, the cache holds nothing of it,
and it is recorded neither to use nor to be used. -/
theorem C16_any_hooks (h : Reachable Y s) {p : Promise σ} (hl : s.live p = true) (hw : Went Y s (.isKnown p) s' r) :
    s' = s ∧ ((Known s p.id ∧ r = .val (.bool true)) ∨
      (¬ Known s p.id ∧ r = .val (.bool false) ∧ Uncached s p.id ∧ (∀ d, ¬ HasState s p.id d) ∧
        ∀ x, ¬ UsesNow s p.id x ∧ ¬ UsesNow s x p.id)) := by
  obtain ⟨n, ord, e⟩ := went_quiet hw trivial
  have hr : step Y n ord s (.isKnown p) = (s, .val (.bool (isKnown p.id s.c))) := by rw [step_live rfl hl]; rfl
  have hk := C17_is_known (Y := Y) hl n ord
  rw [e] at hr
  obtain ⟨rfl, rfl⟩ : s' = s ∧ r = .val (.bool (isKnown p.id s.c)) := by simpa using hr
  refine ⟨rfl, ?_⟩
  rw [e] at hk
  cases hb : isKnown p.id s'.c with
  | true => rw [hb] at hk; exact .inl ⟨hk.1 rfl, rfl⟩
  | false =>
    refine .inr ⟨fun hkn => ?_, rfl, C16_unknown_means_nothing h (n := n) (ord := ord) (by rw [e, hb])⟩
    have := hk.2 hkn
    rw [hb] at this; cases this

/-- **C17** `number_of_known_builders` changes nothing, and answers the number of different known builders. -/
theorem C17_any_hooks (hw : Went Y s .numKnown s' r) :
    s' = s ∧ ∃ ids : List Id, ids.Nodup ∧ (∀ a, a ∈ ids ↔ Known s a) ∧ r = .val (.nat ids.length) := by
  obtain ⟨n, ord, e⟩ := went_quiet hw trivial
  obtain ⟨ids, h1, h2, h3⟩ := C17_number_of_known (Y := Y) n ord s
  rw [e] at h3
  cases h3
  exact ⟨rfl, ids, h1, h2, rfl⟩

/-- **C19** The garbage collection keeps everything of every builder that is still referenced, and changes nothing outside of the
cache, also if it panics. -/
theorem C19_any_hooks (h : Reachable Y s) (hw : Went Y s .gc s' r) :
    (∀ p : Promise σ, s.live p = true →
      s'.live p = true ∧
      (∀ v, Cached s' p.id v ↔ Cached s p.id v) ∧ (∀ d, HasState s' p.id d ↔ HasState s p.id d) ∧
      (Known s' p.id ↔ Known s p.id) ∧ (∀ d, UsesNow s' p.id d ↔ UsesNow s p.id d)) ∧
    s'.w = s.w ∧ s'.heap = s.heap ∧ (∀ e, Since s s' e → ∃ a, e = .collect a ∧ Dead s a) := by
  obtain ⟨n, ord, e⟩ := went_quiet hw trivial
  have := C19_gc_keeps_live h n ord
  simpa only [e] using this

/-- **C20** A garbage collection that returns makes exactly those known builders unknown which nobody references and which nothing
is recorded to use; it drops their artifacts, states and recorded uses, and nothing else. -/
theorem C20_any_hooks (h : Reachable Y s) {x : Ans σ} (hw : Went Y s .gc s' (.val x)) :
    let G := fun a => Known s a ∧ Dead s a ∧ ∀ u, ¬ UsesNow s u a
    x = .unit ∧ (∀ a, Known s' a ↔ Known s a ∧ ¬ G a) ∧
    (∀ a v, Cached s' a v ↔ Cached s a v ∧ ¬ G a) ∧
    (∀ a d, HasState s' a d ↔ HasState s a d ∧ ¬ G a) ∧
    (∀ u d, UsesNow s' u d ↔ UsesNow s u d ∧ ¬ G u) := by
  obtain ⟨n, ord, e⟩ := went_quiet hw trivial
  refine ⟨?_, C20_gc_collects h e⟩
  rcases step_gc h n ord with ⟨e', _⟩ | ⟨_, c', e', _⟩
  · rw [e] at e'; cases e'
  · rw [e] at e'; cases e'; rfl

/-- **C28** Conversely to `C28_any_hooks_get_is_from_scratch`, however the hooks have behaved until now: what a `get` with any hooks
answers, a `get` without hooks answers, too, with enough stack space. -/
theorem C28_any_hooks_as_without (hY : PureSys Y) (hT : WellTyped Y) (h : ReachablePlain Y s) (ho : Owning Y s)
    {p : Promise σ} {how : Access} {x : Except σ.E σ.V} (hw : Went Y s (.get how p) s' (.val (.art x))) :
    GetReturns Y s how p x := by
  have hl := hw.live trivial rfl
  obtain ⟨D, n, ord, rfl, hr⟩ := went_plain hw
  obtain ⟨r0, hs, rfl⟩ := C28_any_hooks_get_is_from_scratch hY h D hr.symm
  exact C28_from_scratch_is_get hY hT h ho hl hs how

/-- **C29** In a system of pure builders, let `s1` and `s2` be two caches after any two histories, each with its own hooks, with the
same dynamic states of the builders referenced in `s1`, which are also referenced in `s2`.  If `get(p)` answers in both, again each
with its own hooks, the answers are the same. -/
theorem C29_any_hooks (hY : PureSys Y) (hT : WellTyped Y) {s1 s2 t1 t2 : St σ}
    (h1 : ReachablePlain Y s1) (h2 : ReachablePlain Y s2) (ho : Owning Y s1)
    (hlive : ∀ q, s1.live q = true → s2.live q = true)
    (hstate : ∀ q, s1.live q = true → stateOf Y s2 q = stateOf Y s1 q)
    {p : Promise σ} {how : Access} {x1 x2 : Except σ.E σ.V}
    (hw1 : Went Y s1 (.get how p) t1 (.val (.art x1))) (hw2 : Went Y s2 (.get how p) t2 (.val (.art x2))) : x1 = x2 := by
  have hl := hw1.live trivial rfl
  obtain ⟨D1, n1, ord1, rfl, hr1⟩ := went_plain hw1
  obtain ⟨D2, n2, ord2, rfl, hr2⟩ := went_plain hw2
  obtain ⟨a, ha, rfl⟩ := C28_any_hooks_get_is_from_scratch hY h1 D1 hr1.symm
  obtain ⟨b, hb, rfl⟩ := C28_any_hooks_get_is_from_scratch hY h2 D2 hr2.symm
  obtain ⟨N, hN⟩ := get_complete (H := fun q => s1.live q = true) hY hT hl ha
    ⟨h2.reachable.inv, h2.sound hY, hlive, ho, hstate⟩ how
  obtain ⟨c, hc, e⟩ := C28_get_is_from_scratch hY h2 (hN N (Nat.le_refl _) ord2)
  rw [e, hc.det hY hb]

end

/-! ## Examples -/

namespace Demo

/-- A doctor that panics whenever it is called, while three artifacts are cached: nobody asks it. -/
example : ∃ s', Went Y s1 .clearArtifacts s' (.val .unit) ∧ (∀ a, Uncached s' a) ∧ HasState s' 10 (5 : Nat) := by
  have hw := Went.hooked (Y := Y) (s := s1) (op := .clearArtifacts) (fun w _ => (w, true)) 9 ord
  exact ⟨_, hw, (C14_any_hooks hw).2.1, ((C14_any_hooks hw).2.2.2.1 _ _).2 (by unfold HasState; decide)⟩

/-- 2 is known after it was built, 3 was never used with the cache. -/
example {s' : St sig} {r : Res (Ans sig)} (hw : Went Y s1 (.isKnown (P 2)) s' r) : r = .val (.bool true) := by
  rcases (C16_any_hooks reach1 (by decide) hw).2 with h | h
  · exact h.2
  · exact absurd (show Known s1 12 by unfold Known; decide) h.1

example {s' : St sig} {r : Res (Ans sig)} (hw : Went Y s1 (.isKnown (P 3)) s' r) : r = .val (.bool false) := by
  rcases (C16_any_hooks reach1 (by decide) hw).2 with h | h
  · exact absurd h.1 (by unfold Known; decide)
  · exact h.2.1

/-- Three builders are known. -/
example {s' : St sig} {r : Res (Ans sig)} (hw : Went Y s1 .numKnown s' r) : r ≠ .val (.nat 2) := by
  obtain ⟨rfl, ids, h1, h2, rfl⟩ := C17_any_hooks hw
  intro h
  have h3 : ids.length = 2 := by simpa using h
  have h4 : [10, 11, 12] ⊆ ids := by
    intro a ha
    rw [h2]
    simp only [List.mem_cons, List.not_mem_nil, or_false] at ha
    rcases ha with rfl | rfl | rfl <;> (unfold Known; decide)
  have := (List.Nodup.subperm (by decide : [10, 11, 12].Nodup) h4).length_le
  simp [h3] at this

/-- 2 is freed and collected, 1 is still referenced and keeps its artifact, under the eyes of a doctor that would panic. -/
example : ∃ s', Went Y (step Y 9 ord s1 (.free 12)).1 .gc s' (.val .unit) ∧ ¬ Known s' 12 ∧ Cached s' 11 (105 : Nat) := by
  have h : Reachable Y (step Y 9 ord s1 (.free 12)).1 := reach1.step 9 ord (.free 12) trivial
  have hw := Went.hooked (Y := Y) (s := (step Y 9 ord s1 (.free 12)).1) (op := .gc) (fun w _ => (w, true)) 9 ord
  have hr : (stepH Y (fun w _ => (w, true)) 9 ord (step Y 9 ord s1 (.free 12)).1 .gc).2 = .val .unit := rfl
  rw [hr] at hw
  refine ⟨_, hw, ?_, ?_⟩
  · rw [(C20_any_hooks h hw).2.1]
    exact fun hk => hk.2 ⟨by unfold Known; decide, fun p hp => by
      cases hl : (step Y 9 ord s1 (.free 12)).1.live p with
      | false => rfl
      | true =>
        rw [live_iff, hp] at hl
        exact absurd hl (by
          have : (step Y 9 ord s1 (.free 12)).1.heap[(12 : Id)]? = none := by decide
          rw [this]; nofun), fun u hu => by
      obtain ⟨S, h1, h2⟩ := hu
      have : (step Y 9 ord s1 (.free 12)).1.c.dependents[(12 : Id)]? = none := by decide
      rw [this] at h1; cases h1⟩
  · exact (((C19_any_hooks h hw).1 (P 1) (by decide)).2.1 _).2 (by unfold Cached; decide)

set_option smartUnfolding false in
/-- The two different histories of Props7, now with a doctor that counts what it is told in one cache, and with one that panics when
something is built in the other: both answer 24, if they do. -/
example :
    let s1 := dagAfter [.get .bin (P 1), .dynStateMut (P 0) (fun _ => 5), .get .ref (P 1)]
    let s2 := (stepH dagY strict 3 ord (dagAfter [.dynStateMut (P 0) (fun _ => 5), .dynState (P 1)]) (.get .bin (P 1))).1
    (∀ t1 x, Went dagY s1 (.get .bin (P 2)) t1 (.val (.art (.ok x))) → (∃ t2, Went dagY s2 (.get .bin (P 2)) t2 (.val (.art (.ok 24)))) →
      x = (24 : Nat)) ∧
    (stepH dagY strict 3 ord (dagAfter [.dynStateMut (P 0) (fun _ => 5), .dynState (P 1)]) (.get .bin (P 1))).2 = .panic .user ∧
    (stepH dagY tallying 3 ord s1 (.get .bin (P 2))).2 = .val (.art (.ok 24)) ∧
    (stepH dagY tallying 3 ord s2 (.get .bin (P 2))).2 = .val (.art (.ok 24)) ∧ GetReturns dagY s1 .bin (P 2) (.ok (24 : Nat)) := by
  intro s1 s2
  have h1 : ReachablePlain dagY s1 :=
    ReachablePlain.runOps _ (by simp [Op.mutates]) (ReachablePlain.new (Y := dagY) (0 : Nat)) (by decide)
  have h2' : ReachablePlain dagY (dagAfter [.dynStateMut (P 0) (fun _ => 5), .dynState (P 1)]) :=
    ReachablePlain.runOps _ (by simp [Op.mutates]) (ReachablePlain.new (Y := dagY) (0 : Nat)) (by decide)
  have e : (stepH dagY strict 3 ord (dagAfter [.dynStateMut (P 0) (fun _ => 5), .dynState (P 1)]) (.get .bin (P 1))).2 =
    .panic .user := rfl
  have h2 : ReachablePlain dagY s2 := .hooked strict 3 ord (.get .bin (P 1)) h2' id
    (by rw [e]; exact (by decide : Panic.user ≠ Panic.noCounterpart))
  have hheap : s1.heap = (((∅ : AMap Nat).insert 10 0).insert 11 1).insert 12 2 := rfl
  have hq : ∀ q, s1.live q = true → q = P 0 ∨ q = P 1 ∨ q = P 2 := by
    rintro ⟨a, b⟩ hl
    simp only [St.live, hheap, beq_iff_eq] at hl
    unfold P
    grind
  have hl : ∀ q, s1.live q = true → s2.live q = true := by
    intro q hl
    rcases hq q hl with rfl | rfl | rfl <;> rfl
  have hs : ∀ q, s1.live q = true → stateOf dagY s2 q = stateOf dagY s1 q := by
    intro q hl
    rcases hq q hl with rfl | rfl | rfl <;> rfl
  have e1 : (stepH dagY tallying 3 ord s1 (.get .bin (P 2))).2 = .val (.art (.ok (24 : Nat))) := rfl
  have hw := Went.hooked (Y := dagY) (s := s1) (op := .get .bin (P 2)) tallying 3 ord
  rw [e1] at hw
  refine ⟨?_, e, e1, rfl, C28_any_hooks_as_without dagY_pure dagY_wellTyped h1 (dag_owning rfl) hw⟩
  rintro t1 x hw1 ⟨t2, hw2⟩
  have := C29_any_hooks dagY_pure dagY_wellTyped h1 h2 (dag_owning rfl) hl hs hw1 hw2
  simpa using this

end Demo

end Daab
