import Verif.SimHooks

/-!
# C46, C47: with any doctor, `Debug` and `Clone` implementations

A garbage collection can not be noticed, neither by the program nor by what it plugs into the cache; and of a sequence of
invalidations and purges only the sets of builders matter, for the doctor, too, if the doctor ends up in the same state.
-/

open Std

namespace Daab

section
variable {σ : Sig} {Y : Sys σ} {s t : St σ}

/-! ## Vocabulary -/

/-- No later history of operations, with any hooks, makes a difference between the caches `s` and `t`, neither in its answers nor in
the outside world, in which the doctor keeps what it has been told (as long as the program goes on), whatever the hash orders. -/
def IndistinguishableH (Y : Sys σ) (s t : St σ) : Prop :=
  ∀ hist hist' : HistoryH σ, SameOpsH hist hist' →
    ((∀ r ∈ (playH Y hist s).2, r.goesOn) → (playH Y hist' t).2 = (playH Y hist s).2 ∧ (playH Y hist' t).1.w = (playH Y hist s).1.w) ∧
    ((∀ r ∈ (playH Y hist t).2, r.goesOn) → (playH Y hist' s).2 = (playH Y hist t).2 ∧ (playH Y hist' s).1.w = (playH Y hist t).1.w)

/-- The history invalidates or purges the builder with the id `a`. -/
def DropsH (h : HistoryH σ) (a : Id) : Prop :=
  ∃ x ∈ h, ∃ p, (x.2.2.2 = .invalidate p ∨ x.2.2.2 = .purge p) ∧ p.id = a

/-- The history purges the builder with the id `a`. -/
def PurgesH (h : HistoryH σ) (a : Id) : Prop := ∃ x ∈ h, ∃ p, x.2.2.2 = .purge p ∧ p.id = a

/-! ## Proofs -/

theorem Sim.stepH_any {G : Id → Prop} (h : Sim G s t) (hs : Inv Y s) (ht : Inv Y t) (D : Hooks σ) (n : Nat)
    (ord ord' : HashOrder) (op : Op σ) (hgo : (Daab.stepH Y D n ord s op).2.goesOn) :
    NotMore (Daab.stepH Y D n ord s op).2 (Daab.stepH Y D n ord' t op).2 ∧
    (Daab.stepH Y D n ord' t op).2.goesOn ∧
    ∃ G', Sim G' (Daab.stepH Y D n ord s op).1 (Daab.stepH Y D n ord' t op).1 := by
  by_cases hop : op = .numKnown
  · subst hop
    exact ⟨Or.inr ⟨_, _, rfl, rfl, h.numKnown_le⟩, trivial, G, h⟩
  · obtain ⟨h1, G', _, h2⟩ := h.stepH hs ht D n ord ord' op hgo (fun he => absurd he hop)
    exact ⟨Or.inl h1, by rw [h1]; exact hgo, G', h2⟩

theorem playH_sim {hist hist' : HistoryH σ} (hops : SameOpsH hist hist') {s t : St σ}
    (hs : Reachable Y s) (ht : Reachable Y t) {G : Id → Prop} (h : Sim G s t)
    (hg : ∀ r ∈ (playH Y hist s).2, r.goesOn) :
    List.Forall₂ NotMore (playH Y hist s).2 (playH Y hist' t).2 ∧ (playH Y hist' t).1.w = (playH Y hist s).1.w := by
  unfold SameOpsH at hops
  induction hops generalizing s t G with
  | nil => exact ⟨List.Forall₂.nil, h.w⟩
  | @cons x y hist hist' hxy _ ih =>
    obtain ⟨D, n, ord, op⟩ := x
    obtain ⟨D', n', ord', op'⟩ := y
    obtain ⟨rfl, rfl, rfl⟩ := hxy
    simp only [playH] at hg ⊢
    have hg1 : (stepH Y D n ord s op).2.goesOn := hg _ (by simp)
    obtain ⟨h1, h2, G', h3⟩ := h.stepH_any hs.inv ht.inv D n ord ord' op hg1
    have := ih (.hooked D n ord op hs hg1) (.hooked D n ord' op ht h2) h3 (fun r hr => hg r (List.mem_cons_of_mem _ hr))
    exact ⟨List.Forall₂.cons h1 this.1, this.2⟩

theorem playH_sim_eq {hist hist' : HistoryH σ} (hops : SameOpsH hist hist') {s t : St σ}
    (hs : Reachable Y s) (ht : Reachable Y t) {G : Id → Prop} (hG : (∀ a, ¬ G a) ∨ ∀ x ∈ hist, x.2.2.2 ≠ .numKnown) (h : Sim G s t)
    (hg : ∀ r ∈ (playH Y hist s).2, r.goesOn) :
    (playH Y hist' t).2 = (playH Y hist s).2 ∧ (playH Y hist' t).1.w = (playH Y hist s).1.w := by
  unfold SameOpsH at hops
  induction hops generalizing s t G with
  | nil => exact ⟨rfl, h.w⟩
  | @cons x y hist hist' hxy _ ih =>
    obtain ⟨D, n, ord, op⟩ := x
    obtain ⟨D', n', ord', op'⟩ := y
    obtain ⟨rfl, rfl, rfl⟩ := hxy
    simp only [playH] at hg ⊢
    have hg1 : (stepH Y D n ord s op).2.goesOn := hg _ (by simp)
    obtain ⟨h1, G', hG', h3⟩ := h.stepH hs.inv ht.inv D n ord ord' op hg1
      (fun e => hG.elim id fun h => absurd e (h (D, n, ord, op) (by simp)))
    have := ih (.hooked D n ord op hs hg1) (.hooked D n ord' op ht (by rw [h1]; exact hg1))
      (hG.imp hG' fun h x hx => h x (List.mem_cons_of_mem _ hx)) h3 (fun r hr => hg r (List.mem_cons_of_mem _ hr))
    exact ⟨by rw [h1, this.1], this.2⟩

/-! ## C46 -/

/-- **C46** A garbage collection can not be noticed, whatever doctor, `Debug` and `Clone` implementations and destructors there are,
even if they panic: whatever a program does afterwards, every operation answers what it would have answered without the collection
(except that `number_of_known_builders` may count fewer builders), and the outside world, including what the doctor remembers, is
what it would have been. -/
theorem C46_any_hooks (h : Reachable Y s) (D : Hooks σ) (n : Nat) (ord : HashOrder) {hist hist' : HistoryH σ}
    (hops : SameOpsH hist hist') (hg : ∀ r ∈ (playH Y hist s).2, r.goesOn) :
    List.Forall₂ NotMore (playH Y hist s).2 (playH Y hist' (stepH Y D n ord s .gc).1).2 ∧
    (playH Y hist' (stepH Y D n ord s .gc).1).1.w = (playH Y hist s).1.w := by
  obtain ⟨G, hG⟩ := gc_sim h.inv ord
  exact playH_sim hops h (.step n ord .gc h (step_gc_goesOn h n ord)) hG hg

/-- **C46** In particular, without `number_of_known_builders` all the answers are the same. -/
theorem C46_any_hooks_same_answers (h : Reachable Y s) (D : Hooks σ) (n : Nat) (ord : HashOrder) {hist hist' : HistoryH σ}
    (hops : SameOpsH hist hist') (hg : ∀ r ∈ (playH Y hist s).2, r.goesOn)
    (hn : ∀ x ∈ hist, x.2.2.2 ≠ .numKnown) :
    (playH Y hist' (stepH Y D n ord s .gc).1).2 = (playH Y hist s).2 := by
  obtain ⟨G, hG⟩ := gc_sim h.inv ord
  exact (playH_sim_eq hops h (.step n ord .gc h (step_gc_goesOn h n ord)) (.inr hn) hG hg).1

/-! ## C47 -/

theorem Sim.indistH {G : Id → Prop} (hG : ∀ a, ¬ G a) (hs : Reachable Y s) (ht : Reachable Y t)
    (h : Sim G s t) (h' : Sim G t s) : IndistinguishableH Y s t := fun _ _ hops =>
  ⟨fun hg => playH_sim_eq hops hs ht (.inl hG) h hg, fun hg => playH_sim_eq hops ht hs (.inl hG) h' hg⟩

theorem playH_forgot (hist : HistoryH σ) {s : St σ} (hs : Reachable Y s) (hf : ∀ x ∈ hist, x.2.2.2.forgets s) :
    Reachable Y (playH Y hist s).1 ∧ (∃ s', (∃ w, (playH Y hist s).1 = { s' with w := w }) ∧ Forgot (DropsH hist) (PurgesH hist) s s') ∧
    ∀ r ∈ (playH Y hist s).2, r = .val .unit ∨ r = .panic .user := by
  induction hist generalizing s with
  | nil =>
    refine ⟨hs, ⟨s, ⟨_, rfl⟩, (Forgot.refl s).congr ?_ ?_⟩, by simp [playH]⟩
    · intro a; simp [DropsH]
    · intro a; simp [PurgesH]
  | cons x hist ih =>
    obtain ⟨D, n, ord, op⟩ := x
    obtain ⟨p, hl, hop⟩ := hf (D, n, ord, op) (by simp)
    simp only at hop
    have key : ∃ K : Id → Prop, (∀ a, K a ↔ op = .purge p ∧ a = p.id) ∧
        (∃ s', (∃ w, (stepH Y D n ord s op).1 = { s' with w := w }) ∧ Forgot (· = p.id) K s s') ∧
        ((stepH Y D n ord s op).2 = .val .unit ∨ (stepH Y D n ord s op).2 = .panic .user) := by
      rcases hop with rfl | rfl
      · refine ⟨fun _ => False, by simp, ?_⟩
        have hF := forgot_invalidate hs.inv ord p
        obtain ⟨c, e, _⟩ := invalidate_spec hs.inv ord p
        simp only [stepH, Op.promise?, hl, if_true, execH, e, thenTell] at hF ⊢
        unfold callHook
        split
        · exact ⟨⟨_, ⟨_, rfl⟩, hF⟩, .inr rfl⟩
        · exact ⟨⟨_, ⟨_, rfl⟩, hF⟩, .inl rfl⟩
      · refine ⟨(· = p.id), by simp, ?_⟩
        have hF := forgot_purge hs.inv ord p
        obtain ⟨c, cF, e, _, _⟩ := purge_spec hs.inv ord p
        simp only [stepH, Op.promise?, hl, if_true, execH, e, thenTell] at hF ⊢
        unfold callHook
        split
        · exact ⟨⟨_, ⟨_, rfl⟩, hF⟩, .inr rfl⟩
        · exact ⟨⟨_, ⟨_, rfl⟩, hF⟩, .inl rfl⟩
    obtain ⟨K, hK, ⟨s', ⟨w, hw⟩, h1⟩, h3⟩ := key
    simp only [playH]
    have hr1 : Reachable Y (stepH Y D n ord s op).1 :=
      .hooked D n ord op hs (by rcases h3 with h3 | h3 <;> rw [h3] <;> simp [Res.goesOn])
    obtain ⟨hr, ⟨s2, hs2, h2⟩, hres⟩ := ih hr1 (by
      intro x hx
      obtain ⟨q, hq, hq'⟩ := hf x (List.mem_cons_of_mem _ hx)
      refine ⟨q, ?_, hq'⟩
      rw [hw, live_iff]
      simp only [h1.heap]
      exact live_iff.1 hq)
    -- the world does not matter for what has been forgotten
    have h2' : Forgot (DropsH hist) (PurgesH hist) s' { s2 with w := s'.w } := by
      rw [hw] at h2
      exact { h2 with w := rfl }
    have hPD : ∀ a, PurgesH hist a → DropsH hist a := by
      rintro a ⟨x, hx, p, h1, h2⟩
      exact ⟨x, hx, p, Or.inr h1, h2⟩
    refine ⟨hr, ⟨{ s2 with w := s'.w }, ?_, (h1.trans hPD h2').congr ?_ ?_⟩, ?_⟩
    · obtain ⟨w2, hs2⟩ := hs2
      exact ⟨w2, hs2⟩
    · intro a
      constructor
      · rintro (rfl | ⟨x, hx, q, h3, h4⟩)
        · exact ⟨(D, n, ord, op), by simp, p, hop, rfl⟩
        · exact ⟨x, List.mem_cons_of_mem _ hx, q, h3, h4⟩
      · rintro ⟨x, hx, q, h3, h4⟩
        rcases List.mem_cons.1 hx with rfl | hx
        · left
          rcases hop with rfl | rfl <;> simp at h3 <;> rw [h3, h4]
        · exact Or.inr ⟨x, hx, q, h3, h4⟩
    · intro a
      rw [hK a]
      constructor
      · rintro (⟨h, rfl⟩ | ⟨x, hx, q, h3, h4⟩)
        · exact ⟨(D, n, ord, op), by simp, p, h, rfl⟩
        · exact ⟨x, List.mem_cons_of_mem _ hx, q, h3, h4⟩
      · rintro ⟨x, hx, q, h3, h4⟩
        rcases List.mem_cons.1 hx with rfl | hx
        · left
          rcases hop with rfl | rfl
          · simp at h3
          · simp at h3; exact ⟨rfl, by rw [h3, h4]⟩
        · exact Or.inr ⟨x, hx, q, h3, h4⟩
    · intro r hr
      rcases List.mem_cons.1 hr with rfl | hr
      · exact h3
      · exact hres r hr

/-- **C47** Take two sequences of `invalidate` and `purge` calls, with any hooks: the doctor, which is told about each of them, may do
anything, and its panics are caught.  If they invalidate or purge the same builders, and purge the same builders, and the outside
world, with what the doctor remembers, is the same after both, then nothing that happens later can tell which of the two was
performed.  -/
theorem C47_any_hooks (h : Reachable Y s) {l l' : HistoryH σ}
    (hf : ∀ x ∈ l, x.2.2.2.forgets s) (hf' : ∀ x ∈ l', x.2.2.2.forgets s)
    (hD : ∀ a, DropsH l a ↔ DropsH l' a) (hP : ∀ a, PurgesH l a ↔ PurgesH l' a)
    (hw : (playH Y l s).1.w = (playH Y l' s).1.w) :
    IndistinguishableH Y (playH Y l s).1 (playH Y l' s).1 := by
  obtain ⟨r1, ⟨s1, ⟨w1, e1⟩, f1⟩, _⟩ := playH_forgot l h hf
  obtain ⟨r2, ⟨s2, ⟨w2, e2⟩, f2⟩, _⟩ := playH_forgot l' h hf'
  have f2' := f2.congr (fun a => (hD a).symm) (fun a => (hP a).symm)
  have e1' : (playH Y l s).1 = { s1 with w := (playH Y l s).1.w } := by rw [e1]
  have e2' : (playH Y l' s).1 = { s2 with w := (playH Y l s).1.w } := by rw [hw, e2]
  refine Sim.indistH (fun _ h => h) r1 r2 ?_ ?_
  · rw [e1', e2']; exact (f1.sim f2').world _
  · rw [e1', e2']; exact (f2'.sim f1).world _

/-- **C47** Invalidations and purges with any hooks come back, unless the doctor panics when it is told. -/
theorem C47_any_hooks_return (h : Reachable Y s) {l : HistoryH σ} (hf : ∀ x ∈ l, x.2.2.2.forgets s) :
    ∀ r ∈ (playH Y l s).2, r = .val .unit ∨ r = .panic .user := (playH_forgot l h hf).2.2

end

namespace Demo

/-- Builder 2 has been dropped, so that there is something to collect. -/
def s35 : St sig := (step Y 9 ord s1 (.free 12)).1

theorem reach35 : Reachable Y s35 := .step 9 ord (.free 12) reach1 (by decide +kernel)

/-- What the program does then; the doctor counts, and panics at its eighth call. -/
def hist35 : HistoryH sig := ([.invalidate (P 0), .numKnown, .get .bin (P 1), .get .cloned (P 1), .gc, .numKnown] : List (Op sig)).map
  fun o => (tick (s1.w + 2), 9, ord, o)

set_option smartUnfolding false in
/-- `C46_any_hooks`: the doctor panics in the middle of the build, when it is told about a use; the count is the only difference. -/
example : List.Forall₂ NotMore (playH Y hist35 s35).2 (playH Y hist35 (stepH Y (tick 99) 9 ord s35 .gc).1).2 ∧
    (playH Y hist35 s35).2 = [.val .unit, .val (.nat 3), .panic .user, .val (.art (.ok 105)), .val .unit, .val (.nat 2)] ∧
    (playH Y hist35 (stepH Y (tick 99) 9 ord s35 .gc).1).2 =
      [.val .unit, .val (.nat 2), .panic .user, .val (.art (.ok 105)), .val .unit, .val (.nat 2)] := by
  refine ⟨(C46_any_hooks reach35 (tick 99) 9 ord (by simp [SameOpsH]) (by decide +kernel)).1, rfl, rfl⟩

/-- `C46_any_hooks_same_answers`. -/
example : (playH Y (hist35.filter fun x => x.2.2.2 matches .get .. ) (stepH Y (tick 99) 9 ord s35 .gc).1).2 =
    (playH Y (hist35.filter fun x => x.2.2.2 matches .get ..) s35).2 :=
  C46_any_hooks_same_answers reach35 (tick 99) 9 ord (by simp [SameOpsH]) (by decide +kernel) (by
    intro x hx
    have := (List.mem_filter.1 hx).2
    rintro e
    rw [e] at this
    cases this)

/-- Two sequences that invalidate 0 and purge 1; in the first the doctor panics at the first call. -/
def drop35 : HistoryH sig := [(tick s1.w, 9, ord, .invalidate (P 0)), (tick 99, 9, ord, .purge (P 1))]

/-- In the second the doctor panics at the second. -/
def drop35' : HistoryH sig := [(tick 99, 9, ord', .purge (P 1)), (tick (s1.w + 1), 9, ord', .invalidate (P 0))]

/-- `C47_any_hooks`. -/
example : IndistinguishableH Y (playH Y drop35 s1).1 (playH Y drop35' s1).1 := by
  refine C47_any_hooks reach1 ?_ ?_ ?_ ?_ (by decide +kernel)
  · intro x hx
    simp only [drop35, List.mem_cons, List.not_mem_nil, or_false] at hx
    rcases hx with rfl | rfl
    · exact ⟨P 0, by decide, Or.inl rfl⟩
    · exact ⟨P 1, by decide, Or.inr rfl⟩
  · intro x hx
    simp only [drop35', List.mem_cons, List.not_mem_nil, or_false] at hx
    rcases hx with rfl | rfl
    · exact ⟨P 1, by decide, Or.inr rfl⟩
    · exact ⟨P 0, by decide, Or.inl rfl⟩
  · intro a
    simp [DropsH, drop35, drop35', or_comm]
  · intro a
    simp [PurgesH, drop35, drop35']

/-- `C47_any_hooks_return`. -/
example : (playH Y drop35 s1).2 = [.panic .user, .val .unit] ∧ ∀ r ∈ (playH Y drop35 s1).2, r = .val .unit ∨ r = .panic .user :=
  ⟨rfl, C47_any_hooks_return reach1 (by
    intro x hx
    simp only [drop35, List.mem_cons, List.not_mem_nil, or_false] at hx
    rcases hx with rfl | rfl
    · exact ⟨P 0, by decide, Or.inl rfl⟩
    · exact ⟨P 1, by decide, Or.inr rfl⟩)⟩

end Demo

end Daab
