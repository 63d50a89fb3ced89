import Verif.Props5

/-!
# Property C08: invalidation and the most recent build
-/

open Std

namespace Daab

variable {σ : Sig} {Y : Sys σ} {s : St σ}

/-- In the history `l` (newest event first) `u` resolved `d` since a build of `u` was started the
last time. -/
def UsedByLastBuild (l : List (Event σ)) (u d : Id) : Prop :=
  ∃ post pre p q, l = post ++ Event.resolve p q :: pre ∧ p.id = u ∧ q.id = d ∧
    ∀ r, r.id = u → Event.call r ∉ post

/-- No build was started while an earlier build of the same builder had not succeeded: no build
failed or panicked and was tried again, and no build depended on itself. -/
def NoRetry (l : List (Event σ)) : Prop :=
  ∀ post pre p, l = post ++ Event.call p :: pre → ¬ Pending p.id pre

theorem UsedByLastBuild.cons {l : List (Event σ)} {u d : Id} (h : UsedByLastBuild l u d) {e : Event σ}
    (he : ∀ r, e = .call r → r.id ≠ u) : UsedByLastBuild (e :: l) u d := by
  obtain ⟨post, pre, p, q, rfl, h1, h2, h3⟩ := h
  refine ⟨e :: post, pre, p, q, rfl, h1, h2, ?_⟩
  intro r hr hm
  rcases List.mem_cons.1 hm with h | h
  · exact he r h.symm hr
  · exact h3 r hr h

/-- Whoever uses something is cached or its build has not succeeded yet. -/
theorem LogOk.dep_pending {l : List (Event σ)} (h : LogOk l) {u d : Id} (hd : (Abs.of l).dep u d) :
    Pending u l ∨ ∃ bv, (Abs.of l).art u = some bv := by
  induction l generalizing d with
  | nil => exact hd.elim
  | cons e l ih =>
    obtain ⟨h1, h2⟩ := h
    have hpend : Pending u l → (∀ q v, e = .built q v → q.id ≠ u) →
        Pending u (e :: l) ∨ ∃ bv, (Abs.of (e :: l)).art u = some bv := fun h he => Or.inl (h.cons e he)
    have hdrop : ∀ (R : Id → Prop) (bv : σ.B × σ.V), ¬ R u → (Abs.of l).art u = some bv →
        ((Abs.of l).drop R).art u = some bv := by
      intro R bv hR h
      simp only [Abs.drop, if_neg hR, h]
    cases e with
    | resolve p q =>
      rcases hd with hd | ⟨rfl, rfl⟩
      · exact (ih h2 hd).elim (hpend · (by simp)) Or.inr
      · exact h1.elim (hpend · (by simp)) Or.inr
    | built p v =>
      by_cases hp : p.id = u
      · refine Or.inr ⟨(p.b, v), ?_⟩
        simp [Abs.of, Abs.apply, hp]
      · refine (ih h2 hd).elim (hpend · (by rintro q w ⟨⟩; exact hp)) fun ⟨bv, h⟩ => Or.inr ⟨bv, ?_⟩
        simp only [Abs.of, Abs.apply]
        rw [if_neg (Ne.symm hp)]
        exact h
    | invalidate p =>
      exact (ih h2 hd.1).elim (hpend · (by simp)) fun ⟨bv, h⟩ => Or.inr ⟨bv, hdrop _ bv hd.2 h⟩
    | mutDeps a =>
      exact (ih h2 hd.1).elim (hpend · (by simp)) fun ⟨bv, h⟩ => Or.inr ⟨bv, hdrop _ bv hd.2 h⟩
    | collect a =>
      exact (ih h2 hd.1).elim (hpend · (by simp)) fun ⟨bv, h⟩ => Or.inr ⟨bv, hdrop _ bv hd.2 h⟩
    | clear => exact hd.elim
    | clearArtifacts => exact hd.elim
    | write a v =>
      refine (ih h2 hd).elim (hpend · (by simp)) fun ⟨bv, h⟩ => Or.inr ?_
      simp only [Abs.of, Abs.apply]
      split
      · next he => subst he; rw [h]; exact ⟨_, rfl⟩
      · exact ⟨bv, h⟩
    | initDyn p o =>
      cases o <;> exact (ih h2 hd).elim (hpend · (by simp)) Or.inr
    | call p => exact (ih h2 hd).elim (hpend · (by simp)) Or.inr
    | setDyn p v => exact (ih h2 hd).elim (hpend · (by simp)) Or.inr
    | purged p => exact (ih h2 hd).elim (hpend · (by simp)) Or.inr

theorem LogOk.dep_last {l : List (Event σ)} (h : LogOk l) (hn : NoRetry l) {u d : Id}
    (hd : (Abs.of l).dep u d) : UsedByLastBuild l u d := by
  induction l with
  | nil => exact hd.elim
  | cons e l ih =>
    obtain ⟨h1, h2⟩ := h
    have hn' : NoRetry l := fun post pre p he => hn (e :: post) pre p (by rw [he]; rfl)
    cases e with
    | resolve p q =>
      rcases hd with hd | ⟨rfl, rfl⟩
      · exact (ih h2 hn' hd).cons (by simp)
      · exact ⟨[], l, p, q, rfl, rfl, rfl, by simp⟩
    | call p =>
      refine (ih h2 hn' hd).cons ?_
      rintro r ⟨⟩ hr
      rcases h2.dep_pending hd with h | ⟨bv, h⟩
      · exact hn [] l p rfl (hr ▸ h)
      · rw [← hr] at h
        have : (Abs.of l).art p.id = none := h1
        rw [this] at h
        cases h
    | invalidate p => exact (ih h2 hn' hd.1).cons (by simp)
    | mutDeps a => exact (ih h2 hn' hd.1).cons (by simp)
    | collect a => exact (ih h2 hn' hd.1).cons (by simp)
    | clear => exact hd.elim
    | clearArtifacts => exact hd.elim
    | initDyn p o => cases o <;> exact (ih h2 hn' hd).cons (by simp)
    | built p v => exact (ih h2 hn' hd).cons (by simp)
    | write a v => exact (ih h2 hn' hd).cons (by simp)
    | setDyn p v => exact (ih h2 hn' hd).cons (by simp)
    | purged p => exact (ih h2 hn' hd).cons (by simp)

theorem pending_cons {u : Id} {e : Event σ} {l : List (Event σ)} : Pending u (e :: l) ↔
    (∃ p, e = .call p ∧ p.id = u) ∨ (Pending u l ∧ ∀ q v, e = .built q v → q.id ≠ u) := by
  constructor
  · rintro ⟨post, pre, p, h, hp, hb⟩
    cases post with
    | nil => cases h; exact Or.inl ⟨p, rfl, hp⟩
    | cons x post =>
      cases h
      refine Or.inr ⟨⟨post, pre, p, rfl, hp, fun q v h => hb q v (by simp [h])⟩, ?_⟩
      rintro q v rfl
      exact hb q v (by simp)
  · rintro (⟨p, rfl, hp⟩ | ⟨h, hb⟩)
    · exact ⟨[], l, p, rfl, hp, by simp⟩
    · exact h.cons e hb

theorem pending_nil {u : Id} : ¬ Pending u ([] : List (Event σ)) := by
  rintro ⟨post, pre, p, h, _⟩
  cases post <;> cases h

theorem noRetry_cons {e : Event σ} {l : List (Event σ)} :
    NoRetry (e :: l) ↔ (∀ p, e = .call p → ¬ Pending p.id l) ∧ NoRetry l := by
  constructor
  · intro h
    exact ⟨fun p he => h [] l p (by rw [he]; rfl), fun post pre p he => h (e :: post) pre p (by rw [he]; rfl)⟩
  · rintro ⟨h1, h2⟩ post pre p he
    cases post with
    | nil => cases he; exact h1 p rfl
    | cons x post => cases he; exact h2 post pre p rfl

theorem noRetry_nil : NoRetry ([] : List (Event σ)) := by
  intro post pre p h
  cases post <;> cases h

/-- **C08** is false: an artifact may be removed by `invalidate(d)` although its most recent build
used neither `d` nor anything else: uses recorded by an earlier, failed build are kept. -/
theorem C08_refuted : ¬ ∀ (σ : Sig) (Y : Sys σ) (s : St σ) (p : Promise σ) (n : Nat) (ord : HashOrder),
    Reachable Y s → s.live p = true →
    ∀ a v, Cached s a v → ¬ Hit (UsedByLastBuild s.c.log) p.id a →
      Cached (step Y n ord s (.invalidate p)).1 a v := by
  intro h
  have hr := Demo.reach [.get .bin (Demo.P 3), .get .bin (Demo.P 3)] (by decide)
  have h1 := h _ Demo.Y _ (Demo.P 0) 0 Demo.ord hr (by decide) 13 7 (by unfold Cached; decide) ?_
  · exact absurd h1 (by unfold Cached; decide)
  · have hlog : (Demo.after [.get .bin (Demo.P 3), .get .bin (Demo.P 3)]).c.log =
      [.built (Demo.P 3) 7, .call (Demo.P 3), .built (Demo.P 0) 0, .setDyn (Demo.P 0) 0,
        .call (Demo.P 0), .initDyn (Demo.P 0) (some 0), .resolve (Demo.P 3) (Demo.P 0),
        .call (Demo.P 3), .initDyn (Demo.P 3) (some 3)] := rfl
    rw [hlog]
    intro hh
    rcases Relation.ReflTransGen.cases_head hh with h | ⟨x, h, _⟩
    · exact absurd h (by decide)
    · obtain ⟨post, pre, p, q, he, hp, -, hc⟩ := h
      match post, he with
      | [_], he | [], he | [_, _, _, _, _, _, _], he | [_, _, _, _, _, _, _, _], he
      | [_, _], he | [_, _, _], he | [_, _, _, _], he | [_, _, _, _, _], he => cases he
      | [_, _, _, _, _, _], he => cases he; exact hc (Demo.P 3) rfl (by simp)
      | _ :: _ :: _ :: _ :: _ :: _ :: _ :: _ :: _ :: _, he =>
        have := congrArg List.length he
        simp at this

/-- **C08**, what does hold: if no build was started while an earlier build of the same builder had
not succeeded, then every artifact whose most recent build did not use `p`, directly or through
others, survives `invalidate(p)`.  (Missing: the case of builds retried after a failure, for which
the property is false, see `C08_refuted`.) -/
theorem C08_invalidate_precise_partial (h : Reachable Y s) (hn : NoRetry s.c.log) {p : Promise σ}
    (hl : s.live p = true) (n : Nat) (ord : HashOrder) {a : Id} {v : σ.V} (hc : Cached s a v)
    (hu : ¬ Hit (UsedByLastBuild s.c.log) p.id a) :
    Cached (step Y n ord s (.invalidate p)).1 a v := by
  refine ((C05_invalidate_exact h hl n ord).2 a v).2 ⟨hc, fun hh => hu ?_⟩
  exact Relation.ReflTransGen.mono (fun u d hd => h.logOk.dep_last hn hd) _ _ hh

/-- The hypotheses are met: builder 2 built from 1 and 0, 1 invalidated and 2 rebuilt, and then
`invalidate(1)` keeps the artifact of 0. -/
example : Reachable Demo.Y (Demo.after [.get .bin (Demo.P 2), .invalidate (Demo.P 1), .get .bin (Demo.P 2)]) ∧
    NoRetry (Demo.after [.get .bin (Demo.P 2), .invalidate (Demo.P 1), .get .bin (Demo.P 2)]).c.log ∧
    Cached (Demo.after [.get .bin (Demo.P 2), .invalidate (Demo.P 1), .get .bin (Demo.P 2)]) 10 0 := by
  refine ⟨Demo.reach _ (by decide), ?_, by unfold Cached; decide⟩
  have hlog : (Demo.after [.get .bin (Demo.P 2), .invalidate (Demo.P 1), .get .bin (Demo.P 2)]).c.log =
      [.built (Demo.P 2) 100, .resolve (Demo.P 2) (Demo.P 0), .built (Demo.P 1) 100,
       .resolve (Demo.P 1) (Demo.P 0), .call (Demo.P 1), .resolve (Demo.P 2) (Demo.P 1), .call (Demo.P 2),
       .invalidate (Demo.P 1), .built (Demo.P 2) 100, .resolve (Demo.P 2) (Demo.P 0),
       .built (Demo.P 1) 100, .built (Demo.P 0) 0, .setDyn (Demo.P 0) 0, .call (Demo.P 0),
       .initDyn (Demo.P 0) (some 0), .resolve (Demo.P 1) (Demo.P 0), .call (Demo.P 1),
       .initDyn (Demo.P 1) (some 1), .resolve (Demo.P 2) (Demo.P 1), .call (Demo.P 2),
       .initDyn (Demo.P 2) (some 2)] := rfl
  rw [hlog]
  simp [noRetry_cons, noRetry_nil, pending_cons, pending_nil, Demo.P]

/-- **C08**, at the level of single builders: under the same hypothesis the recorded uses of a builder
are uses by its most recent build. -/
theorem C08_uses_of_last_build_partial (h : Reachable Y s) (hn : NoRetry s.c.log) {u d : Id}
    (hu : UsesNow s u d) : UsedByLastBuild s.c.log u d := by
  rw [usesNow_eq, h.inv.absDep] at hu
  exact h.logOk.dep_last hn hu

end Daab
