import Verif.Ideal
import Verif.Run
import Verif.Stray
import Verif.Props4

/-! # The cache refines the ideal cache -/

open Std

namespace Daab

variable {σ : Sig} {Y : Sys σ} {s : St σ}

theorem Ideal.ext' {m m' : Ideal σ} (h1 : ∀ a, m.art a = m'.art a) (h2 : ∀ a, m.state a = m'.state a)
    (h3 : ∀ u d, m.uses u d ↔ m'.uses u d) (h4 : ∀ a, m.known a ↔ m'.known a)
    (h5 : ∀ a, m.stray a ↔ m'.stray a) (h6 : ∀ a, m.heap a = m'.heap a) (h7 : m.w = m'.w) : m = m' := by
  cases m; cases m'
  simp only [Ideal.mk.injEq]
  exact ⟨funext h1, funext h2, funext fun u => funext fun d => propext (h3 u d), funext fun a => propext (h4 a),
    funext fun a => propext (h5 a), funext h6, h7⟩

theorem ideal_meet (p : Promise σ) (s : St σ) : ideal (s.onCache (makeKnown p)) = (ideal s).meet p := by
  apply Ideal.ext'
  · intro a; simp [ideal, Ideal.meet, St.onCache, makeKnown_artifacts]
  · intro a; simp [ideal, Ideal.meet, St.onCache, makeKnown_dynStates]
  · intro u d; simp [ideal, Ideal.meet, UsesNow, St.onCache, makeKnown_dependents]
  · intro a
    simp only [ideal, Ideal.meet, Known, mem_getElem, St.onCache, makeKnown_getElem]
    split <;> simp_all
  · intro a
    simp only [ideal, Ideal.meet, mem_getElem, St.onCache, makeKnown_getElem, makeKnown_leafs]
    by_cases h : a = p.id <;> simp [h]
  · intro a; rfl
  · rfl

theorem ideal_use {p q : Promise σ} (hi : Inv Y s) (hl : s.live q = true) :
    ideal (tracked p q s) = (ideal s).use p q := by
  have h0 := ideal_meet q s
  have hk := hi.live_known hl
  have hq : q.id ∈ (s.onCache (makeKnown q)).c.known := (mem_getElem _ _).2 ⟨_, hk⟩
  unfold tracked Ideal.use
  rw [← h0]
  have h1 : (ideal s).uses = (ideal (s.onCache (makeKnown q))).uses := by rw [h0]; rfl
  rw [h1]
  generalize s.onCache (makeKnown q) = s1 at *
  apply Ideal.ext'
  · intro a; rfl
  · intro a; rfl
  · intro u d
    simp only [ideal, usesNow_eq, St.onCache, addEdge_dep]
  · intro a; rfl
  · intro a
    simp only [ideal, St.onCache, addEdge, Cache.emit]
    constructor
    · rintro ⟨h1, h2⟩; exact ⟨by grind, h2⟩
    · rintro ⟨h1, h2⟩
      refine ⟨?_, h2⟩
      have : a ≠ q.id := by rintro rfl; exact h2 hq
      grind
  · intro a; rfl
  · rfl

theorem ideal_emit (e : Event σ) (s : St σ) : ideal (s.onCache (·.emit e)) = ideal s := rfl

theorem ideal_setState (p : Promise σ) (d : σ.S) (s : St σ) (e : Event σ) :
    ideal { s with c := { s.c with dynStates := s.c.dynStates.insert p.id d }.emit e } = (ideal s).setState p d := by
  apply Ideal.ext'
  · intro a; rfl
  · intro a; simp only [ideal, Ideal.setState, Cache.emit]; grind
  · intro u d; rfl
  · intro a; rfl
  · intro a; rfl
  · intro a; rfl
  · rfl

theorem ideal_setArt (p : Promise σ) (v : σ.V) (s : St σ) (e : Event σ) :
    ideal { s with c := { s.c with artifacts := s.c.artifacts.insert p.id v }.emit e } = (ideal s).setArt p v := by
  apply Ideal.ext'
  · intro a; simp only [ideal, Ideal.setArt, Cache.emit]; grind
  · intro a; rfl
  · intro u d; rfl
  · intro a; rfl
  · intro a; rfl
  · intro a; rfl
  · rfl

theorem ideal_alloc {q : Promise σ} {s s' : St σ} (h : allocB q s = some s') :
    ideal s' = { ideal s with heap := fun a => if a = q.id then some q.b else (ideal s).heap a } := by
  unfold allocB at h
  split at h <;> cases h
  apply Ideal.ext' <;> intros <;> first | rfl | skip
  simp only [ideal]; grind

theorem ideal_free (b : Id) (s : St σ) :
    ideal (freeB b s) = { ideal s with heap := fun a => if a = b then none else (ideal s).heap a } := by
  apply Ideal.ext' <;> intros <;> first | rfl | skip
  simp only [ideal, freeB]; grind

/-- What a computation of the model does, seen ideally. -/
def seenAs {α : Type} (x : St σ × Res α) : Ideal σ × Res α := (ideal x.1, x.2)

theorem ensureDyn_ideal (hi : Inv Y s) {p : Promise σ} (hl : s.live p = true)
    (hs : (ensureDyn Y p s).2 ≠ .stuck) : Ideal.getState Y p (ideal s) = seenAs (ensureDyn Y p s) := by
  have hi1 := hi.micro (.known p hl)
  have hk : (s.onCache (makeKnown p)).c.known[p.id]? = some p.b := hi.live_known hl
  have hst : (ideal s).state p.id = (s.onCache (makeKnown p)).c.dynStates[p.id]? := by
    simp [ideal, St.onCache, makeKnown_dynStates]
  have hw : (ideal s).w = (s.onCache (makeKnown p)).w := rfl
  unfold Ideal.getState
  unfold ensureDyn at hs ⊢
  simp only [hst, hw, ← ideal_meet] at hs ⊢
  generalize s.onCache (makeKnown p) = s1 at *
  cases hd : s1.c.dynStates[p.id]? with
  | some d =>
    simp only [hd, hi1.dynTy _ _ _ hd hk, if_true] at hs ⊢
    rfl
  | none =>
    simp only [hd] at hs ⊢
    cases hin : Y.init p.b s1.w with
    | mk w o =>
      cases o with
      | none => rfl
      | some d =>
        simp only [hin] at hs ⊢
        split at hs
        · next ht =>
          rw [if_pos ht]
          simp only [seenAs]
          rw [show ({ ideal s1 with w := w } : Ideal σ) = ideal { s1 with w := w } from rfl, ← ideal_setState]
        · exact absurd rfl hs

/-- The ideal getter does what the getter of the cache does. -/
def GetIdeal (Y : Sys σ) (g : Getter σ) (G : Access → Promise σ → Ideal σ → Ideal σ × Res (Except σ.E σ.V)) : Prop :=
  ∀ how p s, Inv Y s → (g how p s).2 ≠ .stuck → G how p (ideal s) = seenAs (g how p s)

theorem runProg_ideal {g : Getter σ} {G : Access → Promise σ → Ideal σ → Ideal σ × Res (Except σ.E σ.V)}
    (hg : GetOk Y g) (hG : GetIdeal Y g G) {p : Promise σ} (prog : Prog σ) (h : Running Y p s)
    (hs : (runProg Y g p prog s).2 ≠ .stuck) :
    Ideal.run G p prog (ideal s) = seenAs (runProg Y g p prog s) := by
  induction prog generalizing s with
  | ret r =>
    cases r with
    | error e => rfl
    | ok v =>
      simp only [runProg] at hs ⊢
      split at hs
      · next ht => rw [if_pos ht]; rfl
      · exact absurd rfl hs
  | panic => rfl
  | resolve how q k ih =>
    cases hl : s.live q with
    | false => rw [runProg_resolve_dead hl] at hs; exact absurd rfl hs
    | true =>
      rw [runProg_resolve h hl] at hs ⊢
      have h1 := h.micros (h.tracked hl)
      have hx := hG how q (tracked p q s) h1.inv
      have hr := hg.ran how q (tracked p q s) h1.inv
      simp only [Ideal.run]
      rw [← ideal_use h.inv hl]
      generalize g how q (tracked p q s) = x at hs hx hr ⊢
      obtain ⟨s2, r⟩ := x
      cases r with
      | val r =>
        rw [hx nofun]
        exact ih r (h1.micros hr.micros) hs
      | panic k => rw [hx nofun]; rfl
      | stuck => exact absurd rfl hs
      | overflow => rw [hx nofun]; rfl
  | myState f k ih =>
    obtain ⟨d, hd, ⟨_, he⟩ | ⟨hm, he⟩⟩ := runProg_myState_cases h g f k
    · rw [he] at hs; exact absurd rfl hs
    · rw [he] at hs ⊢
      simp only [Ideal.run]
      rw [show (ideal s).state p.id = some d from hd]
      simp only
      rw [← ideal_setState p (f d) s (.setDyn p (f d))]
      exact ih d (h.micro hm) hs
  | world f k ih =>
    simp only [runProg] at hs ⊢
    exact ih s.w (h.micro (.world _)) hs
  | alloc q k ih =>
    simp only [runProg] at hs ⊢
    cases ha : allocB q s with
    | none => rw [ha] at hs; exact absurd rfl hs
    | some s1 =>
      simp only [ha] at hs ⊢
      simp only [Ideal.run]
      rw [← ideal_alloc ha]
      exact ih (h.micro (.alloc q ha)) hs
  | free a k ih =>
    simp only [runProg] at hs ⊢
    simp only [Ideal.run]
    rw [← ideal_free]
    exact ih (h.micro (.free a)) hs

theorem getA_ideal (n : Nat) : GetIdeal Y (getA Y n) (Ideal.get Y n) := by
  induction n with
  | zero =>
    intro how p s hi hs
    unfold Ideal.get
    cases hl : s.live p with
    | false => rw [getA_dead 0 how hl] at hs; exact absurd rfl hs
    | true =>
      cases ha : s.c.artifacts[p.id]? with
      | some v =>
        rw [getA_hit 0 how hi hl ha]
        simp only [ideal, ha]
        rfl
      | none =>
        rw [getA_miss 0 how hi hl ha]
        simp only [ideal, ha]
        rfl
  | succ n ih =>
    intro how p s hi hs
    unfold Ideal.get
    cases hl : s.live p with
    | false => rw [getA_dead _ how hl] at hs; exact absurd rfl hs
    | true =>
      cases ha : s.c.artifacts[p.id]? with
      | some v =>
        rw [getA_hit _ how hi hl ha]
        rw [show (ideal s).art p.id = some v from ha]
        rfl
      | none =>
        rw [getA_miss _ how hi hl ha] at hs ⊢
        rw [show (ideal s).art p.id = none from ha]
        simp only
        rw [show buildN Y (n + 1) = build Y (getA Y n) from rfl] at hs ⊢
        rcases build_cases (getA Y n) hi hl ha with ⟨s1, e1, e2⟩ | ⟨s1, e1, e2⟩ | ⟨s1, d, e1, e2⟩
        · rw [ensureDyn_ideal hi hl (by rw [e1]; nofun), e1, e2]; rfl
        · rw [e2] at hs; exact absurd rfl hs
        · rw [ensureDyn_ideal hi hl (by rw [e1]; nofun), e1]
          rw [e2] at hs ⊢
          obtain ⟨hr, _⟩ := ensureDyn_running hi hl ha e1
          have hx := runProg_ideal (getA_ok Y n).1 ih (Y.code p.b) hr
          rw [show ideal (entered p s1) = ideal s1 from rfl] at hx
          simp only [seenAs, Ideal.bind] at hx ⊢
          generalize runProg Y (getA Y n) p (Y.code p.b) (entered p s1) = y at hx hs ⊢
          obtain ⟨s2, r⟩ := y
          rcases r with (e | v) | k | _ | _
          · rw [hx nofun]; rfl
          · rw [hx nofun]
            simp only [finish]
            rw [← ideal_setArt p v s2 (.built p v)]
            rfl
          · rw [hx nofun]; rfl
          · exact absurd rfl hs
          · rw [hx nofun]; rfl

/-! ## Forgetting -/

theorem option_ext_iff {α : Type} {o o' : Option α} (h : ∀ v, o = some v ↔ o' = some v) : o = o' := by
  ext v; exact h v

theorem ideal_invalidated (hi : Inv Y s) {p : Promise σ} {c' : Cache σ}
    (hd : Dropped (Hit (Dep s.c) p.id) s.c c') (e : Event σ) :
    ideal { s with c := c'.emit e } = (ideal s).invalidate p := by
  have hu : (ideal s).uses = Dep s.c := usesNow_eq s
  have hst := Dropped.addStray hi hd
  unfold Ideal.invalidate
  rw [hu]
  apply Ideal.ext'
  · intro a
    simp only [ideal, Cache.emit, Ideal.strays, Ideal.drop]
    split
    · next h => exact hd.art_none a h
    · next h => exact hd.art_keep a h
  · intro a; simp only [ideal, Cache.emit, Ideal.strays, Ideal.drop, hd.dynStates]
  · intro u d
    simp only [ideal, Ideal.strays, Ideal.drop, usesNow_eq]
    exact hd.dep u d
  · intro a; simp only [ideal, Known, Cache.emit, Ideal.strays, Ideal.drop, hd.known]
  · intro a
    have := hst.iff a
    simp only [StrayLeaf] at this
    simp only [ideal, Known, Cache.emit, Ideal.strays, Ideal.drop]
    rw [this, hst.1]
    tauto
  · intro a; rfl
  · rfl

theorem ideal_purged (hi : Inv Y s) (ord : HashOrder) (p : Promise σ) :
    ideal { s with c := (purge Y ord p s.c).1 } = (ideal s).purge p ∧ (purge Y ord p s.c).2 = .done := by
  obtain ⟨c', cF, he, hd, rfl⟩ := purge_spec hi ord p
  rw [he]
  refine ⟨?_, rfl⟩
  have hu : (ideal s).uses = Dep s.c := usesNow_eq s
  have hst := Dropped.addStray hi hd
  unfold Ideal.purge Ideal.invalidate
  simp only [hu]
  apply Ideal.ext'
  · intro a
    simp only [ideal, Ideal.strays, Ideal.drop]
    split
    · next h => exact hd.art_none a h
    · next h => exact hd.art_keep a h
  · intro a; simp only [ideal, Ideal.strays, Ideal.drop]; grind
  · intro u d
    simp only [ideal, Ideal.strays, Ideal.drop, usesNow_eq]
    exact hd.dep u d
  · intro a; simp only [ideal, Known, Ideal.strays, Ideal.drop]; grind
  · intro a
    simp only [ideal, Known, Ideal.strays, Ideal.drop]
    by_cases ha : a = p.id
    · subst ha
      have : p.id ∈ c'.leafs := (hd.leafs _).2 (.inr (.inl Relation.ReflTransGen.refl))
      simp [this]
    · have h1 : a ∈ s.c.known.erase p.id ↔ a ∈ s.c.known := by grind
      have h2 := hst.2 a
      rw [h1]
      simp only [ha, false_and, or_false, false_or] at h2 ⊢
      constructor
      · rintro ⟨g1, g2⟩; exact ⟨(h2 g2).1 g1, g2⟩
      · rintro ⟨g1, g2⟩; exact ⟨(h2 g2).2 g1, g2⟩
  · intro a; rfl
  · rfl

theorem ideal_mutDeps (hi : Inv Y s) (ord : HashOrder) (p : Promise σ) :
    (∃ c', invalidateDependents Y ord p.id s.c = (c', .panic .noCounterpart) ∧
      Ideal.mutDeps p (ideal s) = (ideal s, .panic .noCounterpart)) ∨
    ∃ c', invalidateDependents Y ord p.id s.c = (c', .done) ∧ Inv Y { s with c := c' } ∧
      Ideal.mutDeps p (ideal s) = (ideal { s with c := c' }, .val ()) := by
  have hu : (ideal s).uses = Dep s.c := usesNow_eq s
  rcases hi.invalidateDependents ord p.id with ⟨c', he, hx⟩ | ⟨c', he, hall, hinv, _, hk, hdy, hart, hdep, _⟩
  · refine .inl ⟨c', he, ?_⟩
    unfold Ideal.mutDeps
    rw [hu, if_pos hx]
  · refine .inr ⟨c', he, hinv, ?_⟩
    have hst := invalidateDependents_addStray hi he
    unfold Ideal.mutDeps
    rw [hu, if_neg (by rintro ⟨x, h1, h2⟩; exact h1 (hall x h2))]
    simp only [Prod.mk.injEq, and_true]
    apply Ideal.ext'
    · intro a
      apply option_ext_iff
      intro v
      simp only [ideal, Ideal.strays, Ideal.drop]
      rw [hart]
      split
      · next h => simp [h]
      · next h => simp [h]
    · intro a; simp only [ideal, Ideal.strays, Ideal.drop, hdy]
    · intro u d
      simp only [ideal, Ideal.strays, Ideal.drop, usesNow_eq]
      exact (hdep u d).symm
    · intro a; simp only [ideal, Known, Ideal.strays, Ideal.drop, hk]
    · intro a
      have := hst.iff a
      simp only [StrayLeaf] at this
      simp only [ideal, Known, Ideal.strays, Ideal.drop]
      rw [this, hst.1]
      tauto
    · intro a; rfl
    · rfl

theorem ideal_mutDeps_again (hi : Inv Y s) (ord : HashOrder) {p : Promise σ} (hno : ∀ x, ¬ Dep s.c x p.id)
    (hk : p.id ∈ s.c.known) {c' : Cache σ} (he : invalidateDependents Y ord p.id s.c = (c', .done)) :
    ideal { s with c := c' } = ideal s := by
  have hu : (ideal s).uses = Dep s.c := usesNow_eq s
  rcases ideal_mutDeps hi ord p with ⟨c1, e1, _⟩ | ⟨c1, e1, _, e2⟩
  · rw [he] at e1; cases e1
  · rw [he] at e1
    cases e1
    have hH : ∀ x, ¬ StrictHit (Dep s.c) p.id x := by
      intro x hx
      obtain ⟨y, _, hy⟩ := Relation.TransGen.tail'_iff.1 hx
      exact hno y hy
    unfold Ideal.mutDeps at e2
    rw [hu, if_neg (by rintro ⟨x, _, h2⟩; exact hno x h2)] at e2
    simp only [Prod.mk.injEq, and_true] at e2
    rw [← e2]
    apply Ideal.ext'
    · intro a; simp [Ideal.strays, Ideal.drop, hH]
    · intro a; rfl
    · intro u d; simp [Ideal.strays, Ideal.drop, hH]
    · intro a; rfl
    · intro a
      simp only [Ideal.strays, Ideal.drop]
      constructor
      · rintro (g | ⟨rfl, g⟩)
        · exact g
        · exact absurd hk g
      · exact .inl
    · intro a; rfl
    · rfl

theorem ideal_known_count (s : St σ) : Set.ncard { a | (ideal s).known a } = numKnown s.c := by
  have h1 : { a | (ideal s).known a } = ((s.c.known.keys.toFinset : Finset Id) : Set Id) := by
    ext a
    simp [ideal, Known]
  rw [h1, Set.ncard_coe_finset, List.toFinset_card_of_nodup]
  · exact ExtTreeMap.length_keys
  · have := s.c.known.distinct_keys
    exact this.imp fun h e => by subst e; simp at h

open Classical in
theorem ideal_gc (h : Reachable Y s) (n : Nat) (ord : HashOrder) :
    Ideal.step Y n (ideal s) .gc = seenAs (step Y n ord s .gc) := by
  simp only [Ideal.step]
  rcases step_gc h n ord with ⟨e, hx⟩ | ⟨hno, c', e, hsw, _⟩
  · rw [if_pos (show ∃ a, (ideal s).stray a from hx), e]; rfl
  · rw [if_neg (show ¬ ∃ a, (ideal s).stray a by rintro ⟨a, h1, h2⟩; exact h2 (hno a h1))]
    have hc := C20_gc_collects h e
    have hG : ∀ a, (Known s a ∧ Dead s a ∧ ∀ u, ¬ UsesNow s u a) ↔ (ideal s).garbage a := by
      intro a
      simp only [Ideal.garbage, ideal, dead_iff]
    simp only [hG] at hc
    obtain ⟨c1, c2, c3, c4⟩ := hc
    have hst := exec_stray h.inv n ord .gc (by intro p hp; cases hp)
    have e' : exec Y n ord s .gc = ({ s with c := c' }, .val .unit) := e
    rw [e] at *
    rw [e'] at hst
    simp only [seenAs, Prod.mk.injEq, and_true]
    apply Ideal.ext'
    · intro a
      apply option_ext_iff
      intro v
      have := c2 a v
      simp only [Cached] at this
      show (if (ideal s).garbage a then none else s.c.artifacts[a]?) = some v ↔ c'.artifacts[a]? = some v
      rw [this]
      by_cases hg : (ideal s).garbage a <;> simp [hg]
    · intro a
      apply option_ext_iff
      intro v
      have := c3 a v
      simp only [HasState] at this
      show (if (ideal s).garbage a then none else s.c.dynStates[a]?) = some v ↔ c'.dynStates[a]? = some v
      rw [this]
      by_cases hg : (ideal s).garbage a <;> simp [hg]
    · intro u d; exact (c4 u d).symm
    · intro a; exact (c1 a).symm
    · intro a
      have h1 := hst trivial a
      simp only [StrayLeaf] at h1
      simp only [ideal, Ideal.sweep, Ideal.drop]
      rw [h1]
      constructor
      · rintro ⟨g1, g2⟩; exact absurd (hno a g1) g2
      · rintro ⟨_, _, g | g⟩
        · simp [Op.strays] at g
        · exact g
    · intro a; rfl
    · rfl

theorem res_cases {α : Type} (r : Res α) (h : r ≠ .stuck) : (∃ a, r = .val a) ∨ (∃ k, r = .panic k) ∨ r = .overflow := by
  cases r with
  | val a => exact .inl ⟨a, rfl⟩
  | panic k => exact .inr (.inl ⟨k, rfl⟩)
  | stuck => exact absurd rfl h
  | overflow => exact .inr (.inr rfl)

/-- Every operation is one of the ideal cache. -/
theorem exec_ideal (h : Reachable Y s) (n : Nat) (ord : HashOrder) (op : Op σ)
    (hl : ∀ p, op.promise? = some p → s.live p = true) (hs : (exec Y n ord s op).2 ≠ .stuck) :
    (Ideal.step Y n (ideal s) op).2 = (exec Y n ord s op).2 ∧
    ((exec Y n ord s op).2 ≠ .panic .noCounterpart →
      (Ideal.step Y n (ideal s) op).1 = ideal (exec Y n ord s op).1) := by
  have hi := h.inv
  have full : Ideal.step Y n (ideal s) op = seenAs (exec Y n ord s op) →
      (Ideal.step Y n (ideal s) op).2 = (exec Y n ord s op).2 ∧
      ((exec Y n ord s op).2 ≠ .panic .noCounterpart →
        (Ideal.step Y n (ideal s) op).1 = ideal (exec Y n ord s op).1) := by
    intro e; rw [e]; exact ⟨rfl, fun _ => rfl⟩
  cases op with
  | get how p =>
    apply full
    simp only [exec, Ideal.step] at hs ⊢
    have hx := getA_ideal (Y := Y) n how p s hi
    generalize getA Y n how p s = x at hx hs ⊢
    obtain ⟨s1, r⟩ := x
    rw [hx (by rintro rfl; exact hs rfl)]
    cases r <;> rfl
  | getMut p f =>
    have hl := hl p rfl
    simp only [exec] at hs ⊢
    rcases ideal_mutDeps hi ord p with ⟨c', e1, e2⟩ | ⟨c', e1, hinv, e2⟩
    · rcases getMut_spec hi n ord hl with ⟨c1, he, _⟩ | ⟨c1, h1, _⟩
      · rw [he]
        simp only [Ideal.step, e2]
        exact ⟨rfl, fun h => absurd rfl h⟩
      · rw [e1] at h1; cases h1
    · rcases getMut_spec hi n ord hl with ⟨c1, he, x, hx1, hx2⟩ | ⟨c1, h1, h2⟩
      · rcases hi.invalidateDependents ord p.id with ⟨c2, he', _⟩ | ⟨c2, _, hall, _⟩
        · rw [e1] at he'; cases he'
        · exact absurd (hall x hx2) hx1
      · rw [e1] at h1
        cases h1
        rcases h2 with ⟨c2, v, g1, g2, g3, g4, he⟩ | ⟨g1, he⟩
        · apply full
          have hno : ∀ x, ¬ Dep c' x p.id := by
            rcases hi.invalidateDependents ord p.id with ⟨c3, he', _⟩ | ⟨c3, he', _, _, hno, _⟩
            · rw [e1] at he'; cases he'
            · rw [e1] at he'; cases he'; exact hno
          have hk : p.id ∈ c'.known :=
            hinv.dynKnown _ (hinv.artDyn _ (ExtTreeMap.mem_iff_isSome_getElem?.2 (by rw [g1]; rfl)))
          have h2 := ideal_mutDeps_again hinv ord hno hk g2
          simp only [exec, he] at hs ⊢
          have hg : Ideal.get Y n .bin p (ideal { s with c := c' }) = (ideal { s with c := c' }, .val (.ok v)) := by
            have : (ideal { s with c := c' }).art p.id = some v := g1
            unfold Ideal.get
            rw [this]
            rfl
          simp only [Ideal.step, e2, Ideal.bind, hg]
          rw [← h2]
          unfold writeArt at hs ⊢
          split at hs
          · next c3 hw =>
            split at hw
            · next ht =>
              cases hw
              simp only [seenAs]
              rw [← ideal_setArt p (f v) { s with c := c2 } (.write p.id (f v))]
            · cases hw
          · exact absurd rfl hs
        · apply full
          have hx := getA_ideal (Y := Y) n .bin p _ hinv
          rw [getA_miss n .bin hinv hl g1] at hx
          simp only [exec, he] at hs ⊢
          simp only [Ideal.step, e2, Ideal.bind]
          have hsr : ∀ r, seenRes Y .bin r = r := by
            intro r; rcases r with (_ | _) | _ | _ | _ <;> rfl
          rw [hsr] at hx
          generalize buildN Y n p { s with c := c' } = x at hx hs ⊢
          obtain ⟨s1, r⟩ := x
          rcases r with (e | v) | k | _ | _
          · rw [hx nofun]; rfl
          · rw [hx nofun]
            simp only [seenAs] at hs ⊢
            unfold writeArt at hs ⊢
            split at hs
            · next c3 hw =>
              split at hw
              · next ht =>
                cases hw
                simp only
                rw [← ideal_setArt p (f v) s1 (.write p.id (f v))]
              · cases hw
            · exact absurd rfl hs
          · rw [hx nofun]; rfl
          · exact absurd rfl hs
          · rw [hx nofun]; rfl
  | lookup how p =>
    apply full
    simp only [exec, Ideal.step, lookupBy_eq hi how (hl p rfl)]
    rfl
  | lookupMut p f =>
    have hl := hl p rfl
    simp only [exec] at hs ⊢
    rcases ideal_mutDeps hi ord p with ⟨c', e1, e2⟩ | ⟨c', e1, hinv, e2⟩
    · rcases lookupMut_spec hi ord hl with ⟨c1, he, _⟩ | ⟨c1, he, h1⟩
      · rw [he]
        simp only [Ideal.step, e2]
        exact ⟨rfl, fun h => absurd rfl h⟩
      · rw [e1] at h1; cases h1
    · apply full
      rcases lookupMut_spec hi ord hl with ⟨c1, he, x, hx1, hx2⟩ | ⟨c1, he, h1⟩
      · rcases hi.invalidateDependents ord p.id with ⟨c2, he', _⟩ | ⟨c2, _, hall, _⟩
        · rw [e1] at he'; cases he'
        · exact absurd (hall x hx2) hx1
      · rw [e1] at h1
        cases h1
        simp only [exec, he] at hs ⊢
        simp only [Ideal.step, e2, Ideal.bind]
        have hart : (ideal { s with c := c' }).art p.id = c'.artifacts[p.id]? := rfl
        rw [hart]
        cases ha : c'.artifacts[p.id]? with
        | none => rfl
        | some v =>
          simp only [ha] at hs ⊢
          unfold writeArt at hs ⊢
          split at hs
          · next c3 hw =>
            split at hw
            · next ht =>
              cases hw
              simp only [seenAs]
              rw [← ideal_setArt p (f v) { s with c := c' } (.write p.id (f v))]
            · cases hw
          · exact absurd rfl hs
  | dynState p =>
    apply full
    simp only [exec, Ideal.step] at hs ⊢
    have hx := ensureDyn_ideal hi (hl p rfl)
    generalize ensureDyn Y p s = x at hx hs ⊢
    obtain ⟨s1, r⟩ := x
    rw [hx (by rintro rfl; exact hs rfl)]
    cases r <;> rfl
  | getDynState p =>
    apply full
    have := (C18_lookups_pure h (hl p rfl) n ord).2.1
    rw [step_live rfl (hl p rfl)] at this
    rw [this]
    rfl
  | dynStateMut p f =>
    apply full
    have hl := hl p rfl
    obtain ⟨c', he, hd⟩ := invalidate_spec hi ord p
    have hinv := hi.invalidated hd
    simp only [exec, dynStateMut, he, Ideal.step] at hs ⊢
    have hx := ensureDyn_ideal hinv (p := p) hl
    rw [ideal_invalidated hi hd] at hx
    generalize ensureDyn Y p { s with c := c'.emit (.invalidate p) } = x at hx hs ⊢
    obtain ⟨s1, r⟩ := x
    cases r with
    | val d =>
      rw [hx nofun]
      simp only [seenAs, Ideal.bind] at hs ⊢
      split at hs
      · next ht =>
        rw [if_pos ht]
        simp only [St.onCache, Res.map]
        rw [← ideal_setState p (f d) s1 (.setDyn p (f d))]
      · exact absurd rfl hs
    | panic k => rw [hx nofun]; rfl
    | stuck => exact absurd rfl hs
    | overflow => rw [hx nofun]; rfl
  | isKnown p =>
    apply full
    simp only [exec, Ideal.step, seenAs, Prod.mk.injEq, Res.val.injEq, Ans.bool.injEq, true_and]
    rw [Bool.eq_iff_iff]
    simp only [ideal, Known, isKnown, ExtTreeMap.contains_iff_mem]
    exact @decide_eq_true_iff _ (_)
  | numKnown =>
    apply full
    simp only [exec, Ideal.step, seenAs, ideal_known_count]
  | invalidate p =>
    apply full
    obtain ⟨c', he, hd⟩ := invalidate_spec hi ord p
    simp only [exec, he, Ideal.step, seenAs, ideal_invalidated hi hd]
    rfl
  | purge p =>
    apply full
    obtain ⟨h1, h2⟩ := ideal_purged hi ord p
    simp only [exec, Ideal.step, seenAs, h1, h2]
    rfl
  | clearArtifacts =>
    apply full
    simp only [exec, Ideal.step, seenAs, Prod.mk.injEq, and_true]
    apply Ideal.ext'
    · intro a; simp [ideal, Ideal.drop, St.onCache, clearArtifacts, Cache.emit]
    · intro a; rfl
    · intro u d; simp [ideal, Ideal.drop, UsesNow, St.onCache, clearArtifacts, Cache.emit]
    · intro a; rfl
    · intro a
      simp only [ideal, Ideal.drop, St.onCache, clearArtifacts, Cache.emit, mem_foldl_insert, ExtTreeMap.mem_keys]
      tauto
    · intro a; rfl
    · rfl
  | clearAll =>
    apply full
    simp only [exec, Ideal.step, seenAs, Prod.mk.injEq, and_true]
    apply Ideal.ext'
    · intro a; simp [ideal, Ideal.empty, St.onCache, clearAll, Cache.emit]
    · intro a; simp [ideal, Ideal.empty, St.onCache, clearAll, Cache.emit]
    · intro u d; simp [ideal, Ideal.empty, UsesNow, St.onCache, clearAll, Cache.emit]
    · intro a; simp [ideal, Ideal.empty, Known, St.onCache, clearAll, Cache.emit]
    · intro a; simp [ideal, Ideal.empty, St.onCache, clearAll, Cache.emit]
    · intro a; rfl
    · rfl
  | gc => exact full (ideal_gc h n ord)
  | alloc q =>
    apply full
    simp only [exec] at hs ⊢
    cases ha : allocB q s with
    | none => rw [ha] at hs; exact absurd rfl hs
    | some s1 => simp only [Ideal.step, seenAs, ideal_alloc ha]
  | free b =>
    apply full
    simp only [exec, Ideal.step, seenAs, ideal_free]
  | world f =>
    apply full
    rfl

end Daab
