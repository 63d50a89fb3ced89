import Verif.Model

/-! # The doctor's log influences nothing -/

open Std

namespace Daab

variable {σ : Sig}

/-- The same cache with another log. -/
def Cache.withLog (c : Cache σ) (l : List (Event σ)) : Cache σ := { c with log := l }

/-- The same state with another log. -/
def St.withLog (s : St σ) (l : List (Event σ)) : St σ := { s with c := s.c.withLog l }

/-- Result and new state of `f` do not depend on the log, `f` only adds events. -/
def LogFree {α : Type} (f : St σ → St σ × α) : Prop :=
  ∀ s, ∃ new, ∀ l, f (s.withLog l) = ((f s).1.withLog (new ++ l), (f s).2)

/-- The same for functions on the cache. -/
def LogFreeC {α : Type} (f : Cache σ → Cache σ × α) : Prop :=
  ∀ c, ∃ new, ∀ l, f (c.withLog l) = ((f c).1.withLog (new ++ l), (f c).2)

theorem makeKnown_withLog (p : Promise σ) (c : Cache σ) (l : List (Event σ)) :
    makeKnown p (c.withLog l) = (makeKnown p c).withLog l := by
  unfold makeKnown
  simp only [Cache.withLog]
  split <;> rfl

theorem ensureDyn_logFree (Y : Sys σ) (p : Promise σ) : LogFree (ensureDyn Y p) := by
  intro s
  have h1 : ∀ l, (s.withLog l).onCache (makeKnown p) = (s.onCache (makeKnown p)).withLog l := by
    intro l; simp only [St.onCache, St.withLog, makeKnown_withLog]
  unfold ensureDyn
  simp only [h1]
  generalize s.onCache (makeKnown p) = s1
  have h2 : ∀ l, (s1.withLog l).c.dynStates = s1.c.dynStates := fun _ => rfl
  have h3 : ∀ l, (s1.withLog l).w = s1.w := fun _ => rfl
  simp only [h2, h3]
  cases s1.c.dynStates[p.id]? with
  | some d => exact ⟨[], fun l => rfl⟩
  | none =>
    simp only
    rcases Y.init p.b s1.w with ⟨w, _ | d⟩
    · exact ⟨[.initDyn p none], fun l => rfl⟩
    · simp only
      split
      · exact ⟨[.initDyn p (some d)], fun l => rfl⟩
      · exact ⟨[], fun l => rfl⟩

theorem myState_logFree (Y : Sys σ) (p : Promise σ) (f : σ.S → σ.S) : LogFree (myState Y p f) := by
  intro s
  unfold myState
  have h2 : ∀ l, (s.withLog l).c.dynStates = s.c.dynStates := fun _ => rfl
  have h3 : ∀ l, isKnown p.id (s.withLog l).c = isKnown p.id s.c := fun _ => rfl
  simp only [h2, h3]
  cases s.c.dynStates[p.id]? with
  | none => exact ⟨[], fun l => rfl⟩
  | some d =>
    simp only
    split
    · exact ⟨[], fun l => rfl⟩
    · split
      · split
        · exact ⟨[.setDyn p (f d)], fun l => rfl⟩
        · exact ⟨[], fun l => rfl⟩
      · exact ⟨[], fun l => rfl⟩

theorem track_logFree (Y : Sys σ) (u q : Promise σ) : LogFreeC (track Y u q) := by
  intro c
  unfold track
  simp only [makeKnown_withLog]
  generalize makeKnown q c = c1
  have h3 : ∀ l, isKnown u.id (c1.withLog l) = isKnown u.id c1 := fun _ => rfl
  simp only [h3]
  split
  · exact ⟨[], fun l => rfl⟩
  · exact ⟨[.resolve u q], fun l => rfl⟩

theorem runProg_logFree (Y : Sys σ) (g : Getter σ) (hg : ∀ how q, LogFree (g how q)) (p : Promise σ)
    (prog : Prog σ) : LogFree (runProg Y g p prog) := by
  induction prog with
  | ret r => cases r <;> exact fun s => ⟨[], fun l => rfl⟩
  | panic => exact fun s => ⟨[], fun l => rfl⟩
  | resolve how q k ih =>
    intro s
    obtain ⟨n1, h1⟩ := track_logFree Y p q s.c
    have hl : ∀ l, (s.withLog l).live q = s.live q := fun _ => rfl
    have hc : ∀ l, (s.withLog l).c = s.c.withLog l := fun _ => rfl
    simp only [runProg, hl, hc, h1]
    split
    · rcases hx : track Y p q s.c with ⟨c1, _ | pk⟩
      · simp only
        have he : ∀ l, ({ s.withLog l with c := c1.withLog (n1 ++ l) } : St σ) =
          ({ s with c := c1 } : St σ).withLog (n1 ++ l) := fun _ => rfl
        obtain ⟨n2, h2⟩ := hg how q { s with c := c1 }
        simp only [he, h2]
        rcases g how q { s with c := c1 } with ⟨s2, r | pk | _ | _⟩
        · obtain ⟨n3, h3⟩ := ih r s2
          refine ⟨n3 ++ (n2 ++ n1), fun l => ?_⟩
          simp only [h3, List.append_assoc]
        · exact ⟨n2 ++ n1, fun l => by simp only [List.append_assoc]⟩
        · exact ⟨n2 ++ n1, fun l => by simp only [List.append_assoc]⟩
        · exact ⟨n2 ++ n1, fun l => by simp only [List.append_assoc]⟩
      · exact ⟨n1, fun l => rfl⟩
    · exact ⟨[], fun l => rfl⟩
  | myState f k ih =>
    intro s
    obtain ⟨n1, h1⟩ := myState_logFree Y p f s
    simp only [runProg, h1]
    rcases myState Y p f s with ⟨s2, r | pk | _ | _⟩
    · obtain ⟨n3, h3⟩ := ih r s2
      exact ⟨n3 ++ n1, fun l => by simp only [h3, List.append_assoc]⟩
    · exact ⟨n1, fun l => rfl⟩
    · exact ⟨n1, fun l => rfl⟩
    · exact ⟨n1, fun l => rfl⟩
  | world f k ih =>
    intro s
    obtain ⟨n1, h1⟩ := ih s.w { s with w := f s.w }
    exact ⟨n1, fun l => h1 l⟩
  | alloc q k ih =>
    intro s
    have ha : ∀ l, allocB q (s.withLog l) = (allocB q s).map (·.withLog l) := by
      intro l
      unfold allocB
      have h2 : (s.withLog l).heap = s.heap := rfl
      have h3 : (s.withLog l).c.known = s.c.known := rfl
      have h4 : (s.withLog l).born = s.born := rfl
      rw [h2, h3, h4]
      split <;> rfl
    simp only [runProg, ha]
    cases allocB q s with
    | none => exact ⟨[], fun l => rfl⟩
    | some s1 => exact ih s1
  | free a k ih =>
    intro s
    obtain ⟨n1, h1⟩ := ih (freeB a s)
    exact ⟨n1, fun l => h1 l⟩

theorem build_logFree (Y : Sys σ) (g : Getter σ) (hg : ∀ how q, LogFree (g how q)) (p : Promise σ) :
    LogFree (build Y g p) := by
  intro s
  unfold build
  have h1 : ∀ l, (s.withLog l).onCache (makeKnown p) = (s.onCache (makeKnown p)).withLog l := by
    intro l; simp only [St.onCache, St.withLog, makeKnown_withLog]
  have h0 : ∀ l, containsArtifact p.id (s.withLog l).c = containsArtifact p.id s.c := fun _ => rfl
  simp only [h1, h0]
  generalize s.onCache (makeKnown p) = s1
  split
  · exact ⟨[], fun l => rfl⟩
  · obtain ⟨n1, h2⟩ := ensureDyn_logFree Y p s1
    simp only [h2]
    rcases ensureDyn Y p s1 with ⟨s2, d | pk | _ | _⟩
    · simp only
      obtain ⟨n2, h3⟩ := runProg_logFree Y g hg p (Y.code p.b) (s2.onCache (·.emit (.call p)))
      have he : ∀ l, (s2.withLog l).onCache (·.emit (.call p)) =
        (s2.onCache (·.emit (.call p))).withLog (.call p :: l) := fun _ => rfl
      simp only [he, h3]
      rcases runProg Y g p (Y.code p.b) (s2.onCache (·.emit (.call p))) with ⟨s3, (e | v) | pk | _ | _⟩
      · exact ⟨n2 ++ .call p :: n1, fun l => by simp⟩
      · refine ⟨.built p v :: (n2 ++ .call p :: n1), fun l => ?_⟩
        simp [St.onCache, St.withLog, Cache.withLog, Cache.emit]
      · exact ⟨n2 ++ .call p :: n1, fun l => by simp⟩
      · exact ⟨n2 ++ .call p :: n1, fun l => by simp⟩
      · exact ⟨n2 ++ .call p :: n1, fun l => by simp⟩
    · exact ⟨n1, fun l => rfl⟩
    · exact ⟨n1, fun l => rfl⟩
    · exact ⟨n1, fun l => rfl⟩

theorem fresh_withLog (Y : Sys σ) (p : Promise σ) (l : List (Event σ))
    (x : St σ × Res (Except σ.E σ.V)) :
    fresh Y p (x.1.withLog l, x.2) = ((fresh Y p x).1.withLog l, (fresh Y p x).2) := by
  rcases x with ⟨s, (e | v) | pk | _ | _⟩ <;> rfl

theorem getRef_logFree (Y : Sys σ) (bld : BuildFn σ) (hb : ∀ p, LogFree (bld p)) (p : Promise σ) :
    LogFree (getRef Y bld p) := by
  intro s
  obtain ⟨n1, h1⟩ := hb p s
  unfold getRef
  have h2 : ∀ l, lookupRef Y p (s.withLog l).c = lookupRef Y p s.c := fun _ => rfl
  simp only [h2, h1]
  rcases lookupRef Y p s.c with (_ | v) | pk | _ | _
  · exact ⟨n1, fun l => fresh_withLog Y p _ _⟩
  all_goals exact ⟨[], fun l => rfl⟩

theorem getBin_logFree (Y : Sys σ) (bld : BuildFn σ) (hb : ∀ p, LogFree (bld p)) (p : Promise σ) :
    LogFree (getBin Y bld p) := by
  intro s
  obtain ⟨n1, h1⟩ := hb p s
  unfold getBin
  have h2 : ∀ l, lookup Y p (s.withLog l).c = lookup Y p s.c := fun _ => rfl
  simp only [h2, h1]
  rcases lookup Y p s.c with (_ | v) | pk | _ | _
  · exact ⟨n1, fun l => fresh_withLog Y p _ _⟩
  all_goals exact ⟨[], fun l => rfl⟩

theorem getBy_logFree (Y : Sys σ) (bld : BuildFn σ) (hb : ∀ p, LogFree (bld p)) (how : Access)
    (p : Promise σ) : LogFree (getBy Y bld how p) := by
  intro s
  unfold getBy
  have h2 : ∀ l, (s.withLog l).live p = s.live p := fun _ => rfl
  simp only [h2]
  split
  · cases how with
    | bin => exact getBin_logFree Y bld hb p s
    | ref => exact getRef_logFree Y bld hb p s
    | cloned =>
      obtain ⟨n1, h1⟩ := getRef_logFree Y bld hb p s
      unfold getCloned
      simp only [h1]
      rcases getRef Y bld p s with ⟨s', (e | v) | pk | _ | _⟩ <;> exact ⟨n1, fun l => rfl⟩
  · exact ⟨[], fun l => rfl⟩

theorem getA_logFree (Y : Sys σ) (n : Nat) :
    (∀ how p, LogFree (getA Y n how p)) ∧ ∀ p, LogFree (buildN Y n p) := by
  induction n with
  | zero =>
    have h : ∀ p, LogFree (buildN Y 0 p) := fun p s => ⟨[], fun l => rfl⟩
    exact ⟨fun how p => getBy_logFree Y _ h how p, h⟩
  | succ n ih =>
    have h : ∀ p, LogFree (buildN Y (n + 1) p) := fun p => build_logFree Y _ ih.1 p
    exact ⟨fun how p => getBy_logFree Y _ h how p, h⟩

/-! ## Invalidation -/

theorem unlink_withLog (Y : Sys σ) (P : IdSet) (bid : Id) (xs : List Id) (l : List (Event σ)) :
    ∀ c : Cache σ, unlink Y P bid xs (c.withLog l) =
      ((unlink Y P bid xs c).1.withLog l, (unlink Y P bid xs c).2) := by
  induction xs with
  | nil => intro c; rfl
  | cons d xs ih =>
    intro c
    have h1 : (c.withLog l).dependents = c.dependents := rfl
    simp only [unlink, h1]
    split
    · exact ih c
    · cases c.dependents[d]? with
      | none => rfl
      | some set =>
        simp only
        split
        · rfl
        · split
          · exact ih { c with
              dependents := c.dependents.insert d (set.erase bid), leafs := c.leafs.insert d }
          · exact ih { c with dependents := c.dependents.insert d (set.erase bid) }

theorem invLoop_withLog (Y : Sys σ) (ord : HashOrder) (root : Id) (l : List (Event σ)) (n : Nat) :
    ∀ (P : IdSet) (pd : List Id) (c : Cache σ), invLoop Y ord root n P pd (c.withLog l) =
      ((invLoop Y ord root n P pd c).1.withLog l, (invLoop Y ord root n P pd c).2) := by
  induction n with
  | zero => intro P pd c; cases pd <;> rfl
  | succ n ih =>
    intro P pd c
    cases pd with
    | nil => rfl
    | cons bid pd =>
      simp only [invLoop]
      have h1 : popDependents ord ⟨0, root, n⟩ bid pd (c.withLog l) =
          ((popDependents ord ⟨0, root, n⟩ bid pd c).1,
           (popDependents ord ⟨0, root, n⟩ bid pd c).2.withLog l) := by
        have : (c.withLog l).dependents = c.dependents := rfl
        simp only [popDependents, this]
        cases c.dependents[bid]? <;> rfl
      rw [h1]
      simp only
      generalize popDependents ord ⟨0, root, n⟩ bid pd c = r
      have h2 : popDependencies Y ord ⟨1, root, n⟩ (P.insert bid) bid (r.2.withLog l) =
          ((popDependencies Y ord ⟨1, root, n⟩ (P.insert bid) bid r.2).1.withLog l,
           (popDependencies Y ord ⟨1, root, n⟩ (P.insert bid) bid r.2).2) := by
        have : (r.2.withLog l).dependencies = r.2.dependencies := rfl
        simp only [popDependencies, this]
        cases r.2.dependencies[bid]? with
        | none => rfl
        | some set =>
          exact unlink_withLog Y _ _ _ l { r.2 with dependencies := r.2.dependencies.erase bid }
      rw [h2]
      rcases popDependencies Y ord ⟨1, root, n⟩ (P.insert bid) bid r.2 with ⟨c1, _ | k | _⟩
      · exact ih _ _ { c1 with leafs := c1.leafs.insert bid, artifacts := c1.artifacts.erase bid }
      · rfl
      · rfl

theorem invalidateById_withLog (Y : Sys σ) (ord : HashOrder) (a : Id) (l : List (Event σ))
    (c : Cache σ) : invalidateById Y ord a (c.withLog l) =
      ((invalidateById Y ord a c).1.withLog l, (invalidateById Y ord a c).2) :=
  invLoop_withLog Y ord a l _ _ _ c

theorem invEach_withLog (Y : Sys σ) (ord : HashOrder) (l : List (Event σ)) (xs : List Id) :
    ∀ c : Cache σ, invEach Y ord xs (c.withLog l) =
      ((invEach Y ord xs c).1.withLog l, (invEach Y ord xs c).2) := by
  induction xs with
  | nil => intro c; rfl
  | cons a xs ih =>
    intro c
    simp only [invEach, invalidateById_withLog]
    rcases invalidateById Y ord a c with ⟨c1, _ | k | _⟩
    · exact ih c1
    · rfl
    · rfl

theorem invalidateDependents_logFree (Y : Sys σ) (ord : HashOrder) (a : Id) :
    LogFreeC (invalidateDependents Y ord a : Cache σ → _) := by
  intro c
  unfold invalidateDependents
  have h1 : ∀ l, (c.withLog l).dependents = c.dependents := fun _ => rfl
  simp only [h1]
  cases c.dependents[a]? with
  | none => exact ⟨[.mutDeps a], fun l => rfl⟩
  | some set =>
    simp only
    have h2 : ∀ l, ({ c.withLog l with dependents := c.dependents.erase a } : Cache σ) =
      ({ c with dependents := c.dependents.erase a } : Cache σ).withLog l := fun _ => rfl
    simp only [h2, invEach_withLog]
    rcases invEach Y ord (ord.f ⟨2, a, 0⟩ set.toList) { c with dependents := c.dependents.erase a }
      with ⟨c1, _ | k | _⟩
    · exact ⟨[.mutDeps a], fun l => rfl⟩
    · exact ⟨[], fun l => rfl⟩
    · exact ⟨[], fun l => rfl⟩

theorem invalidate_logFree (Y : Sys σ) (ord : HashOrder) (p : Promise σ) :
    LogFreeC (invalidate Y ord p) := by
  intro c
  unfold invalidate
  simp only [invalidateById_withLog]
  rcases invalidateById Y ord p.id c with ⟨c1, _ | k | _⟩
  · exact ⟨[.invalidate p], fun l => rfl⟩
  · exact ⟨[], fun l => rfl⟩
  · exact ⟨[], fun l => rfl⟩

theorem purge_logFree (Y : Sys σ) (ord : HashOrder) (p : Promise σ) : LogFreeC (purge Y ord p) := by
  intro c
  unfold purge
  have h2 : ∀ l, ({ c.withLog l with
      known := c.known.erase p.id, artifacts := c.artifacts.erase p.id,
      dynStates := c.dynStates.erase p.id } : Cache σ).emit (.purged p) =
    (({ c with
      known := c.known.erase p.id, artifacts := c.artifacts.erase p.id,
      dynStates := c.dynStates.erase p.id } : Cache σ).emit (.purged p)).withLog (.purged p :: l) :=
    fun _ => rfl
  have h3 : ∀ l, (c.withLog l).known = c.known ∧ (c.withLog l).artifacts = c.artifacts ∧
    (c.withLog l).dynStates = c.dynStates := fun _ => ⟨rfl, rfl, rfl⟩
  simp only [h3, h2, invalidateById_withLog]
  rcases invalidateById Y ord p.id (({ c with
      known := c.known.erase p.id, artifacts := c.artifacts.erase p.id,
      dynStates := c.dynStates.erase p.id } : Cache σ).emit (.purged p)) with ⟨c1, _ | k | _⟩
  · exact ⟨[.invalidate p, .purged p], fun l => rfl⟩
  · exact ⟨[.purged p], fun l => rfl⟩
  · exact ⟨[.purged p], fun l => rfl⟩

theorem lookupMut_logFree (Y : Sys σ) (ord : HashOrder) (p : Promise σ) :
    LogFreeC (lookupMut Y ord p) := by
  intro c
  obtain ⟨n, h⟩ := invalidateDependents_logFree Y ord p.id c
  unfold lookupMut
  simp only [h]
  rcases invalidateDependents Y ord p.id c with ⟨c1, _ | k | _⟩
  · simp only
    have h3 : ∀ l, containsArtifact p.id (c1.withLog l) = containsArtifact p.id c1 ∧
      isKnown p.id (c1.withLog l) = isKnown p.id c1 ∧ (c1.withLog l).artifacts = c1.artifacts :=
      fun _ => ⟨rfl, rfl, rfl⟩
    simp only [h3]
    split
    · exact ⟨n, fun l => rfl⟩
    · cases c1.artifacts[p.id]? <;> exact ⟨n, fun l => rfl⟩
  · exact ⟨n, fun l => rfl⟩
  · exact ⟨n, fun l => rfl⟩

theorem getMut_logFree (Y : Sys σ) (ord : HashOrder) (bld : BuildFn σ) (hb : ∀ p, LogFree (bld p))
    (p : Promise σ) : LogFree (getMut Y ord bld p) := by
  intro s
  obtain ⟨n, h⟩ := lookupMut_logFree Y ord p s.c
  have hc : ∀ l, (s.withLog l).c = s.c.withLog l := fun _ => rfl
  unfold getMut
  simp only [hc, h]
  rcases lookupMut Y ord p s.c with ⟨c1, (_ | v) | k | _ | _⟩
  · simp only
    obtain ⟨n2, h2⟩ := hb p { s with c := c1 }
    have he : ∀ l, ({ s.withLog l with c := c1.withLog (n ++ l) } : St σ) =
          ({ s with c := c1 } : St σ).withLog (n ++ l) := fun _ => rfl
    simp only [he, h2]
    exact ⟨n2 ++ n, fun l => by rw [fresh_withLog, List.append_assoc]⟩
  · simp only
    obtain ⟨n2, h2⟩ := lookupMut_logFree Y ord p c1
    simp only [h2]
    rcases lookupMut Y ord p c1 with ⟨c2, (_ | v) | k | _ | _⟩ <;>
      exact ⟨n2 ++ n, fun l => by simp only [List.append_assoc]; rfl⟩
  · exact ⟨n, fun l => rfl⟩
  · exact ⟨n, fun l => rfl⟩
  · exact ⟨n, fun l => rfl⟩

theorem dynStateMut_logFree (Y : Sys σ) (ord : HashOrder) (p : Promise σ) (f : σ.S → σ.S) :
    LogFree (dynStateMut Y ord p f) := by
  intro s
  obtain ⟨n, h⟩ := invalidate_logFree Y ord p s.c
  have hc : ∀ l, (s.withLog l).c = s.c.withLog l := fun _ => rfl
  unfold dynStateMut
  simp only [hc, h]
  rcases invalidate Y ord p s.c with ⟨c1, _ | k | _⟩
  · simp only
    obtain ⟨n2, h2⟩ := ensureDyn_logFree Y p { s with c := c1 }
    have he : ∀ l, ({ s.withLog l with c := c1.withLog (n ++ l) } : St σ) =
          ({ s with c := c1 } : St σ).withLog (n ++ l) := fun _ => rfl
    simp only [he, h2]
    rcases ensureDyn Y p { s with c := c1 } with ⟨s2, d | pk | _ | _⟩
    · simp only
      split
      · exact ⟨.setDyn p (f d) :: (n2 ++ n), fun l => by
          simp [St.onCache, St.withLog, Cache.withLog, Cache.emit]⟩
      · exact ⟨n2 ++ n, fun l => by simp only [List.append_assoc]⟩
    all_goals exact ⟨n2 ++ n, fun l => by simp only [List.append_assoc]⟩
  · exact ⟨n, fun l => rfl⟩
  · exact ⟨n, fun l => rfl⟩

theorem collectEach_logFree (Y : Sys σ) (ord : HashOrder) (xs : List Id) :
    LogFreeC (collectEach Y ord xs : Cache σ → _) := by
  induction xs with
  | nil => exact fun c => ⟨[], fun l => rfl⟩
  | cons a xs ih =>
    intro c
    simp only [collectEach, invalidateById_withLog]
    rcases invalidateById Y ord a c with ⟨c1, _ | k | _⟩
    · simp only
      obtain ⟨n, h⟩ := ih ({ c1 with
        dynStates := c1.dynStates.erase a, known := c1.known.erase a,
        leafs := c1.leafs.erase a }.emit (.collect a))
      exact ⟨n ++ [.collect a], fun l => by
        have := h (.collect a :: l)
        rw [List.append_assoc]
        exact this⟩
    · exact ⟨[], fun l => rfl⟩
    · exact ⟨[], fun l => rfl⟩

theorem selectDead_withLog (s : St σ) (l : List (Event σ)) (xs : List Id) :
    selectDead (s.withLog l) xs = selectDead s xs := by
  induction xs with
  | nil => rfl
  | cons a xs ih =>
    have h : (s.withLog l).c.known = s.c.known := rfl
    have h' : ∀ b, isDead (s.withLog l) a b = isDead s a b := fun _ => rfl
    simp only [selectDead, ih, h, h']

/-- One operation. -/
theorem step_logFree (Y : Sys σ) (n : Nat) (ord : HashOrder) (op : Op σ) :
    LogFree (fun s => step Y n ord s op) := by
  have hexec : LogFree (fun s => exec Y n ord s op) := by
    intro s
    have hc : ∀ l, (s.withLog l).c = s.c.withLog l := fun _ => rfl
    cases op with
    | get how p =>
      obtain ⟨m, h⟩ := (getA_logFree Y n).1 how p s
      exact ⟨m, fun l => by simp only [exec, h]⟩
    | getMut p f =>
      obtain ⟨m, h⟩ := getMut_logFree Y ord _ (getA_logFree Y n).2 p s
      simp only [exec, h]
      rcases getMut Y ord (buildN Y n) p s with ⟨s1, (e | v) | k | _ | _⟩
      · exact ⟨m, fun l => rfl⟩
      · simp only [writeArt]
        split
        · exact ⟨.write p.id (f v) :: m, fun l => rfl⟩
        · exact ⟨m, fun l => rfl⟩
      · exact ⟨m, fun l => rfl⟩
      · exact ⟨m, fun l => rfl⟩
      · exact ⟨m, fun l => rfl⟩
    | lookup how p => cases how <;> exact ⟨[], fun l => rfl⟩
    | lookupMut p f =>
      obtain ⟨m, h⟩ := lookupMut_logFree Y ord p s.c
      simp only [exec, hc, h]
      rcases lookupMut Y ord p s.c with ⟨s1, (e | v) | k | _ | _⟩
      · exact ⟨m, fun l => rfl⟩
      · simp only [writeArt]
        split
        · exact ⟨.write p.id (f v) :: m, fun l => rfl⟩
        · exact ⟨m, fun l => rfl⟩
      · exact ⟨m, fun l => rfl⟩
      · exact ⟨m, fun l => rfl⟩
      · exact ⟨m, fun l => rfl⟩
    | dynState p =>
      obtain ⟨m, h⟩ := ensureDyn_logFree Y p s
      exact ⟨m, fun l => by simp only [exec, h]⟩
    | getDynState p => exact ⟨[], fun l => rfl⟩
    | dynStateMut p f =>
      obtain ⟨m, h⟩ := dynStateMut_logFree Y ord p f s
      exact ⟨m, fun l => by simp only [exec, h]⟩
    | isKnown p => exact ⟨[], fun l => rfl⟩
    | numKnown => exact ⟨[], fun l => rfl⟩
    | invalidate p =>
      obtain ⟨m, h⟩ := invalidate_logFree Y ord p s.c
      exact ⟨m, fun l => by simp only [exec, hc, h]; rfl⟩
    | purge p =>
      obtain ⟨m, h⟩ := purge_logFree Y ord p s.c
      exact ⟨m, fun l => by simp only [exec, hc, h]; rfl⟩
    | clearArtifacts => exact ⟨[.clearArtifacts], fun l => rfl⟩
    | clearAll => exact ⟨[.clear], fun l => rfl⟩
    | gc =>
      simp only [exec, garbageCollection, hc, selectDead_withLog]
      have h1 : ∀ l, gcAssertion (s.c.withLog l) = gcAssertion s.c := fun _ => rfl
      have h2 : ∀ l, (s.c.withLog l).leafs = s.c.leafs := fun _ => rfl
      simp only [h1, h2]
      split
      · exact ⟨[], fun l => rfl⟩
      · cases selectDead s (ord.f ⟨3, 0, 0⟩ s.c.leafs.toList) with
        | none => exact ⟨[], fun l => rfl⟩
        | some xs =>
          obtain ⟨m, h⟩ := collectEach_logFree Y ord xs s.c
          exact ⟨m, fun l => by simp only [h]; rfl⟩
    | alloc p =>
      have ha : ∀ l, allocB p (s.withLog l) = (allocB p s).map (·.withLog l) := by
        intro l
        unfold allocB
        have h2 : (s.withLog l).heap = s.heap := rfl
        have h3 : (s.withLog l).c.known = s.c.known := rfl
        have h4 : (s.withLog l).born = s.born := rfl
        rw [h2, h3, h4]
        split <;> rfl
      simp only [exec, ha]
      cases allocB p s <;> exact ⟨[], fun l => rfl⟩
    | free a => exact ⟨[], fun l => rfl⟩
    | world f => exact ⟨[], fun l => rfl⟩
  intro s
  unfold step
  have h2 : ∀ l p, (s.withLog l).live p = s.live p := fun _ _ => rfl
  simp only [h2]
  cases op.promise? with
  | none => exact hexec s
  | some p =>
    simp only
    split
    · exact hexec s
    · exact ⟨[], fun l => rfl⟩

end Daab
