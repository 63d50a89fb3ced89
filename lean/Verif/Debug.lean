import Verif.Step
import Verif.Hooks

/-!
# Debug assertions do nothing but panic

For every function of the model: compiled without debug assertions it does the same, unless with them a debug
assertion fails.  No invariant is needed for that.
-/

open Std

namespace Daab

variable {σ : Sig} {Y : Sys σ} {s : St σ}

/-- The same builders, compiled in another profile: with or without debug assertions. -/
def Sys.withDebug (Y : Sys σ) (d : Bool) : Sys σ := { Y with debug := d }

/-- The panics of debug assertions. -/
def Panic.isDebug : Panic → Bool
  | .trackUnknown | .artUnknown | .buildCached | .dynUnknown | .notFound | .gcAssert => true
  | _ => false

/-- `y` is `x`, or `x` is the panic of a debug assertion. -/
def SameOrDebug {α : Type} (x y : St σ × Res α) : Prop := y = x ∨ ∃ k, k.isDebug = true ∧ x.2 = .panic k

/-- The same for internal loops. -/
def SameOrDebugL (x y : Cache σ × LoopEnd) : Prop := y = x ∨ ∃ k, k.isDebug = true ∧ x.2 = .panic k

local notation "R" => Sys.withDebug Y false

theorem unlink_debug (processed : IdSet) (bid : Id) (l : List Id) (c : Cache σ) :
    SameOrDebugL (unlink Y processed bid l c) (unlink R processed bid l c) := by
  induction l generalizing c with
  | nil => exact .inl rfl
  | cons d l ih =>
    simp only [unlink]
    split
    · exact ih c
    · split
      · exact .inl rfl
      · next set _ =>
        simp only [Sys.withDebug, Bool.false_and, Bool.false_eq_true, if_false]
        split
        · exact .inr ⟨.notFound, rfl, rfl⟩
        · exact ih _

theorem popDependencies_debug (ord : HashOrder) (i : IterPoint) (processed : IdSet) (bid : Id) (c : Cache σ) :
    SameOrDebugL (popDependencies Y ord i processed bid c) (popDependencies R ord i processed bid c) := by
  unfold popDependencies
  split
  · exact unlink_debug ..
  · exact .inl rfl

theorem invLoop_debug (ord : HashOrder) (root : Id) (n : Nat) (processed : IdSet) (pending : List Id) (c : Cache σ) :
    SameOrDebugL (invLoop Y ord root n processed pending c) (invLoop R ord root n processed pending c) := by
  induction n generalizing processed pending c with
  | zero => cases pending <;> exact .inl rfl
  | succ n ih =>
    cases pending with
    | nil => exact .inl rfl
    | cons bid pending =>
      simp only [invLoop]
      rcases popDependencies_debug (Y := Y) ord ⟨1, root, n⟩ (processed.insert bid) bid
        (popDependents ord ⟨0, root, n⟩ bid pending c).2 with h | ⟨k, hk, h⟩
      · rw [h]
        split
        · exact ih ..
        · exact .inl rfl
      · generalize popDependencies Y ord ⟨1, root, n⟩ (processed.insert bid) bid
          (popDependents ord ⟨0, root, n⟩ bid pending c).2 = x at h ⊢
        obtain ⟨c1, e⟩ := x
        cases h
        exact .inr ⟨k, hk, rfl⟩

theorem invalidateById_debug (ord : HashOrder) (a : Id) (c : Cache σ) :
    SameOrDebugL (invalidateById Y ord a c) (invalidateById R ord a c) := invLoop_debug ..

/-- Running on after a loop. -/
theorem SameOrDebugL.bind {x y : Cache σ × LoopEnd} (h : SameOrDebugL x y)
    {f g : Cache σ × LoopEnd → Cache σ × LoopEnd} (hf : ∀ c k, f (c, .panic k) = (c, .panic k))
    (hfg : SameOrDebugL (f x) (g x)) : SameOrDebugL (f x) (g y) := by
  rcases h with rfl | ⟨k, hk, h⟩
  · exact hfg
  · obtain ⟨c, e⟩ := x
    cases h
    rw [hf]
    exact .inr ⟨k, hk, rfl⟩

theorem invEach_debug (ord : HashOrder) (l : List Id) (c : Cache σ) :
    SameOrDebugL (invEach Y ord l c) (invEach R ord l c) := by
  induction l generalizing c with
  | nil => exact .inl rfl
  | cons a l ih =>
    simp only [invEach]
    refine (invalidateById_debug ord a c).bind
      (f := fun x => match x with | (c, .done) => invEach Y ord l c | r => r)
      (g := fun x => match x with | (c, .done) => invEach R ord l c | r => r) (fun _ _ => rfl) ?_
    generalize invalidateById Y ord a c = x
    obtain ⟨c1, _ | k | _⟩ := x
    · exact ih c1
    · exact .inl rfl
    · exact .inl rfl

theorem invalidateDependents_debug (ord : HashOrder) (a : Id) (c : Cache σ) :
    SameOrDebugL (invalidateDependents Y ord a c) (invalidateDependents R ord a c) := by
  unfold invalidateDependents
  cases c.dependents[a]? with
  | none => exact .inl rfl
  | some set =>
    simp only
    rcases invEach_debug (Y := Y) ord (ord.f ⟨2, a, 0⟩ set.toList) { c with dependents := c.dependents.erase a } with
      h | ⟨k, hk, h⟩
    · rw [h]; exact .inl rfl
    · generalize invEach Y ord (ord.f ⟨2, a, 0⟩ set.toList) { c with dependents := c.dependents.erase a } = x at h ⊢
      obtain ⟨c1, e⟩ := x
      cases h
      exact .inr ⟨k, hk, rfl⟩

theorem invalidate_debug (ord : HashOrder) (p : Promise σ) (c : Cache σ) :
    SameOrDebugL (invalidate Y ord p c) (invalidate R ord p c) := by
  unfold invalidate
  exact (invalidateById_debug ord p.id c).bind
    (f := fun r => match r with | (c, .done) => (c.emit (.invalidate p), .done) | r => r)
    (g := fun r => match r with | (c, .done) => (c.emit (.invalidate p), .done) | r => r) (fun _ _ => rfl) (.inl rfl)

theorem purge_debug (ord : HashOrder) (p : Promise σ) (c : Cache σ) :
    SameOrDebugL (purge Y ord p c) (purge R ord p c) := by
  unfold purge
  exact (invalidateById_debug ord p.id _).bind
    (f := fun r => match r with | (c, .done) => (c.emit (.invalidate p), .done) | r => r)
    (g := fun r => match r with | (c, .done) => (c.emit (.invalidate p), .done) | r => r) (fun _ _ => rfl) (.inl rfl)

theorem collectEach_debug (ord : HashOrder) (l : List Id) (c : Cache σ) :
    SameOrDebugL (collectEach Y ord l c) (collectEach R ord l c) := by
  induction l generalizing c with
  | nil => exact .inl rfl
  | cons a l ih =>
    simp only [collectEach]
    rcases invalidateById_debug (Y := Y) ord a c with h | ⟨k, hk, h⟩
    · rw [h]
      generalize invalidateById Y ord a c = x
      obtain ⟨c1, _ | k | _⟩ := x
      · exact ih _
      · exact .inl rfl
      · exact .inl rfl
    · generalize invalidateById Y ord a c = x at h ⊢
      obtain ⟨c1, e⟩ := x
      cases h
      exact .inr ⟨k, hk, rfl⟩

theorem garbageCollection_debug (ord : HashOrder) (s : St σ) :
    SameOrDebugL (garbageCollection Y ord s) (garbageCollection R ord s) := by
  unfold garbageCollection
  split
  · exact .inr ⟨.gcAssert, rfl, rfl⟩
  · rw [if_neg (by simp [Sys.withDebug])]
    split
    · exact .inl rfl
    · exact collectEach_debug ..

/-! ## Lookups and builds -/

/-- `r'` is `r`, or `r` is the panic of a debug assertion. -/
def SameOrDebugR {α : Type} (r r' : Res α) : Prop := r' = r ∨ ∃ k, k.isDebug = true ∧ r = .panic k

theorem lookup_debug (p : Promise σ) (c : Cache σ) : SameOrDebugR (lookup Y p c) (lookup R p c) := by
  unfold lookup
  split
  · exact .inl rfl
  · by_cases hd : (Y.debug && !isKnown p.id c) = true
    · rw [if_pos hd]; exact .inr ⟨_, rfl, rfl⟩
    · rw [if_neg hd, if_neg (show ¬ ((R).debug && !isKnown p.id c) = true from nofun)]; exact .inl rfl

theorem lookupRef_debug (p : Promise σ) (c : Cache σ) : SameOrDebugR (lookupRef Y p c) (lookupRef R p c) := by
  unfold lookupRef
  split
  · exact .inl rfl
  · by_cases hd : (Y.debug && !isKnown p.id c) = true
    · rw [if_pos hd]; exact .inr ⟨_, rfl, rfl⟩
    · rw [if_neg hd, if_neg (show ¬ ((R).debug && !isKnown p.id c) = true from nofun)]; exact .inl rfl

theorem lookupCloned_debug (p : Promise σ) (c : Cache σ) :
    SameOrDebugR (lookupCloned Y p c) (lookupCloned R p c) := by
  unfold lookupCloned
  rcases lookupRef_debug (Y := Y) p c with h | ⟨k, hk, h⟩
  · rw [h]; exact .inl rfl
  · rw [h]; exact .inr ⟨k, hk, rfl⟩

theorem lookupBy_debug (how : Access) (p : Promise σ) (c : Cache σ) :
    SameOrDebugR (lookupBy Y how p c) (lookupBy R how p c) := by
  cases how
  · exact lookup_debug p c
  · exact lookupRef_debug p c
  · exact lookupCloned_debug p c

theorem getDynState_debug (p : Promise σ) (c : Cache σ) :
    SameOrDebugR (getDynState Y p c) (getDynState R p c) := by
  unfold getDynState
  split
  · exact .inl rfl
  · by_cases hd : (Y.debug && !isKnown p.id c) = true
    · rw [if_pos hd]; exact .inr ⟨_, rfl, rfl⟩
    · rw [if_neg hd, if_neg (show ¬ ((R).debug && !isKnown p.id c) = true from nofun)]; exact .inl rfl

theorem myState_debug (p : Promise σ) (f : σ.S → σ.S) (s : St σ) :
    SameOrDebug (myState Y p f s) (myState R p f s) := by
  unfold myState
  split
  · exact .inl rfl
  · by_cases hd : (Y.debug && !isKnown p.id s.c) = true
    · rw [if_pos hd]; exact .inr ⟨_, rfl, rfl⟩
    · rw [if_neg hd, if_neg (show ¬ ((R).debug && !isKnown p.id s.c) = true from nofun)]; exact .inl rfl

theorem ensureDyn_debug (p : Promise σ) (s : St σ) : ensureDyn R p s = ensureDyn Y p s := rfl

theorem fresh_debug (p : Promise σ) {x y : St σ × Res (Except σ.E σ.V)} (h : SameOrDebug x y) :
    SameOrDebug (fresh Y p x) (fresh R p y) := by
  rcases h with rfl | ⟨k, hk, h⟩
  · exact .inl rfl
  · obtain ⟨s, r⟩ := x
    cases h
    exact .inr ⟨k, hk, rfl⟩

/-- Two ways to build do the same, unless a debug assertion fails. -/
def BuildDebug (b b' : BuildFn σ) : Prop := ∀ p s, SameOrDebug (b p s) (b' p s)

/-- Two ways to get do the same, unless a debug assertion fails. -/
def GetDebug (g g' : Getter σ) : Prop := ∀ how p s, SameOrDebug (g how p s) (g' how p s)

theorem getBin_debug {b b' : BuildFn σ} (hb : BuildDebug b b') (p : Promise σ) (s : St σ) :
    SameOrDebug (getBin Y b p s) (getBin R b' p s) := by
  unfold getBin
  rcases lookup_debug (Y := Y) p s.c with h | ⟨k, hk, h⟩
  · rw [h]
    split
    · exact .inl rfl
    · exact fresh_debug p (hb p s)
    all_goals exact .inl rfl
  · rw [h]; exact .inr ⟨k, hk, rfl⟩

theorem getRef_debug {b b' : BuildFn σ} (hb : BuildDebug b b') (p : Promise σ) (s : St σ) :
    SameOrDebug (getRef Y b p s) (getRef R b' p s) := by
  unfold getRef
  rcases lookupRef_debug (Y := Y) p s.c with h | ⟨k, hk, h⟩
  · rw [h]
    split
    · exact .inl rfl
    · exact fresh_debug p (hb p s)
    all_goals exact .inl rfl
  · rw [h]; exact .inr ⟨k, hk, rfl⟩

theorem getCloned_debug {b b' : BuildFn σ} (hb : BuildDebug b b') (p : Promise σ) (s : St σ) :
    SameOrDebug (getCloned Y b p s) (getCloned R b' p s) := by
  unfold getCloned
  rcases getRef_debug (Y := Y) hb p s with h | ⟨k, hk, h⟩
  · rw [h]; exact .inl rfl
  · generalize getRef Y b p s = x at h ⊢
    obtain ⟨s1, r⟩ := x
    cases h
    exact .inr ⟨k, hk, rfl⟩

theorem getBy_debug {b b' : BuildFn σ} (hb : BuildDebug b b') : GetDebug (getBy Y b) (getBy R b') := by
  intro how p s
  unfold getBy
  split
  · cases how
    · exact getBin_debug hb p s
    · exact getRef_debug hb p s
    · exact getCloned_debug hb p s
  · exact .inl rfl

theorem runProg_debug {g g' : Getter σ} (hg : GetDebug g g') (p : Promise σ) (prog : Prog σ) (s : St σ) :
    SameOrDebug (runProg Y g p prog s) (runProg R g' p prog s) := by
  induction prog generalizing s with
  | ret r => cases r <;> exact .inl rfl
  | panic => exact .inl rfl
  | resolve how q k ih =>
    simp only [runProg]
    split
    · simp only [track]
      split
      · next c pk h =>
        split at h
        · cases h; exact .inr ⟨.trackUnknown, rfl, rfl⟩
        · cases h
      · next c h =>
        split at h
        · cases h
        · cases h
          rw [if_neg (by simp [Sys.withDebug])]
          rcases hg how q { s with c := addEdge p q (makeKnown q s.c) } with h | ⟨k, hk, h⟩
          · simp only [h]
            split
            · exact ih _ _
            all_goals exact .inl rfl
          · generalize g how q { s with c := addEdge p q (makeKnown q s.c) } = x at h ⊢
            obtain ⟨s1, r⟩ := x
            cases h
            exact .inr ⟨k, hk, rfl⟩
    · exact .inl rfl
  | myState f k ih =>
    simp only [runProg]
    rcases myState_debug (Y := Y) p f s with h | ⟨k, hk, h⟩
    · rw [h]
      split
      · exact ih _ _
      all_goals exact .inl rfl
    · generalize myState Y p f s = x at h ⊢
      obtain ⟨s1, r⟩ := x
      cases h
      exact .inr ⟨k, hk, rfl⟩
  | world f k ih => exact ih _ _
  | alloc q k ih =>
    simp only [runProg]
    split
    · exact ih _
    · exact .inl rfl
  | free a k ih => exact ih _

theorem build_debug {g g' : Getter σ} (hg : GetDebug g g') : BuildDebug (build Y g) (build R g') := by
  intro p s
  unfold build
  split
  · exact .inr ⟨_, rfl, rfl⟩
  · rw [if_neg (by simp [Sys.withDebug])]
    simp only [ensureDyn_debug]
    split
    · exact .inl rfl
    · exact .inl rfl
    · exact .inl rfl
    · next s1 _ _ =>
      rw [show (R).code = Y.code from rfl]
      rcases runProg_debug (Y := Y) hg p (Y.code p.b) (s1.onCache (·.emit (.call p))) with h | ⟨k, hk, h⟩
      · rw [h]; exact .inl rfl
      · generalize runProg Y g p (Y.code p.b) (s1.onCache (·.emit (.call p))) = x at h ⊢
        obtain ⟨s2, r⟩ := x
        cases h
        exact .inr ⟨k, hk, rfl⟩

theorem getA_debug (n : Nat) : GetDebug (getA Y n) (getA R n) := by
  induction n with
  | zero => exact getBy_debug fun _ _ => .inl rfl
  | succ n ih => exact getBy_debug (build_debug ih)

theorem buildN_debug (n : Nat) : BuildDebug (buildN Y n) (buildN R n) := by
  cases n with
  | zero => exact fun _ _ => .inl rfl
  | succ n => exact build_debug (getA_debug n)

theorem lookupMut_debug (ord : HashOrder) (p : Promise σ) (c : Cache σ) :
    lookupMut R ord p c = lookupMut Y ord p c ∨ ∃ k, k.isDebug = true ∧ (lookupMut Y ord p c).2 = .panic k := by
  unfold lookupMut
  rcases invalidateDependents_debug (Y := Y) ord p.id c with h | ⟨k, hk, h⟩
  · rw [h]
    split
    · next c _ =>
      by_cases hd : (Y.debug && !(!containsArtifact p.id c || isKnown p.id c)) = true
      · rw [if_pos hd]; exact .inr ⟨_, rfl, rfl⟩
      · rw [if_neg hd, if_neg (show ¬ ((R).debug && !(!containsArtifact p.id c || isKnown p.id c)) = true from nofun)]
        exact .inl rfl
    all_goals exact .inl rfl
  · generalize invalidateDependents Y ord p.id c = x at h ⊢
    obtain ⟨c1, e⟩ := x
    cases h
    exact .inr ⟨k, hk, rfl⟩

theorem getMut_debug {b b' : BuildFn σ} (hb : BuildDebug b b') (ord : HashOrder) (p : Promise σ) (s : St σ) :
    SameOrDebug (getMut Y ord b p s) (getMut R ord b' p s) := by
  unfold getMut
  rcases lookupMut_debug (Y := Y) ord p s.c with h | ⟨k, hk, h⟩
  · rw [h]
    split
    · next c _ _ =>
      rcases lookupMut_debug (Y := Y) ord p c with h | ⟨k, hk, h⟩
      · rw [h]; exact .inl rfl
      · generalize lookupMut Y ord p c = x at h ⊢
        obtain ⟨s1, r⟩ := x
        cases h
        exact .inr ⟨k, hk, rfl⟩
    · exact fresh_debug p (hb p _)
    all_goals exact .inl rfl
  · generalize lookupMut Y ord p s.c = x at h ⊢
    obtain ⟨s1, r⟩ := x
    cases h
    exact .inr ⟨k, hk, rfl⟩

theorem dynStateMut_debug (ord : HashOrder) (p : Promise σ) (f : σ.S → σ.S) (s : St σ) :
    SameOrDebug (dynStateMut Y ord p f s) (dynStateMut R ord p f s) := by
  unfold dynStateMut
  rcases invalidate_debug (Y := Y) ord p s.c with h | ⟨k, hk, h⟩
  · rw [h]; exact .inl rfl
  · generalize invalidate Y ord p s.c = x at h ⊢
    obtain ⟨s1, r⟩ := x
    cases h
    exact .inr ⟨k, hk, rfl⟩

theorem exec_debug (n : Nat) (ord : HashOrder) (s : St σ) (op : Op σ) :
    SameOrDebug (exec Y n ord s op) (exec R n ord s op) := by
  have loop : ∀ {x y : Cache σ × LoopEnd}, SameOrDebugL x y →
      SameOrDebug (σ := σ) ({ s with c := x.1 }, x.2.res (Ans.unit (σ := σ))) ({ s with c := y.1 }, y.2.res (Ans.unit (σ := σ))) := by
    rintro x y (rfl | ⟨k, hk, h⟩)
    · exact .inl rfl
    · exact .inr ⟨k, hk, by rw [h]; rfl⟩
  have look : ∀ {α : Type} {r r' : Res α} (f : α → Ans σ), SameOrDebugR r r' →
      SameOrDebug (s, r.map f) (s, r'.map f) := by
    rintro α r r' f (rfl | ⟨k, hk, rfl⟩)
    · exact .inl rfl
    · exact .inr ⟨k, hk, rfl⟩
  have get : ∀ {α : Type} {x y : St σ × Res α} (f : α → Ans σ), SameOrDebug x y →
      SameOrDebug (x.1, x.2.map f) (y.1, y.2.map f) := by
    rintro α x y f (rfl | ⟨k, hk, h⟩)
    · exact .inl rfl
    · exact .inr ⟨k, hk, by rw [h]; rfl⟩
  cases op with
  | get how p => exact get _ (getA_debug n how p s)
  | getMut p f =>
    simp only [exec]
    rcases getMut_debug (Y := Y) (buildN_debug n) ord p s with h | ⟨k, hk, h⟩
    · rw [h]; exact .inl rfl
    · generalize getMut Y ord (buildN Y n) p s = x at h ⊢
      obtain ⟨s1, r⟩ := x
      cases h
      exact .inr ⟨k, hk, rfl⟩
  | lookup how p => exact look _ (lookupBy_debug how p s.c)
  | lookupMut p f =>
    simp only [exec]
    rcases lookupMut_debug (Y := Y) ord p s.c with h | ⟨k, hk, h⟩
    · rw [h]; exact .inl rfl
    · generalize lookupMut Y ord p s.c = x at h ⊢
      obtain ⟨s1, r⟩ := x
      cases h
      exact .inr ⟨k, hk, rfl⟩
  | dynState p => exact .inl rfl
  | getDynState p => exact look _ (getDynState_debug p s.c)
  | dynStateMut p f => exact get _ (dynStateMut_debug ord p f s)
  | isKnown p => exact .inl rfl
  | numKnown => exact .inl rfl
  | invalidate p => exact loop (invalidate_debug ord p s.c)
  | purge p => exact loop (purge_debug ord p s.c)
  | clearArtifacts => exact .inl rfl
  | clearAll => exact .inl rfl
  | gc => exact loop (garbageCollection_debug ord s)
  | alloc q => exact .inl rfl
  | free b => exact .inl rfl
  | world f => exact .inl rfl

/-! ## With hooks -/

theorem callHook_debug {α : Type} (D : Hooks σ) (h : Hook σ) (s : St σ) {k k' : St σ → St σ × Res α}
    (hk : ∀ s, SameOrDebug (k s) (k' s)) : SameOrDebug (callHook D h s k) (callHook D h s k') := by
  unfold callHook
  split
  · exact .inl rfl
  · exact hk _

theorem getClonedH_debug (D : Hooks σ) {b b' : BuildFn σ} (hb : BuildDebug b b') (p : Promise σ) (s : St σ) :
    SameOrDebug (getClonedH Y D b p s) (getClonedH R D b' p s) := by
  unfold getClonedH
  rcases getRef_debug (Y := Y) hb p s with h | ⟨k, hk, h⟩
  · rw [h]; exact .inl rfl
  · generalize getRef Y b p s = x at h ⊢
    obtain ⟨s1, r⟩ := x
    cases h
    exact .inr ⟨k, hk, rfl⟩

theorem getByH_debug (D : Hooks σ) {b b' : BuildFn σ} (hb : BuildDebug b b') :
    GetDebug (getByH Y D b) (getByH R D b') := by
  intro how p s
  unfold getByH
  split
  · cases how
    · exact getBin_debug hb p s
    · exact getRef_debug hb p s
    · exact getClonedH_debug D hb p s
  · exact .inl rfl

theorem runProgH_debug (D : Hooks σ) {g g' : Getter σ} (hg : GetDebug g g') (p : Promise σ) (prog : Prog σ) (s : St σ) :
    SameOrDebug (runProgH Y D g p prog s) (runProgH R D g' p prog s) := by
  induction prog generalizing s with
  | ret r => cases r <;> exact .inl rfl
  | panic => exact .inl rfl
  | resolve how q k ih =>
    simp only [runProgH]
    split
    · simp only [track]
      split
      · next c pk h =>
        split at h
        · cases h; exact .inr ⟨.trackUnknown, rfl, rfl⟩
        · cases h
      · next c h =>
        split at h
        · cases h
        · cases h
          rw [if_neg (by simp [Sys.withDebug])]
          refine callHook_debug D _ _ fun s1 => ?_
          rcases hg how q s1 with h | ⟨k, hk, h⟩
          · simp only [h]
            split
            · exact ih _ _
            all_goals exact .inl rfl
          · generalize g how q s1 = x at h ⊢
            obtain ⟨s1, r⟩ := x
            cases h
            exact .inr ⟨k, hk, rfl⟩
    · exact .inl rfl
  | myState f k ih =>
    simp only [runProgH]
    rcases myState_debug (Y := Y) p f s with h | ⟨k, hk, h⟩
    · rw [h]
      split
      · exact ih _ _
      all_goals exact .inl rfl
    · generalize myState Y p f s = x at h ⊢
      obtain ⟨s1, r⟩ := x
      cases h
      exact .inr ⟨k, hk, rfl⟩
  | world f k ih => exact ih _ _
  | alloc q k ih =>
    simp only [runProgH]
    split
    · exact ih _
    · exact .inl rfl
  | free a k ih => exact ih _

theorem buildH_debug (D : Hooks σ) {g g' : Getter σ} (hg : GetDebug g g') : BuildDebug (buildH Y D g) (buildH R D g') := by
  intro p s
  unfold buildH
  split
  · exact .inr ⟨_, rfl, rfl⟩
  · rw [if_neg (by simp [Sys.withDebug])]
    simp only [ensureDyn_debug]
    split
    · exact .inl rfl
    · exact .inl rfl
    · exact .inl rfl
    · refine callHook_debug D _ _ fun s1 => ?_
      rw [show (R).code = Y.code from rfl]
      rcases runProgH_debug (Y := Y) D hg p (Y.code p.b) (s1.onCache (·.emit (.call p))) with h | ⟨k, hk, h⟩
      · rw [h]; exact .inl rfl
      · generalize runProgH Y D g p (Y.code p.b) (s1.onCache (·.emit (.call p))) = x at h ⊢
        obtain ⟨s2, r⟩ := x
        cases h
        exact .inr ⟨k, hk, rfl⟩

theorem getAH_debug (D : Hooks σ) (n : Nat) : GetDebug (getAH Y D n) (getAH R D n) := by
  induction n with
  | zero => exact getByH_debug D fun _ _ => .inl rfl
  | succ n ih => exact getByH_debug D (buildH_debug D ih)

theorem buildNH_debug (D : Hooks σ) (n : Nat) : BuildDebug (buildNH Y D n) (buildNH R D n) := by
  cases n with
  | zero => exact fun _ _ => .inl rfl
  | succ n => exact buildH_debug D (getAH_debug D n)

theorem execH_debug (D : Hooks σ) (n : Nat) (ord : HashOrder) (s : St σ) (op : Op σ) :
    SameOrDebug (execH Y D n ord s op) (execH R D n ord s op) := by
  have get : ∀ {α : Type} {x y : St σ × Res α} (f : α → Ans σ), SameOrDebug x y →
      SameOrDebug (x.1, x.2.map f) (y.1, y.2.map f) := by
    rintro α x y f (rfl | ⟨k, hk, h⟩)
    · exact .inl rfl
    · exact .inr ⟨k, hk, by rw [h]; rfl⟩
  have tell : ∀ (p : Promise σ) {x y : Cache σ × LoopEnd}, SameOrDebugL x y →
      SameOrDebug (σ := σ) (thenTell D p s x) (thenTell D p s y) := by
    rintro p x y (rfl | ⟨k, hk, h⟩)
    · exact .inl rfl
    · obtain ⟨c, e⟩ := x
      cases h
      exact .inr ⟨k, hk, rfl⟩
  cases op with
  | get how p => exact get _ (getAH_debug D n how p s)
  | getMut p f =>
    simp only [execH]
    rcases getMut_debug (Y := Y) (buildNH_debug D n) ord p s with h | ⟨k, hk, h⟩
    · rw [h]; exact .inl rfl
    · generalize getMut Y ord (buildNH Y D n) p s = x at h ⊢
      obtain ⟨s1, r⟩ := x
      cases h
      exact .inr ⟨k, hk, rfl⟩
  | lookup how p =>
    refine get _ ?_
    have key : ∀ {α : Type} {r r' : Res α}, SameOrDebugR r r' → SameOrDebug (s, r) (s, r') := by
      rintro α r r' (rfl | ⟨k, hk, rfl⟩)
      · exact .inl rfl
      · exact .inr ⟨k, hk, rfl⟩
    cases how with
    | bin => exact key (lookup_debug p s.c)
    | ref => exact key (lookupRef_debug p s.c)
    | cloned =>
      simp only [lookupByH]
      rcases lookupRef_debug (Y := Y) p s.c with h | ⟨k, hk, h⟩
      · rw [h]; exact .inl rfl
      · rw [h]; exact .inr ⟨k, hk, rfl⟩
  | dynStateMut p f =>
    refine get _ ?_
    unfold dynStateMutH
    rcases invalidate_debug (Y := Y) ord p s.c with h | ⟨k, hk, h⟩
    · rw [h]; exact .inl rfl
    · generalize invalidate Y ord p s.c = x at h ⊢
      obtain ⟨s1, r⟩ := x
      cases h
      exact .inr ⟨k, hk, rfl⟩
  | invalidate p => exact tell p (invalidate_debug ord p s.c)
  | purge p => exact tell p (purge_debug ord p s.c)
  | clearAll => exact .inl rfl
  | lookupMut p f => exact exec_debug n ord s (.lookupMut p f)
  | dynState p => exact .inl rfl
  | getDynState p => exact exec_debug n ord s (.getDynState p)
  | isKnown p => exact .inl rfl
  | numKnown => exact .inl rfl
  | clearArtifacts => exact .inl rfl
  | gc => exact exec_debug n ord s .gc
  | alloc q => exact .inl rfl
  | free b => exact .inl rfl
  | world f => exact .inl rfl

theorem stepH_release (h : Reachable Y s) (D : Hooks σ) (n : Nat) (ord : HashOrder) (op : Op σ) :
    stepH R D n ord s op = stepH Y D n ord s op := by
  have key : SameOrDebug (stepH Y D n ord s op) (stepH R D n ord s op) := by
    unfold stepH
    split
    · split
      · exact execH_debug D n ord s op
      · exact .inl rfl
    · exact execH_debug D n ord s op
  rcases key with h1 | ⟨k, hk, h1⟩
  · exact h1
  · rcases C59_panics h h1 with rfl | ⟨rfl, _⟩ | ⟨rfl, _⟩ | ⟨rfl, _⟩ <;> cases hk

theorem step_release (h : Reachable Y s) (n : Nat) (ord : HashOrder) (op : Op σ) :
    step R n ord s op = step Y n ord s op := by
  have key : SameOrDebug (step Y n ord s op) (step R n ord s op) := by
    unfold step
    split
    · split
      · exact exec_debug n ord s op
      · exact .inl rfl
    · exact exec_debug n ord s op
  rcases key with h1 | ⟨k, hk, h1⟩
  · exact h1
  · rcases C25_panics h h1 with ⟨rfl | rfl, _⟩ | ⟨rfl, _⟩ | ⟨rfl, _⟩ <;> cases hk

theorem Reachable.release (h : Reachable Y s) : Reachable R s := by
  induction h with
  | new w => exact .new w
  | @step s n ord op h hg ih =>
    have := step_release h n ord op
    rw [← this] at hg ⊢
    exact .step n ord op ih hg
  | @hooked s D n ord op h hg ih =>
    have := stepH_release h D n ord op
    rw [← this] at hg ⊢
    exact .hooked D n ord op ih hg

theorem Reachable.anyDebug (h : Reachable R s) (d : Bool) : Reachable (Y.withDebug d) s := by
  induction h with
  | new w => exact .new w
  | @step s n ord op h hg ih =>
    have := step_release ih n ord op
    rw [show (Y.withDebug d).withDebug false = R from rfl] at this
    rw [this] at hg ⊢
    exact .step n ord op ih hg
  | @hooked s D n ord op h hg ih =>
    have := stepH_release ih D n ord op
    rw [show (Y.withDebug d).withDebug false = R from rfl] at this
    rw [this] at hg ⊢
    exact .hooked D n ord op ih hg

/-- **C25** So it does not matter whether a program is compiled with or without debug assertions: the same states
are reachable, and every operation does and answers exactly the same. -/
theorem C25_debug_irrelevant (d : Bool) :
    (Reachable (Y.withDebug d) s ↔ Reachable Y s) ∧
    (Reachable Y s → ∀ n ord op, step (Y.withDebug d) n ord s op = step Y n ord s op) := by
  have h1 : Reachable Y s → Reachable (Y.withDebug d) s := fun h => h.release.anyDebug d
  refine ⟨⟨fun h => ?_, h1⟩, fun h n ord op => ?_⟩
  · have := h.release.anyDebug Y.debug
    exact this
  · have e1 := step_release h n ord op
    have e2 := step_release (h1 h) n ord op
    exact e2.symm.trans e1

/-- The hypothesis is met by the history of `Demo.s1` in both profiles, and without reachability the claim is
false: with a corrupt cache a debug assertion makes a difference. -/
example : Reachable (Demo.Y.withDebug false) Demo.s1 ∧ Reachable (Demo.Y.withDebug true) Demo.s1 :=
  ⟨(C25_debug_irrelevant _).1.2 Demo.reach1, (C25_debug_irrelevant _).1.2 Demo.reach1⟩

example : ∃ s : St Demo.sig,
    (step (Demo.Y.withDebug true) 9 Demo.ord s (.lookup .bin (Demo.P 0))).2 = .panic .artUnknown ∧
    (step (Demo.Y.withDebug false) 9 Demo.ord s (.lookup .bin (Demo.P 0))).2 = .val (.optArt (some 5)) :=
  ⟨{ Demo.s1 with c := { Demo.s1.c with known := ∅ } }, rfl, rfl⟩

end Daab
