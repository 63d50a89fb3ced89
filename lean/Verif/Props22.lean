import Verif.Hooks
import Verif.Shape
import Verif.Props4

/-!
# C59: user code besides builders

The doctor, the `Debug` implementations it relies on and the `Clone` implementations of artifacts may keep their
own state (in the outside world) and may panic at any call.
-/

open Std

namespace Daab

variable {σ : Sig} {Y : Sys σ} {s s' : St σ}

/-! ## Vocabulary -/

/-- The code does not depend on what `E` leaves open about the outside world: in worlds that are the same for `E`
it sees the same and leaves worlds that are the same for `E`. -/
def Prog.blind (E : σ.W → σ.W → Prop) : Prog σ → Prop
  | .ret _ => True
  | .panic => True
  | .resolve _ _ k => ∀ r, (k r).blind E
  | .myState _ k => ∀ d, (k d).blind E
  | .world f k => (∀ w w', E w w' → E (f w) (f w') ∧ k w = k w') ∧ ∀ w, (k w).blind E
  | .alloc _ k => k.blind E
  | .free _ k => k.blind E

/-- All builders are blind in this sense. -/
structure Sys.Blind (Y : Sys σ) (E : σ.W → σ.W → Prop) : Prop where
  code : ∀ b, (Y.code b).blind E
  init : ∀ b w w', E w w' → E (Y.init b w).1 (Y.init b w').1 ∧ (Y.init b w).2 = (Y.init b w').2

/-- So is what the program itself does to the outside world. -/
def Op.blind (E : σ.W → σ.W → Prop) : Op σ → Prop
  | .world f => ∀ w w', E w w' → E (f w) (f w')
  | _ => True

/-- The hooks only act on what `E` leaves open: their private state. -/
def Hooks.privateTo (D : Hooks σ) (E : σ.W → σ.W → Prop) : Prop := ∀ w h, E w (D w h).1

/-- The two states are equal, but for what `E` leaves open about the outside world. -/
def SameFor (E : σ.W → σ.W → Prop) (s s' : St σ) : Prop :=
  s.c = s'.c ∧ s.heap = s'.heap ∧ s.born = s'.born ∧ E s.w s'.w

/-- A history with hooks, which may be others in each operation. -/
abbrev HistoryH (σ : Sig) := List (Hooks σ × Nat × HashOrder × Op σ)

/-- The state and the answers after such a history (first operation first). -/
def playH (Y : Sys σ) : HistoryH σ → St σ → St σ × List (Res (Ans σ))
  | [], s => (s, [])
  | (D, n, ord, op) :: h, s =>
    let r := stepH Y D n ord s op
    let q := playH Y h r.1
    (q.1, r.2 :: q.2)

/-! ## Proofs -/

section
variable {E : σ.W → σ.W → Prop} {D : Hooks σ}

/-- `x` panics in user code, or does the same as `y`. -/
def OrCrash (E : σ.W → σ.W → Prop) {α : Type} (x y : St σ × Res α) : Prop :=
  x.2 = .panic .user ∨ SameFor E x.1 y.1 ∧ x.2 = y.2

theorem SameFor.of_world (h : SameFor E s s') : ∃ w', s' = { s with w := w' } ∧ E s.w w' := by
  obtain ⟨c, w, heap, born⟩ := s
  obtain ⟨c', w', heap', born'⟩ := s'
  obtain ⟨h1, h2, h3, h4⟩ := h
  simp only at h1 h2 h3 h4
  subst h1 h2 h3
  exact ⟨w', rfl, h4⟩

theorem SameFor.onCache (h : SameFor E s s') (f : Cache σ → Cache σ) : SameFor E (s.onCache f) (s'.onCache f) := by
  obtain ⟨h1, h2, h3, h4⟩ := h
  exact ⟨congrArg f h1, h2, h3, h4⟩

theorem callHook_crash (hE : Equivalence E) (hD : D.privateTo E) {α : Type} (h : Hook σ) {k : St σ → St σ × Res α}
    {y : St σ × Res α} (hs : SameFor E s s') (hk : ∀ s, SameFor E s s' → OrCrash E (k s) y) :
    OrCrash E (callHook D h s k) y := by
  obtain ⟨w, rfl, e | e⟩ := callHook_cases' D h s k
  · rw [e]; exact .inl rfl
  · rw [e]
    refine hk _ ⟨hs.1, hs.2.1, hs.2.2.1, ?_⟩
    exact hE.trans (hE.symm (hD s.w h)) hs.2.2.2

theorem ensureDyn_crash (hY : Y.Blind E) (p : Promise σ) (hs : SameFor E s s') :
    SameFor E (ensureDyn Y p s).1 (ensureDyn Y p s').1 ∧ (ensureDyn Y p s).2 = (ensureDyn Y p s').2 := by
  obtain ⟨w', rfl, hw⟩ := hs.of_world
  unfold ensureDyn
  simp only [St.onCache]
  split
  · exact ⟨⟨rfl, rfl, rfl, hw⟩, rfl⟩
  · have hi := hY.init p.b s.w w' hw
    generalize Y.init p.b s.w = x at hi ⊢
    generalize Y.init p.b w' = y at hi ⊢
    obtain ⟨w1, o1⟩ := x
    obtain ⟨w2, o2⟩ := y
    obtain ⟨h1, h2⟩ := hi
    simp only at h1 h2
    subst h2
    cases o1 with
    | none => exact ⟨⟨rfl, rfl, rfl, h1⟩, rfl⟩
    | some d =>
      simp only
      split
      · exact ⟨⟨rfl, rfl, rfl, h1⟩, rfl⟩
      · exact ⟨⟨rfl, rfl, rfl, hw⟩, rfl⟩

/-- The getter with hooks does the same as the one without, or crashes. -/
def GetCrash (E : σ.W → σ.W → Prop) (g g' : Getter σ) : Prop :=
  ∀ how p s s', SameFor E s s' → OrCrash E (g how p s) (g' how p s')

/-- The same for builds. -/
def BuildCrash (E : σ.W → σ.W → Prop) (b b' : BuildFn σ) : Prop :=
  ∀ p s s', SameFor E s s' → OrCrash E (b p s) (b' p s')

theorem runProgH_crash (hE : Equivalence E) (hD : D.privateTo E) {g g' : Getter σ} (hg : GetCrash E g g')
    {p : Promise σ} (prog : Prog σ) (hb : prog.blind E) (hs : SameFor E s s') :
    OrCrash E (runProgH Y D g p prog s) (runProg Y g' p prog s') := by
  induction prog generalizing s s' with
  | ret r => cases r <;> exact .inr ⟨hs, rfl⟩
  | panic => exact .inl rfl
  | resolve how q k ih =>
    obtain ⟨w', rfl, hw⟩ := hs.of_world
    simp only [runProgH, runProg]
    rw [show ({ s with w := w' } : St σ).live q = s.live q from rfl]
    split
    · generalize track Y p q s.c = x
      obtain ⟨c, _ | pk⟩ := x
      · simp only
        refine callHook_crash hE hD _ (s' := { s with c := c, w := w' }) ⟨rfl, rfl, rfl, hw⟩ fun s1 hs1 => ?_
        have h1 := hg how q s1 _ hs1
        generalize g how q s1 = x at h1 ⊢
        generalize g' how q { s with c := c, w := w' } = y at h1 ⊢
        obtain ⟨s2, r⟩ := x
        obtain ⟨s3, r'⟩ := y
        rcases h1 with h1 | ⟨h1, h2⟩
        · cases h1; exact .inl rfl
        · cases h2
          cases r with
          | val r => exact ih r (hb r) h1
          | panic k => exact .inr ⟨h1, rfl⟩
          | stuck => exact .inr ⟨h1, rfl⟩
          | overflow => exact .inr ⟨h1, rfl⟩
      · exact .inr ⟨⟨rfl, rfl, rfl, hw⟩, rfl⟩
    · exact .inr ⟨hs, rfl⟩
  | myState f k ih =>
    obtain ⟨w', rfl, hw⟩ := hs.of_world
    simp only [runProgH, runProg]
    have h1 : SameFor E (myState Y p f s).1 (myState Y p f { s with w := w' }).1 ∧
        (myState Y p f s).2 = (myState Y p f { s with w := w' }).2 := by
      unfold myState
      simp only
      repeat' split
      all_goals exact ⟨⟨rfl, rfl, rfl, hw⟩, rfl⟩
    generalize myState Y p f s = x at h1 ⊢
    generalize myState Y p f { s with w := w' } = y at h1 ⊢
    obtain ⟨s2, r⟩ := x
    obtain ⟨s3, r'⟩ := y
    obtain ⟨h1, h2⟩ := h1
    cases h2
    cases r with
    | val r => exact ih r (hb r) h1
    | panic k => exact .inr ⟨h1, rfl⟩
    | stuck => exact .inr ⟨h1, rfl⟩
    | overflow => exact .inr ⟨h1, rfl⟩
  | world f k ih =>
    simp only [runProgH, runProg]
    obtain ⟨h1, h2⟩ := hb.1 s.w s'.w hs.2.2.2
    rw [← h2]
    exact ih s.w (hb.2 s.w) ⟨hs.1, hs.2.1, hs.2.2.1, h1⟩
  | alloc q k ih =>
    obtain ⟨w', rfl, hw⟩ := hs.of_world
    simp only [runProgH, runProg, allocB]
    by_cases hc : (s.heap.contains q.id || s.c.known.contains q.id || decide (q.b ∈ s.born)) = true
    · simp only [hc, if_true]; exact .inr ⟨hs, rfl⟩
    · simp only [hc]; exact ih hb ⟨rfl, rfl, rfl, hw⟩
  | free a k ih =>
    obtain ⟨w', rfl, hw⟩ := hs.of_world
    exact ih hb ⟨rfl, rfl, rfl, hw⟩

theorem buildH_crash (hE : Equivalence E) (hY : Y.Blind E) (hD : D.privateTo E) {g g' : Getter σ}
    (hg : GetCrash E g g') : BuildCrash E (buildH Y D g) (build Y g') := by
  intro p s s' hs
  unfold buildH build
  rw [← hs.1]
  split
  · exact .inr ⟨hs, rfl⟩
  · simp only
    have h1 := ensureDyn_crash hY p (hs.onCache (makeKnown p))
    generalize ensureDyn Y p (s.onCache (makeKnown p)) = x at h1 ⊢
    generalize ensureDyn Y p (s'.onCache (makeKnown p)) = y at h1 ⊢
    obtain ⟨s1, r⟩ := x
    obtain ⟨s1', r'⟩ := y
    obtain ⟨h1, h2⟩ := h1
    cases h2
    cases r with
    | panic k => exact .inr ⟨h1, rfl⟩
    | stuck => exact .inr ⟨h1, rfl⟩
    | overflow => exact .inr ⟨h1, rfl⟩
    | val d =>
      simp only
      refine callHook_crash hE hD _ h1 fun s2 h2 => ?_
      have h3 := runProgH_crash (Y := Y) hE hD hg (p := p) (Y.code p.b) (hY.code p.b) (h2.onCache (·.emit (.call p)))
      generalize runProgH Y D g p (Y.code p.b) (s2.onCache (·.emit (.call p))) = x at h3 ⊢
      generalize runProg Y g' p (Y.code p.b) (s1'.onCache (·.emit (.call p))) = y at h3 ⊢
      obtain ⟨s3, r⟩ := x
      obtain ⟨s3', r'⟩ := y
      rcases h3 with h3 | ⟨h3, h4⟩
      · cases h3; exact .inl rfl
      · cases h4
        rcases r with (e | v) | k | _ | _
        · exact .inr ⟨h3, rfl⟩
        · simp only
          refine callHook_crash hE hD _ h3 fun s4 h4 => ?_
          unfold storeH
          simp only
          cases s4.c.artifacts[p.id]? with
          | none => exact .inr ⟨h4.onCache _, rfl⟩
          | some old => exact callHook_crash hE hD _ (h4.onCache _) fun s5 h5 => .inr ⟨h5, rfl⟩
        · exact .inr ⟨h3, rfl⟩
        · exact .inr ⟨h3, rfl⟩
        · exact .inr ⟨h3, rfl⟩

theorem fresh_crash {p : Promise σ} {x y : St σ × Res (Except σ.E σ.V)} (h : OrCrash E x y) :
    OrCrash E (fresh Y p x) (fresh Y p y) := by
  obtain ⟨s, r⟩ := x
  obtain ⟨s', r'⟩ := y
  rcases h with h | ⟨h, h2⟩
  · cases h; exact .inl rfl
  · cases h2
    unfold fresh
    rcases r with (e | v) | k | _ | _
    · exact .inr ⟨h, rfl⟩
    · simp only
      split <;> exact .inr ⟨h, rfl⟩
    · exact .inr ⟨h, rfl⟩
    · exact .inr ⟨h, rfl⟩
    · exact .inr ⟨h, rfl⟩

theorem getByH_crash (hE : Equivalence E) (hD : D.privateTo E) {b b' : BuildFn σ} (hb : BuildCrash E b b') :
    GetCrash E (getByH Y D b) (getBy Y b') := by
  intro how p s s' hs
  have href : OrCrash E (getRef Y b p s) (getRef Y b' p s') := by
    unfold getRef
    rw [← hs.1]
    generalize lookupRef Y p s.c = r
    rcases r with (_ | v) | _ | _ | _
    · exact fresh_crash (hb p s s' hs)
    all_goals exact .inr ⟨hs, rfl⟩
  unfold getByH getBy
  have hl : s'.live p = s.live p := by unfold St.live; rw [hs.2.1]
  rw [hl]
  split
  · cases how with
    | bin =>
      simp only
      unfold getBin
      rw [← hs.1]
      generalize lookup Y p s.c = r
      rcases r with (_ | v) | _ | _ | _
      · exact fresh_crash (hb p s s' hs)
      all_goals exact .inr ⟨hs, rfl⟩
    | ref => exact href
    | cloned =>
      simp only
      unfold getClonedH getCloned
      generalize getRef Y b p s = x at href ⊢
      generalize getRef Y b' p s' = y at href ⊢
      obtain ⟨s1, r⟩ := x
      obtain ⟨s1', r'⟩ := y
      rcases href with h | ⟨h, h2⟩
      · cases h; exact .inl rfl
      · cases h2
        rcases r with (e | v) | k | _ | _
        · exact .inr ⟨h, rfl⟩
        · exact callHook_crash hE hD _ h fun s4 h4 => .inr ⟨h4, rfl⟩
        · exact .inr ⟨h, rfl⟩
        · exact .inr ⟨h, rfl⟩
        · exact .inr ⟨h, rfl⟩
  · exact .inr ⟨hs, rfl⟩

theorem getAH_crash (hE : Equivalence E) (hY : Y.Blind E) (hD : D.privateTo E) (n : Nat) :
    GetCrash E (getAH Y D n) (getA Y n) ∧ BuildCrash E (buildNH Y D n) (buildN Y n) := by
  induction n with
  | zero =>
    have h : BuildCrash E (fun _ s => (s, .overflow)) (fun _ s => (s, .overflow) : BuildFn σ) :=
      fun p s s' hs => .inr ⟨hs, rfl⟩
    exact ⟨getByH_crash hE hD h, h⟩
  | succ n ih =>
    have h := buildH_crash (Y := Y) hE hY hD ih.1
    exact ⟨getByH_crash hE hD h, h⟩

theorem selectDead_world (s : St σ) (w : σ.W) (l : List Id) :
    selectDead { s with w := w } l = selectDead s l := by
  induction l with
  | nil => rfl
  | cons a l ih => simp only [selectDead, ih, isDead]; rfl

theorem execH_crash (hE : Equivalence E) (hY : Y.Blind E) (hD : D.privateTo E) (n : Nat) (ord : HashOrder)
    {op : Op σ} (hop : op.blind E) (hs : SameFor E s s') :
    OrCrash E (execH Y D n ord s op) (exec Y n ord s' op) := by
  have map : ∀ {α : Type} {x y : St σ × Res α} (f : α → Ans σ), OrCrash E x y →
      OrCrash E (x.1, x.2.map f) (y.1, y.2.map f) := by
    rintro α ⟨s, r⟩ ⟨s', r'⟩ f (h | ⟨h, h2⟩)
    · cases h; exact .inl rfl
    · cases h2; exact .inr ⟨h, rfl⟩
  have tell : ∀ (p : Promise σ) (x : Cache σ × LoopEnd),
      OrCrash E (thenTell D p s x) ({ s' with c := x.1 }, x.2.res (Ans.unit (σ := σ))) := by
    rintro p ⟨c, _ | k | _⟩
    · exact callHook_crash hE hD _ (s := { s with c := c }) (s' := { s' with c := c }) ⟨rfl, hs.2.1, hs.2.2.1, hs.2.2.2⟩
        fun s4 h4 => .inr ⟨h4, rfl⟩
    · exact .inr ⟨⟨rfl, hs.2.1, hs.2.2.1, hs.2.2.2⟩, rfl⟩
    · exact .inr ⟨⟨rfl, hs.2.1, hs.2.2.1, hs.2.2.2⟩, rfl⟩
  cases op with
  | get how p => exact map _ ((getAH_crash hE hY hD n).1 how p s s' hs)
  | getMut p f =>
    have h1 : OrCrash E (getMut Y ord (buildNH Y D n) p s) (getMut Y ord (buildN Y n) p s') := by
      obtain ⟨w', rfl, hw⟩ := hs.of_world
      unfold getMut
      simp only
      generalize lookupMut Y ord p s.c = x
      obtain ⟨c, r⟩ := x
      rcases r with (_ | v) | k | _ | _
      · exact fresh_crash ((getAH_crash hE hY hD n).2 p _ _ ⟨rfl, rfl, rfl, hw⟩)
      · simp only
        generalize lookupMut Y ord p c = x
        obtain ⟨c, r⟩ := x
        rcases r with (_ | v) | k | _ | _ <;> exact .inr ⟨⟨rfl, rfl, rfl, hw⟩, rfl⟩
      all_goals exact .inr ⟨⟨rfl, rfl, rfl, hw⟩, rfl⟩
    simp only [execH, exec]
    generalize getMut Y ord (buildNH Y D n) p s = x at h1 ⊢
    generalize getMut Y ord (buildN Y n) p s' = y at h1 ⊢
    obtain ⟨s1, r⟩ := x
    obtain ⟨s1', r'⟩ := y
    rcases h1 with h | ⟨h, h2⟩
    · cases h; exact .inl rfl
    · cases h2
      rcases r with (e | v) | k | _ | _
      · exact .inr ⟨h, rfl⟩
      · simp only
        rw [← h.1]
        generalize writeArt Y p f v s1.c = o
        cases o with
        | none => exact .inr ⟨h, rfl⟩
        | some c => exact .inr ⟨⟨rfl, h.2.1, h.2.2.1, h.2.2.2⟩, rfl⟩
      · exact .inr ⟨h, rfl⟩
      · exact .inr ⟨h, rfl⟩
      · exact .inr ⟨h, rfl⟩
  | lookup how p =>
    have h1 : OrCrash E (lookupByH Y D how p s) (s', lookupBy Y how p s'.c) := by
      rw [← hs.1]
      cases how with
      | bin => exact .inr ⟨hs, rfl⟩
      | ref => exact .inr ⟨hs, rfl⟩
      | cloned =>
        simp only [lookupByH, lookupBy, lookupCloned]
        generalize lookupRef Y p s.c = r
        rcases r with (_ | v) | _ | _ | _
        · exact .inr ⟨hs, rfl⟩
        · exact callHook_crash hE hD _ hs fun s4 h4 => .inr ⟨h4, rfl⟩
        all_goals exact .inr ⟨hs, rfl⟩
    exact map _ h1
  | dynStateMut p f =>
    refine map _ ?_
    unfold dynStateMutH dynStateMut
    rw [← hs.1]
    generalize invalidate Y ord p s.c = x
    obtain ⟨c, _ | k | _⟩ := x
    · refine callHook_crash hE hD _ (s' := { s' with c := c }) ⟨rfl, hs.2.1, hs.2.2.1, hs.2.2.2⟩ fun s1 h1 => ?_
      have h2 := ensureDyn_crash hY p h1
      simp only
      generalize ensureDyn Y p s1 = x at h2 ⊢
      generalize ensureDyn Y p { s' with c := c } = y at h2 ⊢
      obtain ⟨s1, r⟩ := x
      obtain ⟨s1', r'⟩ := y
      obtain ⟨h2, h3⟩ := h2
      cases h3
      cases r with
      | val d =>
        simp only
        split
        · exact .inr ⟨h2.onCache _, rfl⟩
        · exact .inr ⟨h2, rfl⟩
      | _ => exact .inr ⟨h2, rfl⟩
    · exact .inr ⟨⟨rfl, hs.2.1, hs.2.2.1, hs.2.2.2⟩, rfl⟩
    · exact .inr ⟨⟨rfl, hs.2.1, hs.2.2.1, hs.2.2.2⟩, rfl⟩
  | invalidate p => simp only [execH, exec]; rw [← hs.1]; exact tell p _
  | purge p => simp only [execH, exec]; rw [← hs.1]; exact tell p _
  | clearAll => exact callHook_crash hE hD _ (hs.onCache clearAll) fun s4 h4 => .inr ⟨h4, rfl⟩
  | clearArtifacts => exact .inr ⟨hs.onCache clearArtifacts, rfl⟩
  | world f => exact .inr ⟨⟨hs.1, hs.2.1, hs.2.2.1, hop _ _ hs.2.2.2⟩, rfl⟩
  | dynState p =>
    obtain ⟨h1, h2⟩ := ensureDyn_crash hY p hs
    exact .inr ⟨h1, congrArg (·.map Ans.state) h2⟩
  | lookupMut p f =>
    obtain ⟨w', rfl, hw⟩ := hs.of_world
    simp only [execH, exec]
    generalize lookupMut Y ord p s.c = x
    obtain ⟨c, r⟩ := x
    rcases r with (_ | v) | k | _ | _
    · exact .inr ⟨⟨rfl, rfl, rfl, hw⟩, rfl⟩
    · simp only
      generalize writeArt Y p f v c = o
      cases o <;> exact .inr ⟨⟨rfl, rfl, rfl, hw⟩, rfl⟩
    all_goals exact .inr ⟨⟨rfl, rfl, rfl, hw⟩, rfl⟩
  | getDynState p => simp only [execH, exec]; rw [← hs.1]; exact .inr ⟨hs, rfl⟩
  | isKnown p => simp only [execH, exec]; rw [← hs.1]; exact .inr ⟨hs, rfl⟩
  | numKnown => simp only [execH, exec]; rw [← hs.1]; exact .inr ⟨hs, rfl⟩
  | gc =>
    obtain ⟨w', rfl, hw⟩ := hs.of_world
    have key : garbageCollection Y ord { s with w := w' } = garbageCollection Y ord s := by
      unfold garbageCollection
      rw [selectDead_world]
    simp only [execH, exec, key]
    exact .inr ⟨⟨rfl, rfl, rfl, hw⟩, rfl⟩
  | alloc q =>
    obtain ⟨w', rfl, hw⟩ := hs.of_world
    simp only [execH, exec, allocB]
    by_cases hc : (s.heap.contains q.id || s.c.known.contains q.id || decide (q.b ∈ s.born)) = true
    · simp only [hc, if_true]; exact .inr ⟨hs, rfl⟩
    · simp only [hc]; exact .inr ⟨⟨rfl, rfl, rfl, hw⟩, rfl⟩
  | free a =>
    obtain ⟨w', rfl, hw⟩ := hs.of_world
    exact .inr ⟨⟨rfl, rfl, rfl, hw⟩, rfl⟩

theorem stepH_crash (hE : Equivalence E) (hY : Y.Blind E) (hD : D.privateTo E) (n : Nat) (ord : HashOrder)
    {op : Op σ} (hop : op.blind E) (hs : SameFor E s s') :
    OrCrash E (stepH Y D n ord s op) (step Y n ord s' op) := by
  have hl : ∀ p, s'.live p = s.live p := fun p => by unfold St.live; rw [hs.2.1]
  unfold stepH step
  cases op.promise? with
  | none => exact execH_crash hE hY hD n ord hop hs
  | some p =>
    simp only [hl]
    split
    · exact execH_crash hE hY hD n ord hop hs
    · exact .inr ⟨hs, rfl⟩

end

/-! ## The property -/

/-- **C59** Let the hooks only act on a part of the outside world which builders and program do not look at (`E`:
equal in the rest).  Then an operation with hooks panics in user code, or it does and answers exactly what it does
and answers without hooks. -/
theorem C59_hooks_crash_or_nothing {E : σ.W → σ.W → Prop} (hE : Equivalence E) (hY : Y.Blind E) {D : Hooks σ}
    (hD : D.privateTo E) {n : Nat} {ord : HashOrder} {op : Op σ} (hop : op.blind E) (hs : SameFor E s s') :
    (stepH Y D n ord s op).2 = .panic .user ∨
    SameFor E (stepH Y D n ord s op).1 (step Y n ord s' op).1 ∧ (stepH Y D n ord s op).2 = (step Y n ord s' op).2 :=
  stepH_crash hE hY hD n ord hop hs

/-- **C59** Hence for whole histories: a doctor with private state which does not panic (nor do builders) cannot
be noticed, whatever it does. -/
theorem C59_hooks_unnoticed {E : σ.W → σ.W → Prop} (hE : Equivalence E) (hY : Y.Blind E) (hist : HistoryH σ)
    (hD : ∀ x ∈ hist, x.1.privateTo E ∧ x.2.2.2.blind E) (hs : SameFor E s s')
    (hp : Res.panic .user ∉ (playH Y hist s).2) :
    (playH Y hist s).2 = (play Y (hist.map fun x => (x.2.1, x.2.2.1, x.2.2.2)) s').2 ∧
    SameFor E (playH Y hist s).1 (play Y (hist.map fun x => (x.2.1, x.2.2.1, x.2.2.2)) s').1 := by
  induction hist generalizing s s' with
  | nil => exact ⟨rfl, hs⟩
  | cons x hist ih =>
    obtain ⟨D, n, ord, op⟩ := x
    simp only [playH, List.mem_cons, not_or] at hp
    simp only [playH, play, List.map_cons]
    obtain ⟨h1, h2⟩ := hD _ (List.mem_cons_self ..)
    rcases C59_hooks_crash_or_nothing hE hY h1 h2 hs (n := n) (ord := ord) with h | ⟨h3, h4⟩
    · exact absurd h.symm hp.1
    · obtain ⟨h5, h6⟩ := ih (fun x hx => hD x (List.mem_cons_of_mem _ hx)) h3 hp.2
      exact ⟨by rw [h4, h5], h6⟩

/-- **C59** With hooks that do nothing, the model with hooks is the model without. -/
theorem C59_quiet_hooks {D : Hooks σ} (hD : ∀ w h, D w h = (w, false)) (n : Nat) (ord : HashOrder) (s : St σ)
    (op : Op σ) : stepH Y D n ord s op = step Y n ord s op := by
  have hc : ∀ {α : Type} (h : Hook σ) (s : St σ) (k : St σ → St σ × Res α), callHook D h s k = k s := by
    intro α h s k; simp only [callHook, hD]
  have hprog : ∀ (g : Getter σ) (p : Promise σ) (prog : Prog σ) (s : St σ),
      runProgH Y D g p prog s = runProg Y g p prog s := by
    intro g p prog
    induction prog with
    | ret r => intro s; cases r <;> rfl
    | panic => intro s; rfl
    | resolve how q k ih => intro s; simp only [runProgH, runProg, hc, ih]
    | myState f k ih => intro s; simp only [runProgH, runProg, ih]
    | world f k ih => intro s; simp only [runProgH, runProg, ih]
    | alloc q k ih => intro s; simp only [runProgH, runProg, ih]
    | free a k ih => intro s; simp only [runProgH, runProg, ih]
  have hbuild : ∀ g : Getter σ, buildH Y D g = build Y g := by
    have hst : ∀ p v, storeH D p v = fun s =>
        (s.onCache fun c => { c.emit (.built p v) with artifacts := c.artifacts.insert p.id v }, .val (.ok v)) := by
      intro p v; funext s
      simp only [storeH, hc]
      cases s.c.artifacts[p.id]? <;> rfl
    intro g; funext p s; simp only [buildH, build, hc, hprog, hst]
  have hby : ∀ b : BuildFn σ, getByH Y D b = getBy Y b := by
    intro b; funext how p s
    have : getClonedH Y D b p s = getCloned Y b p s := by simp only [getClonedH, getCloned, hc]
    simp only [getByH, getBy, this]
  have hget : ∀ n, getAH Y D n = getA Y n := by
    intro n
    induction n with
    | zero => exact hby _
    | succ n ih => rw [getAH, hby, hbuild, ih]; rfl
  have hbn : ∀ n, buildNH Y D n = buildN Y n := by
    intro n
    cases n with
    | zero => rfl
    | succ n => rw [buildNH, hbuild, hget]; rfl
  have tell : ∀ (p : Promise σ) (x : Cache σ × LoopEnd),
      thenTell D p s x = ({ s with c := x.1 }, x.2.res (Ans.unit (σ := σ))) := by
    rintro p ⟨c, _ | k | _⟩
    · simp only [thenTell, hc]; rfl
    · rfl
    · rfl
  have hex : execH Y D n ord s op = exec Y n ord s op := by
    cases op with
    | get how p => simp only [execH, exec, hget]
    | getMut p f => simp only [execH, exec, hbn]
    | lookup how p =>
      simp only [execH, exec]
      cases how with
      | bin => rfl
      | ref => rfl
      | cloned =>
        simp only [lookupByH, lookupBy, lookupCloned]
        generalize lookupRef Y p s.c = r
        rcases r with (_ | v) | _ | _ | _ <;> (try simp only [hc]) <;> rfl
    | dynStateMut p f => simp only [execH, exec, dynStateMutH, dynStateMut, hc]
    | invalidate p => exact tell p _
    | purge p => exact tell p _
    | clearAll => simp only [execH, exec, hc]
    | _ => rfl
  unfold stepH step
  rw [hex]

/-- **C59** An operation during which a hook or a builder panicked leaves a state of which everything holds that
is proved of reachable states. -/
theorem C59_crash_is_reachable (h : Reachable Y s) {D : Hooks σ} {n : Nat} {ord : HashOrder} {op : Op σ}
    {k : Panic} (hs : stepH Y D n ord s op = (s', .panic k)) (hk : k ≠ .noCounterpart) : Reachable Y s' := by
  have := Reachable.hooked D n ord op h (by rw [hs]; exact hk)
  rwa [hs] at this

/-- **C59** A `get(p)` in which user code panicked, be it a builder, the doctor, `Debug` or `Clone`, keeps all
artifacts, all known builders and all dynamic states of builders that were not called; what is newly cached was
built and reported during this call. -/
theorem C59_get_crash (h : Reachable Y s) {D : Hooks σ} {n : Nat} {ord : HashOrder} {how : Access} {p : Promise σ}
    {k : Panic} (hs : stepH Y D n ord s (.get how p) = (s', .panic k)) :
    (∀ a v, Cached s a v → Cached s' a v) ∧ (∀ a, Known s a → Known s' a) ∧
    (∀ a d, HasState s a d → HasState s' a d ∨ ∃ q : Promise σ, q.id = a ∧ Since s s' (.call q)) ∧
    (∀ a d, HasState s a d → ∃ d', HasState s' a d') ∧
    (∀ u d, UsesNow s u d → UsesNow s' u d) ∧
    (∀ a v, Cached s' a v → Uncached s a → ∃ q : Promise σ, q.id = a ∧ Since s s' (.built q v)) := by
  have hl : s.live p = true := by
    cases hl : s.live p with
    | true => rfl
    | false => simp [stepH, Op.promise?, hl] at hs
  rw [show stepH Y D n ord s (.get how p) = execH Y D n ord s (.get how p) by simp [stepH, Op.promise?, hl]] at hs
  simp only [execH] at hs
  have hran := (getAH_ok Y D n).1 how p s h.inv
  have e1 : (getAH Y D n how p s).1 = s' := congrArg Prod.fst hs
  generalize getAH Y D n how p s = x at hran e1
  obtain ⟨s1, r⟩ := x
  obtain rfl : s1 = s' := e1
  have hm := hran.micros
  refine ⟨hran.keep, ?_, ?_, ?_, ?_, ?_⟩
  · intro a ha
    obtain ⟨b, hb⟩ := (mem_getElem _ _).1 ha
    exact (mem_getElem _ _).2 ⟨b, hm.known_mono _ _ hb⟩
  · intro a d hd
    rcases hran.dynLocal a (fun h => h) with h1 | h1
    · exact .inl (h1 d hd)
    · exact .inr h1
  · intro a d hd; exact (mem_getElem _ _).1 (hm.dyn_mono a ((mem_getElem _ _).2 ⟨d, hd⟩))
  · intro u d hu
    rw [usesNow_iff] at hu ⊢
    exact hm.dep_mono _ _ hu
  · intro a v hv hu
    rcases hm.art_built (a := a) with e | ⟨q, v', h1, h2, h3⟩
    · unfold Cached at hv; unfold Uncached at hu
      rw [e, hu] at hv; cases hv
    · unfold Cached at hv
      rw [h2] at hv; cases hv
      exact ⟨q, h1, h3⟩

/-- **C59** A panic of the doctor in `invalidate`, `purge` or `clear_all` comes too late to matter: the operation
has its full effect on the cache. -/
theorem C59_invalidation_complete {D : Hooks σ} {n : Nat} {ord : HashOrder} {op : Op σ}
    (hop : (∃ p, op = .invalidate p ∨ op = .purge p) ∨ op = .clearAll) :
    (stepH Y D n ord s op).1.c = (step Y n ord s op).1.c ∧ (stepH Y D n ord s op).1.heap = (step Y n ord s op).1.heap ∧
    ((stepH Y D n ord s op).2 = (step Y n ord s op).2 ∨ (stepH Y D n ord s op).2 = .panic .user) := by
  have hd : op.deep = false := by
    rcases hop with ⟨p, rfl | rfl⟩ | rfl <;> rfl
  obtain ⟨w, h1, h2⟩ := execH_shallow (Y := Y) (s := s) D n ord op hd
  have key : (execH Y D n ord s op).1.c = (exec Y n ord s op).1.c ∧
      (execH Y D n ord s op).1.heap = (exec Y n ord s op).1.heap ∧
      ((execH Y D n ord s op).2 = (exec Y n ord s op).2 ∨ (execH Y D n ord s op).2 = .panic .user) := by
    rw [h1]
    exact ⟨rfl, rfl, h2.imp id And.left⟩
  unfold stepH step
  cases op.promise? with
  | none => exact key
  | some p =>
    simp only
    split
    · exact key
    · exact ⟨rfl, rfl, .inl rfl⟩

/-- **C59** The doctor's panic comes out of these operations, and no other: they panic iff the doctor does. -/
theorem C59_invalidation_panics_iff (h : Reachable Y s) {D : Hooks σ} {n : Nat} {ord : HashOrder} :
    (∀ p, s.live p = true → ∀ op, op = .invalidate p ∨ op = .purge p → (stepH Y D n ord s op).2 =
      if (D s.w (.report (.invalidate p))).2 then .panic .user else .val .unit) ∧
    (stepH Y D n ord s .clearAll).2 = if (D s.w (.report .clear)).2 then .panic .user else .val .unit := by
  have call : ∀ (hk : Hook σ) (s : St σ), (callHook D hk s fun s => (s, .val (.unit : Ans σ))).2 =
      if (D s.w hk).2 then .panic .user else .val .unit := by
    intro hk s
    unfold callHook
    generalize D s.w hk = x
    obtain ⟨w, c⟩ := x
    cases c <;> rfl
  refine ⟨?_, call _ _⟩
  rintro p hl op (rfl | rfl)
  · obtain ⟨c, e, _⟩ := invalidate_spec h.inv ord p
    simp only [stepH, Op.promise?, hl, if_true, execH, e, thenTell]
    exact call _ _
  · obtain ⟨c, cF, e, _, rfl⟩ := purge_spec h.inv ord p
    simp only [stepH, Op.promise?, hl, if_true, execH, e, thenTell]
    exact call _ _

/-- **C59** `dyn_state_mut(p)` tells the doctor before the dynamic state is initialised or handed out: a panic of
the doctor leaves the cache as after `invalidate(p)`; otherwise all is as without doctor. -/
theorem C59_dyn_state_mut_crash (h : Reachable Y s) {p : Promise σ} (hl : s.live p = true) {D : Hooks σ} {n : Nat}
    {ord : HashOrder} {f : σ.S → σ.S} :
    let w := D s.w (.report (.invalidate p))
    (w.2 = true → stepH Y D n ord s (.dynStateMut p f) =
      ({ (step Y n ord s (.invalidate p)).1 with w := w.1 }, .panic .user)) ∧
    (w.2 = false → stepH Y D n ord s (.dynStateMut p f) = step Y n ord { s with w := w.1 } (.dynStateMut p f)) := by
  have e1 : stepH Y D n ord s (.dynStateMut p f) = execH Y D n ord s (.dynStateMut p f) := by
    simp [stepH, Op.promise?, hl]
  have e2 : step Y n ord s (.invalidate p) = exec Y n ord s (.invalidate p) := step_live rfl hl
  have e3 : ∀ w, step Y n ord { s with w := w } (.dynStateMut p f) = exec Y n ord { s with w := w } (.dynStateMut p f) :=
    fun w => step_live rfl hl
  obtain ⟨c', he, hd⟩ := invalidate_spec h.inv ord p
  simp only
  rw [e1, e2]
  simp only [e3, execH, exec, dynStateMutH, dynStateMut, he, callHook]
  generalize D s.w (.report (.invalidate p)) = x
  obtain ⟨w, c⟩ := x
  cases c
  · refine ⟨fun h => (Bool.false_ne_true h).elim, fun _ => rfl⟩
  · exact ⟨fun _ => rfl, fun h => (Bool.false_ne_true h.symm).elim⟩

/-- **C21** is false for one more reason: if the doctor panics while `dyn_state_mut(p)` tells it about the
invalidation of `p`, and `p` was not known, then the garbage collection panics. -/
theorem C21_gc_panics_after_doctor_panic (h : Reachable Y s) {p : Promise σ} (hl : s.live p = true)
    (hk : ¬ Known s p.id) {D : Hooks σ} (hD : (D s.w (.report (.invalidate p))).2 = true) (n n' : Nat)
    (ord ord' : HashOrder) (f : σ.S → σ.S) :
    (stepH Y D n ord s (.dynStateMut p f)).2 = .panic .user ∧
    (step Y n' ord' (stepH Y D n ord s (.dynStateMut p f)).1 .gc).2 = .panic .leafUnknown := by
  have e := (C59_dyn_state_mut_crash h hl (n := n) (ord := ord) (f := f)).1 hD
  have hg : (stepH Y D n ord s (.dynStateMut p f)).2.goesOn := by rw [e]; simp [Res.goesOn]
  have hr := Reachable.hooked D n ord _ h hg
  have hk' : p.id ∉ (stepH Y D n ord s (.dynStateMut p f)).1.c.known := by
    rw [e]
    obtain ⟨c', he, hd⟩ := step_invalidate h hl n ord
    rw [he]
    simp only [Cache.emit, hd.known]
    exact hk
  have hs : StrayLeaf (stepH Y D n ord s (.dynStateMut p f)).1.c p.id :=
    ((Went.hooked D n ord).stray h.inv hg p.id).2
      ⟨hk', by simp, Or.inl (Or.inr (Or.inr (Or.inr ⟨p, f, rfl, rfl⟩)))⟩
  refine ⟨by rw [e], ?_⟩
  rcases step_gc hr n' ord' with ⟨e, _⟩ | ⟨h1, _⟩
  · rw [e]
  · exact absurd (h1 _ hs.1) hs.2

/-! ## A concrete system with a doctor -/

namespace Demo

set_option smartUnfolding false

/-- The world is a pair: the first number is for builders, the second for the doctor. -/
abbrev sigH : Sig := ⟨Nat, Nat, Nat, Nat, Nat × Nat, Nat, inferInstance, inferInstance⟩

/-- Builder `b` lives at address `10 + b`. -/
def PH (b : Nat) : Promise sigH := ⟨10 + b, b⟩

/-- 0 returns the builders' part of the world, which it increments; 1 returns a clone of the artifact of 0,
plus 100; 2 resolves itself, unless the builders' part of the world is 0, to which it sets it. -/
def codeH : Nat → Prog sigH
  | 0 => .world (fun w => (w.1 + 1, w.2)) fun w => .ret (.ok w.1)
  | 1 => .resolve .cloned (PH 0) fun r => match r with
    | .ok v => .ret (.ok (v + 100))
    | .error e => .ret (.error e)
  | 2 => .world (fun w => (0, w.2)) fun w => match w.1 with
    | 0 => .ret (.ok 8)
    | _ => .resolve .bin (PH 2) fun _ => .ret (.ok 9)
  | b => .ret (.ok b)

/-- The system of these builders. -/
def YH : Sys sigH where
  code := codeH
  init b w := (w, some b)
  vty _ := 0
  sty _ := 0
  artTy _ := 0
  stTy _ := 0
  clone v := v
  debug := true

/-- The builders' part of the world is the same. -/
def sameFst (w w' : Nat × Nat) : Prop := w.1 = w'.1

theorem sameFst_equiv : Equivalence sameFst := ⟨fun _ => rfl, fun h => h.symm, fun h h' => h.trans h'⟩

theorem YH_blind : YH.Blind sameFst := by
  refine ⟨fun b => ?_, fun b w w' h => ⟨h, rfl⟩⟩
  match b with
  | 0 =>
    refine ⟨fun w w' (h : w.1 = w'.1) => ⟨congrArg (· + 1) h, ?_⟩, fun _ => trivial⟩
    simp only [h]
  | 1 => intro r; rcases r with e | v <;> exact trivial
  | 2 =>
    refine ⟨fun w w' (h : w.1 = w'.1) => ⟨rfl, ?_⟩, fun w => ?_⟩
    · simp only [h]
    · show Prog.blind _ (match w.1 with | 0 => _ | _ => _)
      split
      · exact trivial
      · exact fun _ => trivial
  | b + 3 => exact trivial

/-- A doctor that counts its calls down and panics at 0. -/
def fuse : Hooks sigH := fun w _ => ((w.1, w.2 - 1), w.2 == 0)

theorem fuse_private : fuse.privateTo sameFst := fun _ _ => rfl

/-- 0 and 1 are allocated, the fuse is set to `k`. -/
def sH (k : Nat) : St sigH :=
  (step YH 9 ord (step YH 9 ord (St.new (σ := sigH) (7, k)) (.alloc (PH 0))).1 (.alloc (PH 1))).1

theorem reachH (k : Nat) : Reachable YH (sH k) :=
  .step 9 ord (.alloc (PH 1)) (.step 9 ord (.alloc (PH 0)) (.new _) trivial) trivial

/-- The hypotheses of `C59_hooks_unnoticed` are met by a doctor with state that is called eight times. -/
example :
    let hist : HistoryH sigH := [(fuse, 9, ord, .get .bin (PH 1)), (fuse, 9, ord, .invalidate (PH 0)),
      (fuse, 9, ord, .lookup .cloned (PH 1)), (fuse, 9, ord, .clearAll)]
    (playH YH hist (sH 99)).1.w = (8, 91) ∧
    (playH YH hist (sH 99)).2 = (play YH (hist.map fun x => (x.2.1, x.2.2.1, x.2.2.2)) (sH 0)).2 :=
  ⟨rfl, (C59_hooks_unnoticed sameFst_equiv YH_blind _ (by
    intro x hx
    simp only [List.mem_cons, List.not_mem_nil, or_false] at hx
    rcases hx with rfl | rfl | rfl | rfl <;> exact ⟨fuse_private, trivial⟩) ⟨rfl, rfl, rfl, rfl⟩ (by
      show (Res.panic .user : Res (Ans sigH)) ∉
        [.val (.art (.ok (107 : Nat))), .val .unit, .val (.optArt none), .val .unit]
      simp)).1⟩

/-- What is cached for 0 and 1 after a `get(1)` whose `k`-th hook call panics, for `k = 0, ..., 6`: the hooks
are the handle of 1, the doctor's `resolve`, the handle of 0, the doctor's `build` of 0, the `Clone` of the
artifact of 0, the doctor's `build` of 1. -/
example : (List.range 7).map (fun k => ((stepH YH fuse 9 ord (sH k) (.get .bin (PH 1))).2,
      (stepH YH fuse 9 ord (sH k) (.get .bin (PH 1))).1.c.artifacts[(10 : Nat)]?,
      (stepH YH fuse 9 ord (sH k) (.get .bin (PH 1))).1.c.artifacts[(11 : Nat)]?)) =
    [(.panic .user, none, none), (.panic .user, none, none), (.panic .user, none, none),
     (.panic .user, none, none), (.panic .user, some 7, none), (.panic .user, some 7, none),
     (.val (.art (.ok 107)), some 7, some 107)] := rfl

/-- The destructor of a replaced artifact is a hook, too: 2 is built re-entrantly, and the artifact 8 of the inner build is
replaced by 9.  The `k`-th hook call panics, for `k = 3, ..., 6`: the doctor's `build` of the inner one, that of the outer
one, the destructor. -/
example : (List.range 4).map (fun k => ((stepH YH fuse 9 ord (step YH 9 ord (sH (k + 3)) (.alloc (PH 2))).1 (.get .bin (PH 2))).2,
      (stepH YH fuse 9 ord (step YH 9 ord (sH (k + 3)) (.alloc (PH 2))).1 (.get .bin (PH 2))).1.c.artifacts[(12 : Nat)]?)) =
    [(.panic .user, none), (.panic .user, some 8), (.panic .user, some 9), (.val (.art (.ok 9)), some 9)] := rfl

/-- The hypothesis of `C59_get_crash` is met, with something newly cached, and the program goes on: the next
`get(1)` returns. -/
example : ∃ s', stepH YH fuse 9 ord (sH 4) (.get .bin (PH 1)) = (s', .panic .user) ∧ Cached s' 10 7 ∧
    Reachable YH s' ∧ (step YH 9 ord s' (.get .bin (PH 1))).2 = .val (.art (.ok 107)) :=
  ⟨_, rfl, rfl, C59_crash_is_reachable (k := .user) (reachH 4) (D := fuse) (n := 9) (ord := ord) (op := .get .bin (PH 1)) rfl (by decide), rfl⟩

/-- The hypotheses of `C21_gc_panics_after_doctor_panic` are met. -/
example : ∃ s', stepH YH fuse 9 ord (sH 0) (.dynStateMut (PH 0) id) = (s', .panic .user) ∧ Reachable YH s' ∧
    (step YH 9 ord s' .gc).2 = .panic .leafUnknown :=
  ⟨_, rfl, C59_crash_is_reachable (k := .user) (reachH 0) (D := fuse) (n := 9) (ord := ord) (op := .dynStateMut (PH 0) id) rfl (by decide), rfl⟩

/-- Both cases of `C59_invalidation_panics_iff`. -/
example : (stepH YH fuse 9 ord (sH 0) (.purge (PH 0))).2 = .panic .user ∧
    (stepH YH fuse 9 ord (sH 1) (.purge (PH 0))).2 = .val .unit := ⟨rfl, rfl⟩

/-- Without the panic it does not. -/
example : (step YH 9 ord (stepH YH fuse 9 ord (sH 1) (.dynStateMut (PH 0) id)).1 .gc).2 = .val .unit := rfl

/-- `C59_hooks_crash_or_nothing`: both cases occur. -/
example : (stepH YH fuse 9 ord (sH 4) (.get .bin (PH 1))).2 = .panic .user ∧
    (stepH YH fuse 9 ord (sH 9) (.get .bin (PH 1))).2 = (step YH 9 ord (sH 0) (.get .bin (PH 1))).2 := by
  refine ⟨rfl, ?_⟩
  rcases C59_hooks_crash_or_nothing sameFst_equiv YH_blind fuse_private (n := 9) (ord := ord) (op := .get .bin (PH 1))
    trivial (s := sH 9) (s' := sH 0) ⟨rfl, rfl, rfl, rfl⟩ with h | ⟨_, h⟩
  · cases h
  · exact h

/-- `C59_quiet_hooks`. -/
example : stepH YH (fun w _ => (w, false)) 9 ord (sH 0) (.get .bin (PH 1)) = step YH 9 ord (sH 0) (.get .bin (PH 1)) :=
  C59_quiet_hooks (fun _ _ => rfl) 9 ord _ _

/-- `C59_invalidation_complete`: the doctor panics in `invalidate(0)`, which drops 0 and 1 nevertheless. -/
example : let s := (step YH 9 ord (sH 0) (.get .bin (PH 1))).1
    Cached s 11 107 ∧ (stepH YH fuse 9 ord s (.invalidate (PH 0))).2 = .panic .user ∧
    Uncached (stepH YH fuse 9 ord s (.invalidate (PH 0))).1 11 := by
  refine ⟨rfl, rfl, ?_⟩
  unfold Uncached
  rw [(C59_invalidation_complete (D := fuse) (n := 9) (ord := ord) (.inl ⟨PH 0, .inl rfl⟩)).1]
  rfl

/-- `C59_dyn_state_mut_crash`: the state stays as it was. -/
example := C59_dyn_state_mut_crash (reachH 0) (p := PH 0) rfl (D := fuse) (n := 9) (ord := ord) (f := fun _ => (9 : Nat))

end Demo

end Daab
