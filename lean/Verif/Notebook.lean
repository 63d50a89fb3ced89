import Verif.Props22
import Verif.Trace
import Verif.Replay

/-!
# C40: the calls of the doctor, seen from the doctor

`reports` (C40, C44, C52, C53, C58) is read off the model's log.  Here a doctor writes down what it is called with; what it
has in its notebook are exactly these reports, in this order.
-/

open Std

namespace Daab

variable {σ : Sig} {Y : Sys σ} {s s' : St σ}

/-! ## Vocabulary -/

/-- The doctor writes down every event it is called for in its notebook `note`, which is somewhere in the outside world;
`Debug`, `Clone` and destructors do not touch it. -/
structure Notebook (note : σ.W → List (Event σ)) (D : Hooks σ) : Prop where
  report : ∀ w e, e.reported = true → note (D w (.report e)).1 = note w ++ [e]
  handle : ∀ w p, note (D w (.handle p)).1 = note w
  clone : ∀ w v, note (D w (.clone v)).1 = note w
  drop : ∀ w v, note (D w (.drop v)).1 = note w

/-- The code of a builder does not write into the notebook. -/
def Prog.spares (note : σ.W → List (Event σ)) : Prog σ → Prop
  | .ret _ => True
  | .panic => True
  | .resolve _ _ k => ∀ r, (k r).spares note
  | .myState _ k => ∀ d, (k d).spares note
  | .world f k => (∀ w, note (f w) = note w) ∧ ∀ w, (k w).spares note
  | .alloc _ k => k.spares note
  | .free _ k => k.spares note

/-- No builder writes into the notebook. -/
structure Sys.Spares (Y : Sys σ) (note : σ.W → List (Event σ)) : Prop where
  code : ∀ b, (Y.code b).spares note
  init : ∀ b w, note (Y.init b w).1 = note w

/-- Nor does the program. -/
def Op.spares (note : σ.W → List (Event σ)) : Op σ → Prop
  | .world f => ∀ w, note (f w) = note w
  | _ => True

/-! ## Proofs

More generally, a relation between the outside world and the reports is kept if the doctor keeps it. -/

/-- The doctor keeps the relation. -/
structure Keeper (R : σ.W → List (Event σ) → Prop) (D : Hooks σ) : Prop where
  report : ∀ w l e, e.reported = true → R w l → R (D w (.report e)).1 (l ++ [e])
  handle : ∀ w l p, R w l → R (D w (.handle p)).1 l
  clone : ∀ w l v, R w l → R (D w (.clone v)).1 l
  drop : ∀ w l v, R w l → R (D w (.drop v)).1 l

/-- The code of a builder does not disturb it. -/
def Prog.upholds (R : σ.W → List (Event σ) → Prop) : Prog σ → Prop
  | .ret _ => True
  | .panic => True
  | .resolve _ _ k => ∀ r, (k r).upholds R
  | .myState _ k => ∀ d, (k d).upholds R
  | .world f k => (∀ w l, R w l → R (f w) l) ∧ ∀ w, (k w).upholds R
  | .alloc _ k => k.upholds R
  | .free _ k => k.upholds R

/-- No builder disturbs it. -/
structure Sys.Upholds (Y : Sys σ) (R : σ.W → List (Event σ) → Prop) : Prop where
  code : ∀ b, (Y.code b).upholds R
  init : ∀ b w l, R w l → R (Y.init b w).1 l

/-- Nor does the program. -/
def Op.upholds (R : σ.W → List (Event σ) → Prop) : Op σ → Prop
  | .world f => ∀ w l, R w l → R (f w) l
  | _ => True

/-- The relation holds; except that, if the doctor panicked when called for a fresh artifact, it holds as if the call
had been reported. -/
def Kept (R : σ.W → List (Event σ) → Prop) (D : Hooks σ) {α : Type} (x : St σ × Res α) : Prop :=
  R x.1.w (reports x.1) ∨ x.2 = .panic .user ∧ ∃ p v w, D w (.report (.built p v)) = (x.1.w, true) ∧
    R w (reports x.1) ∧ R x.1.w (reports x.1 ++ [.built p v])

section
variable {R : σ.W → List (Event σ) → Prop} {D : Hooks σ}

/-- A call for an event the log already has. -/
theorem Keeper.told (hD : Keeper R D) {α : Type} {e : Event σ} {k : St σ → St σ × Res α}
    (he : e.reported = true) (hs : ∃ l, R s.w l ∧ l ++ [e] = reports s)
    (hk : ∀ s, R s.w (reports s) → Kept R D (k s)) : Kept R D (callHook D (.report e) s k) := by
  obtain ⟨l, hl, hs⟩ := hs
  have h1 := hD.report s.w l e he hl
  rw [hs] at h1
  unfold callHook
  generalize D s.w (.report e) = x at h1 ⊢
  obtain ⟨w, c⟩ := x
  simp only at h1
  cases c
  · exact hk _ h1
  · exact .inl h1

/-- A call that does not write. -/
theorem Keeper.quiet {α : Type} {h : Hook σ} {k : St σ → St σ × Res α}
    (hh : ∀ w l, R w l → R (D w h).1 l) (hs : R s.w (reports s))
    (hk : ∀ s, R s.w (reports s) → Kept R D (k s)) : Kept R D (callHook D h s k) := by
  have h1 := hh s.w _ hs
  unfold callHook
  generalize D s.w h = x at h1 ⊢
  obtain ⟨w, c⟩ := x
  simp only at h1
  cases c
  · exact hk _ h1
  · exact .inl h1

theorem ensureDyn_note (hY : Y.Upholds R) (p : Promise σ) (s : St σ) {l : List (Event σ)} (hs : R s.w l) :
    R (ensureDyn Y p s).1.w l := by
  unfold ensureDyn
  simp only [St.onCache]
  split
  · exact hs
  · have hi := hY.init p.b s.w l hs
    generalize Y.init p.b s.w = x at hi ⊢
    obtain ⟨w1, o1⟩ := x
    simp only at hi
    cases o1 with
    | none => exact hi
    | some d =>
      simp only
      split
      · exact hi
      · exact hs

theorem myState_note (p : Promise σ) (f : σ.S → σ.S) (s : St σ) : (myState Y p f s).1.w = s.w := by
  unfold myState
  repeat' split
  all_goals rfl

/-- Getters write down what they report. -/
def GetNotes (R : σ.W → List (Event σ) → Prop) (D : Hooks σ) (g : Getter σ) : Prop :=
  ∀ how p s, R s.w (reports s) → Kept R D (g how p s)

/-- Builds, too. -/
def BuildNotes (R : σ.W → List (Event σ) → Prop) (D : Hooks σ) (b : BuildFn σ) : Prop :=
  ∀ p s, R s.w (reports s) → Kept R D (b p s)

theorem runProgH_notes (hD : Keeper R D) {g : Getter σ} (hg : GetNotes R D g)
    {p : Promise σ} (prog : Prog σ) (hb : prog.upholds R) (hs : R s.w (reports s)) :
    Kept R D (runProgH Y D g p prog s) := by
  induction prog generalizing s with
  | ret r => cases r <;> exact .inl hs
  | panic => exact .inl hs
  | resolve how q k ih =>
    rw [runProgH]
    split
    · unfold track
      simp only
      have h0 : reports (s.onCache (makeKnown q)) = reports s :=
        reports_congr (by simp [St.onCache, makeKnown_log])
      by_cases hd : (Y.debug && !isKnown p.id (makeKnown q s.c)) = true
      · simp only [hd, if_true]
        exact .inl (h0 ▸ hs)
      · simp only [hd]
        have h1 : reports ((s.onCache (makeKnown q)).onCache (addEdge p q)) = reports s ++ [.resolve p q] := by
          rw [← h0]; exact reports_cons rfl (by rfl)
        refine hD.told (s := (s.onCache (makeKnown q)).onCache (addEdge p q)) rfl ⟨_, hs, h1.symm⟩ fun s1 hs1 => ?_
        have h2 := hg how q s1 hs1
        generalize g how q s1 = x at h2 ⊢
        obtain ⟨s2, r⟩ := x
        rcases h2 with h2 | ⟨h2, h3⟩
        · cases r with
          | val r => exact ih r (hb r) h2
          | _ => exact .inl h2
        · cases h2; exact .inr ⟨rfl, h3⟩
    · exact .inl hs
  | myState f k ih =>
    rw [runProgH]
    have h1 := myState_reports (Y := Y) p f s
    have h2 := myState_note (Y := Y) p f s
    generalize myState Y p f s = x at h1 h2 ⊢
    obtain ⟨s1, r⟩ := x
    simp only at h1 h2
    have h3 : R s1.w (reports s1) := by rw [h1, h2]; exact hs
    cases r with
    | val d => exact ih d (hb d) h3
    | _ => exact .inl h3
  | world f k ih => rw [runProgH]; exact ih s.w (hb.2 s.w) (hb.1 s.w _ hs)
  | alloc q k ih =>
    rw [runProgH]
    cases ha : allocB q s with
    | none => exact .inl hs
    | some s1 =>
      refine ih hb ?_
      have h7 : reports s1 = reports s := reports_congr (by rw [allocB_c ha])
      have h8 : s1.w = s.w := by
        unfold allocB at ha
        split at ha
        · cases ha
        · cases ha; rfl
      rw [h7, h8]; exact hs
  | free a k ih => rw [runProgH]; exact ih hb hs

theorem buildH_notes (hY : Y.Upholds R) (hD : Keeper R D) {g : Getter σ} (hg : GetNotes R D g) :
    BuildNotes R D (buildH Y D g) := by
  intro p s hs
  unfold buildH
  split
  · exact .inl hs
  · simp only
    have h1 := (ensureDyn_note hY p (s.onCache (makeKnown p)) hs)
    have h2 := (ensureDyn_reports (Y := Y) p (s.onCache (makeKnown p))).trans
      (reports_congr (s := s) (by simp [St.onCache, makeKnown_log]))
    generalize ensureDyn Y p (s.onCache (makeKnown p)) = x at h1 h2 ⊢
    obtain ⟨s1, r⟩ := x
    simp only at h1 h2
    have h3 : R s1.w (reports s1) := by rw [h2]; exact h1
    cases r with
    | val d =>
      simp only
      refine Keeper.quiet (fun w l => hD.handle w l p) h3 fun s2 h4 => ?_
      have h5 := runProgH_notes (Y := Y) hD hg (p := p) (Y.code p.b) (hY.code p.b)
        (s := s2.onCache (·.emit (.call p))) (by
          rw [reports_ghost (s := s2) (e := .call p) rfl rfl]; exact h4)
      generalize runProgH Y D g p (Y.code p.b) (s2.onCache (·.emit (.call p))) = x at h5 ⊢
      obtain ⟨s3, r⟩ := x
      rcases h5 with h5 | ⟨h5, h6⟩
      · rcases r with (e | v) | k | _ | _
        · exact .inl h5
        · simp only
          have h7 := hD.report s3.w _ (.built p v) rfl h5
          unfold callHook
          generalize hx : D s3.w (.report (.built p v)) = x at h7 ⊢
          obtain ⟨w, c⟩ := x
          simp only at h5 h7
          cases c
          · have h8 : reports (St.onCache { s3 with w := w } (fun c : Cache σ =>
                { c.emit (.built p v) with artifacts := c.artifacts.insert p.id v })) =
                reports s3 ++ [.built p v] := reports_cons rfl (by rfl)
            have h9 : R (St.onCache { s3 with w := w } (fun c : Cache σ =>
                { c.emit (.built p v) with artifacts := c.artifacts.insert p.id v })).w
                (reports (St.onCache { s3 with w := w } (fun c : Cache σ =>
                { c.emit (.built p v) with artifacts := c.artifacts.insert p.id v }))) := by
              rw [h8]; exact h7
            unfold storeH
            simp only
            cases s3.c.artifacts[p.id]? with
            | none => exact .inl h9
            | some old => exact Keeper.quiet (fun w l => hD.drop w l old) h9 fun s4 h4 => .inl h4
          · exact .inr ⟨rfl, p, v, s3.w, hx, h5, h7⟩
        · exact .inl h5
        · exact .inl h5
        · exact .inl h5
      · cases h5; exact .inr ⟨rfl, h6⟩
    | _ => exact .inl h3

theorem fresh_notes {p : Promise σ} {x : St σ × Res (Except σ.E σ.V)} (h : Kept R D x) :
    Kept R D (fresh Y p x) := by
  obtain ⟨s, r⟩ := x
  rcases h with h | ⟨h, h2⟩
  · refine .inl ?_
    rw [fresh_fst]; exact h
  · cases h; exact .inr ⟨rfl, h2⟩

theorem getByH_notes (hD : Keeper R D) {b : BuildFn σ} (hb : BuildNotes R D b) :
    GetNotes R D (getByH Y D b) := by
  intro how p s hs
  have href : Kept R D (getRef Y b p s) := by
    unfold getRef
    generalize lookupRef Y p s.c = r
    rcases r with (_ | v) | _ | _ | _
    · exact fresh_notes (hb p s hs)
    all_goals exact .inl hs
  unfold getByH
  split
  · cases how with
    | bin =>
      simp only
      unfold getBin
      generalize lookup Y p s.c = r
      rcases r with (_ | v) | _ | _ | _
      · exact fresh_notes (hb p s hs)
      all_goals exact .inl hs
    | ref => exact href
    | cloned =>
      simp only
      unfold getClonedH
      generalize getRef Y b p s = x at href ⊢
      obtain ⟨s1, r⟩ := x
      rcases href with h | ⟨h, h2⟩
      · rcases r with (e | v) | k | _ | _
        · exact .inl h
        · exact Keeper.quiet (fun w l => hD.clone w l v) h fun s4 h4 => .inl h4
        · exact .inl h
        · exact .inl h
        · exact .inl h
      · cases h; exact .inr ⟨rfl, h2⟩
  · exact .inl hs

theorem getAH_notes (hY : Y.Upholds R) (hD : Keeper R D) (n : Nat) :
    GetNotes R D (getAH Y D n) ∧ BuildNotes R D (buildNH Y D n) := by
  induction n with
  | zero =>
    have h : BuildNotes R D (fun _ s => (s, .overflow) : BuildFn σ) := fun p s hs => .inl hs
    exact ⟨getByH_notes hD h, h⟩
  | succ n ih =>
    have h := buildH_notes (Y := Y) hY hD ih.1
    exact ⟨getByH_notes hD h, h⟩

theorem execH_notes (h : Reachable Y s) (hY : Y.Upholds R) (hD : Keeper R D) (n : Nat) (ord : HashOrder)
    {op : Op σ} (hop : op.upholds R) (hl : ∀ p, op.promise? = some p → s.live p = true)
    (hg : (execH Y D n ord s op).2.goesOn) (hs : R s.w (reports s)) :
    Kept R D (execH Y D n ord s op) := by
  have map : ∀ {α : Type} {x : St σ × Res α} (f : α → Ans σ), Kept R D x →
      Kept R D (x.1, x.2.map f) := by
    rintro α ⟨s, r⟩ f (h | ⟨h, h2⟩)
    · exact .inl h
    · cases h; exact .inr ⟨rfl, h2⟩
  have silent : op.silent → execH Y D n ord s op = exec Y n ord s op → R (exec Y n ord s op).1.w (reports s) →
      Kept R D (execH Y D n ord s op) := by
    intro h1 h2 h3
    have e : step Y n ord s op = exec Y n ord s op := by
      unfold step
      cases hp : op.promise? with
      | none => rfl
      | some p => simp only [hl p hp, if_true]
    rw [h2] at hg ⊢
    have h4 := (C40_other_reports h n ord op (by rw [e]; exact hg)).2.2 h1
    rw [e] at h4
    exact .inl (by rw [h4]; exact h3)
  cases op with
  | get how p => exact map _ ((getAH_notes hY hD n).1 how p s hs)
  | getMut p f =>
    have hi := h.inv
    simp only [execH] at hg ⊢
    rcases getMut_spec_of hi (getAH_ok Y D n).2 ord (hl p rfl) with
      ⟨c', he, _⟩ | ⟨c1, h1, ⟨c2, v, hart, h12, h2, hinv, he⟩ | ⟨h2, he⟩⟩
    · rw [he] at hg; exact absurd rfl hg
    · have i1 : Inv Y { s with c := c1 } := by
        rcases hi.invalidateDependents ord p.id with ⟨c', e, _⟩ | ⟨c', e, _, hinv1, _, _, _, hart1, _⟩
        · rw [h1] at e; cases e
        · rw [h1] at e; cases e
          exact hinv1
      have r1 := invalidateDependents_reports hi h1
      have r2 := invalidateDependents_reports i1 h12
      rw [he] at hg ⊢
      simp only at hg ⊢
      cases hw : writeArt Y p f v c2 with
      | none => rw [hw] at hg; exact hg.elim
      | some c' =>
        have r3 := writeArt_reports hw s
        exact .inl ((r3.trans (r2.trans r1)).symm ▸ hs)
    · have r1 := invalidateDependents_reports hi h1
      have h3 := (getAH_notes hY hD n).2 p { s with c := c1 } (r1.symm ▸ hs)
      rw [he]
      generalize buildNH Y D n p { s with c := c1 } = x at h3 ⊢
      obtain ⟨s1, r⟩ := x
      rcases h3 with h3 | ⟨h3, h4⟩
      · rcases r with (e | v) | k | _ | _
        · exact .inl h3
        · simp only
          cases hw : writeArt Y p f v s1.c with
          | none => exact .inl h3
          | some c' => exact .inl ((writeArt_reports hw s1).symm ▸ h3)
        · exact .inl h3
        · exact .inl h3
        · exact .inl h3
      · cases h3; exact .inr ⟨rfl, h4⟩
  | lookup how p =>
    refine map _ ?_
    cases how with
    | bin => exact .inl hs
    | ref => exact .inl hs
    | cloned =>
      simp only [lookupByH]
      generalize lookupRef Y p s.c = r
      rcases r with (_ | v) | _ | _ | _
      · exact .inl hs
      · exact Keeper.quiet (fun w l => hD.clone w l v) hs fun s4 h4 => .inl h4
      all_goals exact .inl hs
  | dynStateMut p f =>
    refine map _ ?_
    obtain ⟨c, e, d⟩ := invalidate_spec h.inv ord p
    unfold dynStateMutH
    rw [e]
    have h1 : reports { s with c := c.emit (.invalidate p) } = reports s ++ [.invalidate p] :=
      reports_cons (by simp [Cache.emit, d.log]) (by rfl)
    refine hD.told (s := { s with c := c.emit (.invalidate p) }) rfl ⟨_, hs, h1.symm⟩ fun s1 hs1 => ?_
    have h2 := ensureDyn_reports (Y := Y) p s1
    have h3 := ensureDyn_note hY p s1 hs1
    generalize ensureDyn Y p s1 = x at h2 h3 ⊢
    obtain ⟨s2, r⟩ := x
    simp only at h2 h3
    have h4 : R s2.w (reports s2) := by rw [h2]; exact h3
    cases r with
    | val d =>
      simp only
      split
      · refine .inl ?_
        rw [reports_ghost (s := s2) (e := .setDyn p (f d)) rfl rfl]
        exact h4
      · exact .inl h4
    | _ => exact .inl h4
  | invalidate p =>
    obtain ⟨c, e, d⟩ := invalidate_spec h.inv ord p
    simp only [execH, e, thenTell]
    have h1 : reports { s with c := c.emit (.invalidate p) } = reports s ++ [.invalidate p] :=
      reports_cons (by simp [Cache.emit, d.log]) (by rfl)
    exact hD.told (s := { s with c := c.emit (.invalidate p) }) rfl ⟨_, hs, h1.symm⟩ fun s1 hs1 => .inl hs1
  | purge p =>
    obtain ⟨c, cF, e, d, rfl⟩ := purge_spec h.inv ord p
    simp only [execH, e, thenTell]
    refine hD.told rfl ⟨_, hs, by
      have e1 : (Event.invalidate p : Event σ).reported = true := rfl
      have e2 : (Event.purged p : Event σ).reported = false := rfl
      simp only [reports, List.filter_cons, e1, e2]
      simp⟩ fun s1 hs1 => .inl hs1
  | clearAll =>
    have h1 : reports (s.onCache clearAll) = reports s ++ [.clear] := reports_cons rfl (by rfl)
    exact hD.told (s := s.onCache clearAll) rfl ⟨_, hs, h1.symm⟩ fun s1 hs1 => .inl hs1
  | getDynState p => exact silent trivial rfl hs
  | isKnown p => exact silent trivial rfl hs
  | numKnown => exact silent trivial rfl hs
  | dynState p => exact silent trivial rfl (ensureDyn_note hY p s hs)
  | lookupMut p f =>
    refine silent trivial rfl ?_
    simp only [exec]
    generalize lookupMut Y ord p s.c = x
    obtain ⟨c, r⟩ := x
    rcases r with (_ | v) | k | _ | _
    · exact hs
    · simp only
      cases writeArt Y p f v c <;> exact hs
    all_goals exact hs
  | clearArtifacts => exact silent trivial rfl hs
  | gc =>
    refine silent trivial rfl ?_
    simp only [exec]
    exact hs
  | alloc p =>
    refine silent trivial rfl ?_
    simp only [exec, allocB]
    by_cases hc : (s.heap.contains p.id || s.c.known.contains p.id || decide (p.b ∈ s.born)) = true
    · simp only [hc, if_true]; exact hs
    · simp only [hc]; exact hs
  | free a => exact silent trivial rfl hs
  | world f => exact silent trivial rfl (hop s.w _ hs)

theorem stepH_kept (h : Reachable Y s) (hY : Y.Upholds R) (hD : Keeper R D) (n : Nat) (ord : HashOrder)
    {op : Op σ} (hop : op.upholds R) (hg : (stepH Y D n ord s op).2.goesOn) (hs : R s.w (reports s)) :
    Kept R D (stepH Y D n ord s op) := by
  rcases stepH_cases (Y := Y) (s := s) D n ord op with ⟨hl, e⟩ | e
  · rw [e] at hg ⊢
    exact execH_notes h hY hD n ord hop hl hg hs
  · rw [e] at hg; exact hg.elim

end

theorem Prog.spares.upholds {note : σ.W → List (Event σ)} : ∀ {c : Prog σ}, c.spares note →
    c.upholds fun w l => note w = l
  | .ret _, _ => trivial
  | .panic, _ => trivial
  | .resolve _ _ _, h => fun r => Prog.spares.upholds (h r)
  | .myState _ _, h => fun r => Prog.spares.upholds (h r)
  | .world _ _, h => ⟨fun w _ e => (h.1 w).trans e, fun w => Prog.spares.upholds (h.2 w)⟩
  | .alloc _ k, h => Prog.spares.upholds (c := k) h
  | .free _ k, h => Prog.spares.upholds (c := k) h

theorem Sys.Spares.keeps {note : σ.W → List (Event σ)} (h : Y.Spares note) : Y.Upholds fun w l => note w = l :=
  ⟨fun b => (h.code b).upholds, fun b w _ e => (h.init b w).trans e⟩

theorem Op.spares.keeps {note : σ.W → List (Event σ)} {op : Op σ} (h : op.spares note) :
    op.upholds fun w l => note w = l := by
  cases op <;> first | trivial | exact fun w _ e => (h w).trans e

theorem Notebook.keeper {note : σ.W → List (Event σ)} {D : Hooks σ} (h : Notebook note D) :
    Keeper (fun w l => note w = l) D :=
  ⟨fun w l e he hl => by rw [h.report w e he, hl], fun w l p hl => (h.handle w p).trans hl,
    fun w l v hl => (h.clone w v).trans hl, fun w l v hl => (h.drop w v).trans hl⟩

/-! ## The property -/

/-- **C40** What a doctor that writes down its calls has in its notebook after any operation are the reports; the only
exception is a doctor that panicked when it was called for a fresh artifact. -/
theorem C40_doctor_is_called {note : σ.W → List (Event σ)} {D : Hooks σ} (hY : Y.Spares note) (hD : Notebook note D)
    (h : Reachable Y s) (n : Nat) (ord : HashOrder) {op : Op σ} (hop : op.spares note)
    (hg : (stepH Y D n ord s op).2.goesOn) (hs : note s.w = reports s) :
    let x := stepH Y D n ord s op
    note x.1.w = reports x.1 ∨ x.2 = .panic .user ∧ ∃ p v w, D w (.report (.built p v)) = (x.1.w, true) ∧
      note x.1.w = reports x.1 ++ [.built p v] := by
  rcases stepH_kept h hY.keeps hD.keeper n ord hop.keeps hg hs with h1 | ⟨h1, p, v, w, h2, _, h3⟩
  · exact .inl h1
  · exact .inr ⟨h1, p, v, w, h2, h3⟩

/-- **C40** In particular a doctor that writes down its calls and never panics has, after any history, written down
exactly the reports. -/
theorem C40_notebook {note : σ.W → List (Event σ)} (hY : Y.Spares note) (hist : HistoryH σ)
    (hD : ∀ x ∈ hist, Notebook note x.1 ∧ (∀ w e, (x.1 w e).2 = false) ∧ x.2.2.2.spares note)
    (h : Reachable Y s) (hg : ∀ r ∈ (playH Y hist s).2, r.goesOn) (hs : note s.w = reports s) :
    note (playH Y hist s).1.w = reports (playH Y hist s).1 := by
  induction hist generalizing s with
  | nil => exact hs
  | cons x hist ih =>
    obtain ⟨D, n, ord, op⟩ := x
    simp only [playH, List.mem_cons, forall_eq_or_imp] at hg ⊢
    obtain ⟨h1, h2, h3⟩ := hD _ (List.mem_cons_self ..)
    refine ih (fun x hx => hD x (List.mem_cons_of_mem _ hx)) (.hooked D n ord op h hg.1) hg.2 ?_
    rcases C40_doctor_is_called hY h1 h n ord h3 hg.1 hs with h4 | ⟨_, p, v, w, h4, _⟩
    · exact h4
    · have := h2 w (.report (.built p v))
      rw [h4] at this; cases this

/-! ## A concrete doctor -/

namespace Demo

set_option smartUnfolding false

/-- The world is a number for the builders and the notebook of the doctor, in which an event is written as numbers: its
kind, the address and identity of the builder, and those of the used builder (for a use) or the artifact (for a build). -/
abbrev sigN : Sig :=
  ⟨Nat, Nat, Nat, Nat, Nat × List (Nat × Nat × Nat × Nat × Nat), Nat, inferInstance, inferInstance⟩

/-- What is written for an event. -/
def written : Event sigN → Nat × Nat × Nat × Nat × Nat
  | .resolve p q => (0, p.id, p.b, q.id, q.b)
  | .built p v => (1, p.id, p.b, v, 0)
  | .invalidate p => (2, p.id, p.b, 0, 0)
  | _ => (3, 0, 0, 0, 0)

/-- What it means. -/
def meant : Nat × Nat × Nat × Nat × Nat → Event sigN
  | (0, a, b, c, d) => .resolve ⟨a, b⟩ ⟨c, d⟩
  | (1, a, b, v, _) => .built ⟨a, b⟩ v
  | (2, a, b, _) => .invalidate ⟨a, b⟩
  | _ => .clear

/-- The notebook. -/
def noteN (w : Nat × List (Nat × Nat × Nat × Nat × Nat)) : List (Event sigN) := w.2.map meant

/-- The doctor writes down what it is called for. -/
def writer : Hooks sigN
  | w, .report e => ((w.1, w.2 ++ [written e]), false)
  | w, _ => (w, false)

theorem writer_notebook : Notebook noteN writer where
  report w e he := by
    cases e <;> first | (exact Bool.noConfusion he; done) | simp [noteN, writer, written, meant]
  handle _ _ := rfl
  clone _ _ := rfl
  drop _ _ := rfl

/-- Builder `b` lives at address `10 + b`. -/
def PN (b : Nat) : Promise sigN := ⟨10 + b, b⟩

/-- 0 returns the builders' part of the world, which it increments; 1 returns a clone of the artifact of 0,
plus 100. -/
def codeN : Nat → Prog sigN
  | 0 => .world (fun w => (w.1 + 1, w.2)) fun w => .ret (.ok w.1)
  | 1 => .resolve .cloned (PN 0) fun r => match r with
    | .ok v => .ret (.ok (v + 100))
    | .error e => .ret (.error e)
  | b => .ret (.ok b)

/-- The system of these builders. -/
def YN : Sys sigN where
  code := codeN
  init b w := (w, some b)
  vty _ := 0
  sty _ := 0
  artTy _ := 0
  stTy _ := 0
  clone v := v
  debug := true

theorem YN_spares : YN.Spares noteN := by
  refine ⟨fun b => ?_, fun b w => rfl⟩
  match b with
  | 0 => exact ⟨fun w => rfl, fun _ => trivial⟩
  | 1 => intro r; rcases r with e | v <;> exact trivial
  | b + 2 => exact trivial

/-- A history with such a doctor. -/
def histN : HistoryH sigN :=
  ([.alloc (PN 0), .alloc (PN 1), .get .bin (PN 1), .invalidate (PN 0), .get .cloned (PN 0), .clearAll] :
    List (Op sigN)).map fun op => (writer, 9, Demo.ord, op)

/-- The doctor's notebook after it. -/
example : (playH YN histN (St.new (0, []))).1.w.2 =
    [(0, 11, 1, 10, 0), (1, 10, 0, 0, 0), (1, 11, 1, 100, 0), (2, 10, 0, 0, 0), (1, 10, 0, 1, 0), (3, 0, 0, 0, 0)] := rfl

/-- It meets the hypotheses. -/
example : noteN (playH YN histN (St.new (0, []))).1.w = reports (playH YN histN (St.new (0, []))).1 := by
  refine C40_notebook YN_spares histN ?_ (.new _) ?_ rfl
  · intro x hx
    obtain ⟨op, hop, rfl⟩ := List.mem_map.1 hx
    refine ⟨writer_notebook, fun w e => by cases e <;> rfl, ?_⟩
    simp only [List.mem_cons, List.not_mem_nil, or_false] at hop
    rcases hop with rfl | rfl | rfl | rfl | rfl | rfl <;> exact trivial
  · intro r hr
    have : (playH YN histN (St.new (0, []))).2 = [.val .unit, .val .unit, .val (.art (.ok (100 : Nat))), .val .unit,
      .val (.art (.ok (1 : Nat))), .val .unit] := rfl
    rw [this] at hr
    simp only [List.mem_cons, List.not_mem_nil, or_false] at hr
    rcases hr with rfl | rfl | rfl | rfl | rfl | rfl <;> exact trivial

/-- The exception: a doctor that panics when called for an artifact.  The call is in the notebook, the artifact not in
the cache. -/
example :
    let D : Hooks sigN := fun w h => ((writer w h).1, match h with | .report (.built _ _) => true | _ => false)
    let s := (playH YN ([.alloc (PN 0), .get .bin (PN 0)].map fun op => (D, 9, Demo.ord, op)) (St.new (0, []))).1
    noteN s.w = [.built (PN 0) (0 : Nat)] ∧ reports s = [] ∧ Uncached s 10 := ⟨rfl, rfl, rfl⟩

end Demo

end Daab
