import Verif.Gc

/-! # Every operation is a sequence of atomic transitions -/

open Std

namespace Daab

variable {σ : Sig}

/-- The atomic transitions of the system, each with at most one or two events. -/
inductive Trans (Y : Sys σ) : St σ → St σ → Prop
  | micro {s s' : St σ} : Micro Y s s' → Trans Y s s'
  | inval {s : St σ} (p : Promise σ) (c' : Cache σ) : Dropped (Hit (Dep s.c) p.id) s.c c' →
      Trans Y s { s with c := c'.emit (.invalidate p) }
  | purge {s : St σ} (p : Promise σ) (c' : Cache σ) : Dropped (Hit (Dep s.c) p.id) s.c c' →
      Trans Y s { s with c := { c' with
        known := s.c.known.erase p.id, dynStates := s.c.dynStates.erase p.id,
        log := .invalidate p :: .purged p :: s.c.log } }
  | gc {s : St σ} (c' : Cache σ) (l : List Id) :
      (∀ x, x ∈ l ↔ Garbage s x) → c'.log = l.map Event.collect ++ s.c.log →
      Swept (Garbage s) s.c c' →
      Trans Y s { s with c := c' }
  | mutDeps {s : St σ} (a : Id) (c' : Cache σ) : (∀ x, Dep s.c x a → x = a) →
      c'.known = s.c.known → c'.dynStates = s.c.dynStates →
      (∀ x v, c'.artifacts[x]? = some v ↔ s.c.artifacts[x]? = some v ∧ ¬ StrictHit (Dep s.c) a x) →
      (∀ u d, Dep c' u d ↔ Dep s.c u d ∧ ¬ StrictHit (Dep s.c) a u) →
      c'.log = .mutDeps a :: s.c.log → Trans Y s { s with c := c' }
  | write {s : St σ} (p : Promise σ) (v w : σ.V) : s.c.artifacts[p.id]? = some v →
      Trans Y s (s.onCache fun c =>
        { c with artifacts := c.artifacts.insert p.id w }.emit (.write p.id w))
  | clearArtifacts {s : St σ} : Trans Y s (s.onCache clearArtifacts)
  | clearAll {s : St σ} : Trans Y s (s.onCache clearAll)

/-- Any number of transitions, all between states that satisfy the invariant. -/
inductive Transs (Y : Sys σ) : St σ → St σ → Prop
  | refl {s : St σ} : Inv Y s → Transs Y s s
  | tail {s s1 s2 : St σ} : Transs Y s s1 → Trans Y s1 s2 → Inv Y s2 → Transs Y s s2

theorem Transs.left {Y : Sys σ} {s s' : St σ} (h : Transs Y s s') : Inv Y s := by
  induction h with
  | refl h => exact h
  | tail _ _ _ ih => exact ih

theorem Transs.right {Y : Sys σ} {s s' : St σ} (h : Transs Y s s') : Inv Y s' := by
  cases h with
  | refl h => exact h
  | tail _ _ h => exact h

theorem Transs.trans {Y : Sys σ} {s s1 s2 : St σ} (h1 : Transs Y s s1) (h2 : Transs Y s1 s2) :
    Transs Y s s2 := by
  induction h2 with
  | refl _ => exact h1
  | tail _ ht hi ih => exact .tail ih ht hi

theorem Transs.single {Y : Sys σ} {s s' : St σ} (h : Inv Y s) (ht : Trans Y s s') (h' : Inv Y s') :
    Transs Y s s' := .tail (.refl h) ht h'

theorem Micros.transs {Y : Sys σ} {s s' : St σ} (h : Micros Y s s') (hi : Inv Y s) :
    Transs Y s s' := by
  induction h with
  | refl => exact .refl hi
  | tail hm h1 ih => exact .tail ih (.micro h1) (ih.right.micro h1)

theorem invalidateDependents_trans {Y : Sys σ} {s : St σ} (hi : Inv Y s) {ord : HashOrder} {a : Id}
    {c' : Cache σ} (h : invalidateDependents Y ord a s.c = (c', .done)) :
    Transs Y s { s with c := c' } := by
  rcases hi.invalidateDependents ord a with ⟨c1, h1, _⟩ | ⟨c1, h1, h2, h3, _, h4, h5, h6, h7, h8, _⟩
  · rw [h] at h1; cases h1
  · rw [h] at h1; cases h1
    exact .single hi (.mutDeps a c' h2 h4 h5 h6 h7 h8) h3

theorem writeArt_trans {Y : Sys σ} {s : St σ} {p : Promise σ} {f : σ.V → σ.V} {v : σ.V}
    (hv : s.c.artifacts[p.id]? = some v) {c' : Cache σ}
    (h : writeArt Y p f v s.c = some c') : Trans Y s { s with c := c' } := by
  unfold writeArt at h
  split at h
  · cases h; exact .write p v (f v) hv
  · cases h

theorem getMutWrite_trans {Y : Sys σ} {s : St σ} (hi : Inv Y s) {bld : BuildFn σ} (hb : BuildOk Y bld)
    (ord : HashOrder) {p : Promise σ} (hl : s.live p = true) (f : σ.V → σ.V)
    (hg : (getMutWrite Y ord bld p f s).2 ≠ .panic .noCounterpart) : Transs Y s (getMutWrite Y ord bld p f s).1 := by
  have hend := (getMutWrite_inv hi hb ord hl f).resolve_right hg
  unfold getMutWrite at hg hend ⊢
  rcases getMut_spec_of hi hb ord hl with ⟨c', he, _⟩ | ⟨c1, h1, ⟨c2, v, _, h12, h2, hinv, he⟩ | ⟨h2, he⟩⟩
  · rw [he] at hg; exact absurd rfl hg
  · have t1 := invalidateDependents_trans hi h1
    have t2 := t1.trans (invalidateDependents_trans t1.right h12)
    rw [he] at hend ⊢
    simp only at hend ⊢
    cases hw : writeArt Y p f v c2 with
    | none => exact t2
    | some c' =>
      rw [hw] at hend
      exact .tail t2 (writeArt_trans (s := { s with c := c2 }) h2 hw) hend
  · have t1 := invalidateDependents_trans hi h1
    rw [he] at hend ⊢
    have hbr := hb.ran p { s with c := c1 } t1.right hl h2
    have hok := hb.ok p { s with c := c1 } t1.right hl h2
    generalize bld p { s with c := c1 } = x at hbr hok hend
    obtain ⟨s', r⟩ := x
    have t2 := t1.trans (hbr.micros.transs t1.right)
    rcases r with (_ | v) | _ | _ | _ <;> try exact t2
    simp only at hend t2 ⊢
    cases hw : writeArt Y p f v s'.c with
    | none => exact t2
    | some c' =>
      rw [hw] at hend
      exact .tail t2 (writeArt_trans (hok v rfl).1 hw) hend

theorem exec_trans {Y : Sys σ} {s : St σ} (hi : Inv Y s) (n : Nat) (ord : HashOrder) (op : Op σ)
    (hl : ∀ p, op.promise? = some p → s.live p = true)
    (hg : (exec Y n ord s op).2 ≠ .panic .noCounterpart) : Transs Y s (exec Y n ord s op).1 := by
  have hend := (hi.exec n ord op hl).resolve_right hg
  cases op with
  | get how p => exact ((getA_ok Y n).1.ran how p s hi).micros.transs hi
  | getMut p f => exact getMutWrite_trans hi (getA_ok Y n).2 ord (hl p rfl) f hg
  | lookup how p => exact .refl hi
  | lookupMut p f =>
    have hl := hl p rfl
    simp only [Daab.exec] at hg hend ⊢
    rcases lookupMut_spec hi ord hl with ⟨c', he, _⟩ | ⟨c1, he, h1⟩
    · rw [he] at hg; exact absurd rfl hg
    · have t1 := invalidateDependents_trans hi h1
      rw [he] at hend ⊢
      cases ha : c1.artifacts[p.id]? with
      | none => exact t1
      | some v =>
        rw [ha] at hend
        simp only at hend ⊢
        cases hw : writeArt Y p f v c1 with
        | none => exact t1
        | some c' =>
          rw [hw] at hend
          exact .tail t1 (writeArt_trans (s := { s with c := c1 }) ha hw) hend
  | dynState p => exact (ensureDyn_ran hi (hl p rfl)).1.micros.transs hi
  | getDynState p => exact .refl hi
  | dynStateMut p f =>
    have hl := hl p rfl
    simp only [Daab.exec] at hend ⊢
    obtain ⟨c', he, hd⟩ := invalidate_spec hi ord p
    have hinv := hi.invalidated hd
    have t1 : Transs Y s _ := .single hi (.inval p c' hd) hinv
    unfold dynStateMut at hend ⊢
    rw [he] at hend ⊢
    simp only at hend ⊢
    have hen := ensureDyn_ran hinv (p := p) hl
    generalize ensureDyn Y p { s with c := c'.emit (.invalidate p) } = x at hen hend
    obtain ⟨s1, r⟩ := x
    obtain ⟨hr, hk, ha, hdv⟩ := hen
    have t2 := t1.trans (hr.micros.transs hinv)
    cases r with
    | val d =>
      simp only at hend ⊢
      split
      · next ht =>
        have hm := hdv d rfl
        rw [if_pos ht] at hend
        exact .tail t2 (.micro (.setDyn p (f d) hk (by simp only at hm; grind) ht)) hend
      · exact t2
    | panic k => exact t2
    | stuck => exact t2
    | overflow => exact t2
  | isKnown p => exact .refl hi
  | numKnown => exact .refl hi
  | invalidate p =>
    obtain ⟨c', he, hd⟩ := invalidate_spec hi ord p
    simp only [Daab.exec, he] at hend ⊢
    exact .single hi (.inval p c' hd) hend
  | purge p =>
    obtain ⟨c', cF, he, hd, hF⟩ := purge_spec hi ord p
    subst hF
    simp only [Daab.exec, he] at hend ⊢
    exact .single hi (.purge p c' hd) hend
  | clearArtifacts => exact .single hi .clearArtifacts hend
  | clearAll => exact .single hi .clearAll hend
  | gc =>
    simp only [Daab.exec] at hend ⊢
    rcases gc_spec hi ord with ⟨h, _⟩ | ⟨_, c', h, h1, l, h6, h7⟩
    · rw [h]; exact .refl hi
    · rw [h] at hend ⊢
      exact .single hi (.gc c' l h6 h7 h1) hend
  | alloc p =>
    simp only [Daab.exec] at hend ⊢
    cases ha : allocB p s with
    | none => exact .refl hi
    | some s' => rw [ha] at hend; exact .single hi (.micro (.alloc p ha)) hend
  | free a => exact .single hi (.micro (.free a)) hend
  | world f => exact .single hi (.micro (.world _)) hend

theorem step_trans {Y : Sys σ} {s : St σ} (hi : Inv Y s) (n : Nat) (ord : HashOrder) (op : Op σ)
    (hg : (step Y n ord s op).2.goesOn) : Transs Y s (step Y n ord s op).1 := by
  have hno : ∀ r : Res (Ans σ), r.goesOn → r ≠ .panic .noCounterpart := by
    rintro r h rfl; exact h rfl
  unfold Daab.step at *
  cases hp : op.promise? with
  | none =>
    simp only [hp] at hg ⊢
    exact exec_trans hi n ord op (by intro p h; rw [hp] at h; cases h) (hno _ hg)
  | some p =>
    simp only [hp] at hg ⊢
    split
    · next hl =>
      simp only [hl, if_true] at hg
      exact exec_trans hi n ord op (by intro q h; rw [hp] at h; cases h; exact hl) (hno _ hg)
    · exact .refl hi

theorem Transs.hook {Y : Sys σ} {s s1 : St σ} (h : Transs Y s s1) {α : Type} (D : Hooks σ) (x : Hook σ)
    {k : St σ → St σ × Res α} (hk : ∀ w, Transs Y s { s1 with w := w } → Transs Y s (k { s1 with w := w }).1) :
    Transs Y s (callHook D x s1 k).1 := by
  have hw : ∀ w, Transs Y s { s1 with w := w } := fun w => .tail h (.micro (.world w)) (h.right.micro (.world w))
  unfold callHook
  split
  · exact hw _
  · exact hk _ (hw _)

theorem execH_trans {Y : Sys σ} {s : St σ} (hi : Inv Y s) (D : Hooks σ) (n : Nat) (ord : HashOrder) (op : Op σ)
    (hl : ∀ p, op.promise? = some p → s.live p = true)
    (hg : (execH Y D n ord s op).2 ≠ .panic .noCounterpart) : Transs Y s (execH Y D n ord s op).1 := by
  cases op with
  | get how p => exact ((getAH_ok Y D n).1 how p s hi).micros.transs hi
  | getMut p f => exact getMutWrite_trans hi (getAH_ok Y D n).2 ord (hl p rfl) f hg
  | lookup how p =>
    simp only [Daab.execH, lookupByH]
    split
    · exact .refl hi
    · exact .refl hi
    · split
      · exact (Transs.refl hi).hook D _ fun w h => h
      · exact .refl hi
  | dynStateMut p f =>
    have hl := hl p rfl
    simp only [Daab.execH]
    obtain ⟨c', he, hd⟩ := invalidate_spec hi ord p
    have hinv := hi.invalidated hd
    have t1 : Transs Y s _ := .single hi (.inval p c' hd) hinv
    unfold dynStateMutH
    rw [he]
    refine t1.hook D _ fun w tw => ?_
    have hinv := tw.right
    have hen := ensureDyn_ran hinv (p := p) hl
    simp only at hen ⊢
    generalize ensureDyn Y p { s with c := c'.emit (.invalidate p), w := w } = x at hen
    obtain ⟨s1, r⟩ := x
    obtain ⟨hr, hk, ha, hdv⟩ := hen
    have t2 := tw.trans (hr.micros.transs hinv)
    cases r with
    | val d =>
      simp only
      split
      · next ht =>
        have hm := hdv d rfl
        have m : Micro Y s1 _ := .setDyn p (f d) hk (by simp only at hm; grind) ht
        exact .tail t2 (.micro m) (t2.right.micro m)
      · exact t2
    | panic k => exact t2
    | stuck => exact t2
    | overflow => exact t2
  | invalidate p =>
    obtain ⟨c', he, hd⟩ := invalidate_spec hi ord p
    simp only [Daab.execH, he, thenTell]
    exact (Transs.single hi (.inval p c' hd) (hi.invalidated hd)).hook D _ fun w h => h
  | purge p =>
    obtain ⟨c', cF, he, hd, hF⟩ := purge_spec hi ord p
    have h1 := hi.purged ord p
    rw [he] at h1
    subst hF
    simp only [Daab.execH, he, thenTell]
    exact (Transs.single hi (.purge p c' hd) h1).hook D _ fun w h => h
  | clearAll =>
    simp only [Daab.execH]
    exact (Transs.single hi .clearAll hi.clearedAll).hook D _ fun w h => h
  | lookupMut p f => exact exec_trans hi n ord (.lookupMut p f) hl hg
  | dynState p => exact exec_trans hi n ord (.dynState p) hl hg
  | getDynState p => exact exec_trans hi n ord (.getDynState p) hl hg
  | isKnown p => exact exec_trans hi n ord (.isKnown p) hl hg
  | numKnown => exact exec_trans hi n ord .numKnown hl hg
  | clearArtifacts => exact exec_trans hi n ord .clearArtifacts hl hg
  | gc => exact exec_trans hi n ord .gc hl hg
  | alloc p => exact exec_trans hi n ord (.alloc p) hl hg
  | free a => exact exec_trans hi n ord (.free a) hl hg
  | world f => exact exec_trans hi n ord (.world f) hl hg

theorem stepH_trans {Y : Sys σ} {s : St σ} (hi : Inv Y s) (D : Hooks σ) (n : Nat) (ord : HashOrder) (op : Op σ)
    (hg : (stepH Y D n ord s op).2.goesOn) : Transs Y s (stepH Y D n ord s op).1 := by
  have hno : ∀ r : Res (Ans σ), r.goesOn → r ≠ .panic .noCounterpart := by
    rintro r h rfl; exact h rfl
  rcases stepH_cases (Y := Y) (s := s) D n ord op with ⟨hl, e⟩ | e
  · rw [e] at hg ⊢
    exact execH_trans hi D n ord op hl (hno _ hg)
  · rw [e]; exact .refl hi

theorem Reachable.transs {Y : Sys σ} {s : St σ} (h : Reachable Y s) :
    ∃ w, Transs Y (St.new w) s := by
  induction h with
  | new w => exact ⟨w, .refl (Inv.new Y w)⟩
  | step n ord op _ hg ih =>
    obtain ⟨w, ih⟩ := ih
    exact ⟨w, ih.trans (step_trans ih.right n ord op hg)⟩
  | hooked D n ord op _ hg ih =>
    obtain ⟨w, ih⟩ := ih
    exact ⟨w, ih.trans (stepH_trans ih.right D n ord op hg)⟩

theorem Trans.log_mono {Y : Sys σ} {s s' : St σ} (h : Trans Y s s') : s.c.log <:+ s'.c.log := by
  cases h with
  | micro h => exact h.log_mono
  | inval p c' hd => simp only [Cache.emit, hd.log]; exact List.suffix_cons _ _
  | purge p c' hd => exact (List.suffix_cons _ _).trans (List.suffix_cons _ _)
  | gc c' l _ h => simp only [h]; exact List.suffix_append _ _
  | mutDeps a c' _ _ _ _ _ h => simp only [h]; exact List.suffix_cons _ _
  | _ => exact List.suffix_cons _ _

theorem Transs.log_mono {Y : Sys σ} {s s' : St σ} (h : Transs Y s s') : s.c.log <:+ s'.c.log := by
  induction h with
  | refl => exact List.suffix_refl _
  | tail _ hm _ ih => exact ih.trans hm.log_mono

/-! ## What each event of a log requires of the history before it -/

/-- Requirement on the history before an event. -/
def okEv (l : List (Event σ)) : Event σ → Prop
  | .call p => (Abs.of l).art p.id = none
  | .initDyn p _ => (Abs.of l).state p.id = none
  | .resolve u _ => Pending u.id l ∨ ∃ bv, (Abs.of l).art u.id = some bv
  | _ => True

/-- All events of the log meet the requirement. -/
def LogOk : List (Event σ) → Prop
  | [] => True
  | e :: l => okEv l e ∧ LogOk l

theorem LogOk.split {l : List (Event σ)} (h : LogOk l) {post pre : List (Event σ)} {e : Event σ}
    (hl : l = post ++ e :: pre) : okEv pre e := by
  induction post generalizing l with
  | nil => subst hl; exact h.1
  | cons x post ih => subst hl; exact ih h.2 rfl

theorem LogOk.append {l new : List (Event σ)} (h : LogOk l) (hn : ∀ e ∈ new, ∀ A, okEv A e) :
    LogOk (new ++ l) := by
  induction new with
  | nil => exact h
  | cons e new ih => exact ⟨hn e (by simp) _, ih fun e he => hn e (by simp [he])⟩

theorem art_none_abs {Y : Sys σ} {s : St σ} (hi : Inv Y s) {a : Id} (h : s.c.artifacts[a]? = none) :
    (Abs.of s.c.log).art a = none := by
  have := hi.absArt a
  rw [h] at this
  cases hx : (Abs.of s.c.log).art a with
  | none => rfl
  | some _ => rw [hx] at this; cases this

theorem dyn_none_abs {Y : Sys σ} {s : St σ} (hi : Inv Y s) {a : Id} (h : s.c.dynStates[a]? = none) :
    (Abs.of s.c.log).state a = none := by
  have := hi.absDyn a
  rw [h] at this
  cases hx : (Abs.of s.c.log).state a with
  | none => rfl
  | some _ => rw [hx] at this; cases this

theorem Trans.logOk {Y : Sys σ} {s s' : St σ} (hi : Inv Y s) (h : Trans Y s s')
    (hok : LogOk s.c.log) : LogOk s'.c.log := by
  cases h with
  | micro h =>
    cases h with
    | known p hl => simpa [St.onCache] using hok
    | track p q h2 h3 hp =>
      refine ⟨hp.imp id fun h => ?_, hok⟩
      have e := hi.absArt p.id
      obtain ⟨v, hv⟩ := (mem_getElem _ _).1 h
      rw [hv] at e
      cases hx : (Abs.of s.c.log).art p.id with
      | none => rw [hx] at e; cases e
      | some bv => exact ⟨bv, rfl⟩
    | init p w d hk hd ht hin => exact ⟨dyn_none_abs hi hd, hok⟩
    | initPanic p w hk hd hin => exact ⟨dyn_none_abs hi hd, hok⟩
    | setDyn => exact ⟨trivial, hok⟩
    | world => exact hok
    | alloc q ha => rw [allocB_c ha]; exact hok
    | free => exact hok
    | call p hk hd ha => exact ⟨art_none_abs hi ha, hok⟩
    | built => exact ⟨trivial, hok⟩
  | inval p c' hd => simp only [Cache.emit, hd.log]; exact ⟨trivial, hok⟩
  | purge p c' hd => exact ⟨trivial, trivial, hok⟩
  | gc c' l _ h =>
    simp only [h]
    refine hok.append ?_
    intro e he A
    obtain ⟨a, _, rfl⟩ := List.mem_map.1 he
    trivial
  | mutDeps a c' _ _ _ _ _ h => simp only [h]; exact ⟨trivial, hok⟩
  | _ => exact ⟨trivial, hok⟩

theorem Transs.logOk {Y : Sys σ} {s s' : St σ} (h : Transs Y s s') (hok : LogOk s.c.log) :
    LogOk s'.c.log := by
  induction h with
  | refl => exact hok
  | tail h1 hm _ ih => exact hm.logOk h1.right ih

theorem Reachable.logOk {Y : Sys σ} {s : St σ} (h : Reachable Y s) : LogOk s.c.log := by
  obtain ⟨w, h⟩ := h.transs
  exact h.logOk trivial

/-! ## Histories -/

theorem Went.transs {Y : Sys σ} {s s' : St σ} {op : Op σ} {r : Res (Ans σ)} (h : Went Y s op s' r)
    (hi : Inv Y s) (hg : r.goesOn) : Transs Y s s' := by
  cases h with
  | plain n ord => exact step_trans hi n ord op hg
  | hooked D n ord => exact stepH_trans hi D n ord op hg

theorem Reachable.went {Y : Sys σ} {s s' : St σ} {op : Op σ} {r : Res (Ans σ)} (h : Reachable Y s)
    (hw : Went Y s op s' r) (hg : r.goesOn) : Reachable Y s' := by
  cases hw with
  | plain n ord => exact .step n ord op h hg
  | hooked D n ord => exact .hooked D n ord op h hg

theorem Runs.transs {Y : Sys σ} {s s' : St σ} (h : Runs Y s s') (hi : Inv Y s) : Transs Y s s' := by
  induction h with
  | refl => exact .refl hi
  | step _ hw hg ih => exact ih.trans (hw.transs ih.right hg)

theorem Runs.reachable {Y : Sys σ} {s s' : St σ} (h : Runs Y s s') (hr : Reachable Y s) :
    Reachable Y s' := by
  induction h with
  | refl => exact hr
  | step _ hw hg ih => exact ih.went hw hg

end Daab
