import Verif.MutAccess
import Verif.EvalH

/-! # Every reachable state satisfies the invariant -/

open Std

namespace Daab

variable {σ : Sig}

theorem lookupMut_spec {Y : Sys σ} {s : St σ} (hi : Inv Y s) (ord : HashOrder) {p : Promise σ}
    (hl : s.live p = true) :
    (∃ c', lookupMut Y ord p s.c = (c', .panic .noCounterpart) ∧ ∃ x, x ≠ p.id ∧ Dep s.c x p.id) ∨
    (∃ c', lookupMut Y ord p s.c = (c', .val (c'.artifacts[p.id]?)) ∧
      invalidateDependents Y ord p.id s.c = (c', .done)) := by
  rcases hi.invalidateDependents ord p.id with ⟨c', he, hx⟩ | ⟨c', he, _, hinv, _⟩
  · exact Or.inl ⟨c', by simp [lookupMut, he], hx⟩
  · refine Or.inr ⟨c', ?_, he⟩
    have h1 := lookup_eq hinv (p := p) hl
    unfold lookupMut
    rw [he]
    simp only
    unfold lookup at h1
    simp only at h1
    cases ha : c'.artifacts[p.id]? with
    | none =>
      have : containsArtifact p.id c' = false := by simp only [containsArtifact]; grind
      simp [this]
    | some v =>
      rw [ha] at h1
      simp only at h1
      have hk := hinv.dynKnown _ (hinv.artDyn p.id (by simp only; grind))
      have hk' : isKnown p.id c' = true := by simpa [isKnown] using hk
      simp only [hk', Bool.not_true, Bool.and_false, Bool.false_eq_true, if_false] at h1
      simp only [hk', Bool.or_true, Bool.not_true, Bool.and_false, Bool.false_eq_true, if_false]
      rw [h1]

theorem Inv.written {Y : Sys σ} {s : St σ} (hi : Inv Y s) {p : Promise σ} {f : σ.V → σ.V} {v : σ.V}
    (hl : s.live p = true) (hv : s.c.artifacts[p.id]? = some v) {c' : Cache σ}
    (h : writeArt Y p f v s.c = some c') : Inv Y { s with c := c' } := by
  unfold writeArt at h
  split at h
  · next ht =>
    cases h
    have hm : p.id ∈ s.c.artifacts := (mem_getElem _ _).2 ⟨v, hv⟩
    obtain ⟨b, hb⟩ := (mem_getElem _ _).1 (hi.dynKnown _ (hi.artDyn _ hm))
    have hbb := hi.heapKnown _ _ _ hb (live_iff.1 hl)
    have hsync := hi.sync
    refine { hi with sync := hsync, artDyn := ?_, artTy := ?_, absArt := ?_, absArtB := ?_, absDyn := hi.absDyn, absDynB := hi.absDynB, absDep := hi.absDep }
    · have := hi.artDyn
      simp only [Cache.emit]
      grind
    · have := hi.artTy
      simp only [Cache.emit]
      grind
    · intro a
      have h1 := hi.absArt a
      have h2 := hi.absArt p.id
      rw [hv] at h2
      simp only [Cache.emit, Abs.of, Abs.apply]
      by_cases ha : a = p.id
      · subst ha
        simp only [if_true]
        cases hx : (Abs.of s.c.log).art p.id with
        | none => rw [hx] at h2; cases h2
        | some bv => simp
      · grind
    · intro a bv
      simp only [Cache.emit, Abs.of, Abs.apply]
      by_cases ha : a = p.id
      · subst ha
        simp only [if_true]
        cases hx : (Abs.of s.c.log).art p.id with
        | none => intro h; cases h
        | some bv' =>
          intro h
          have := hi.absArtB _ _ hx
          simp only [Option.map_some, Option.some.injEq] at h
          rw [this, ← h]
      · rw [if_neg ha]
        exact hi.absArtB a bv
  · cases h

theorem getMut_spec_of {Y : Sys σ} {s : St σ} (hi : Inv Y s) {bld : BuildFn σ} (hb : BuildOk Y bld) (ord : HashOrder) {p : Promise σ}
    (hl : s.live p = true) :
    (∃ c', getMut Y ord bld p s = ({ s with c := c' }, .panic .noCounterpart) ∧
      ∃ x, x ≠ p.id ∧ Dep s.c x p.id) ∨
    (∃ c1, invalidateDependents Y ord p.id s.c = (c1, .done) ∧
      ((∃ c2 v, c1.artifacts[p.id]? = some v ∧ invalidateDependents Y ord p.id c1 = (c2, .done) ∧
          c2.artifacts[p.id]? = some v ∧ Inv Y { s with c := c2 } ∧
          getMut Y ord bld p s = ({ s with c := c2 }, .val (.ok v))) ∨
       (c1.artifacts[p.id]? = none ∧ getMut Y ord bld p s = bld p { s with c := c1 }))) := by
  rcases lookupMut_spec hi ord hl with ⟨c', he, hx⟩ | ⟨c1, he, hdone⟩
  · exact Or.inl ⟨c', by simp [getMut, he], hx⟩
  · refine Or.inr ⟨c1, hdone, ?_⟩
    rcases hi.invalidateDependents ord p.id with ⟨c', he', _⟩ | ⟨c', he', _, hinv, hno, _, _, hart, _⟩
    · rw [hdone] at he'; cases he'
    · rw [hdone] at he'
      cases he'
      cases ha : c1.artifacts[p.id]? with
      | some v =>
        left
        rcases lookupMut_spec hinv ord (p := p) hl with ⟨_, _, x, _, hx⟩ | ⟨c2, he2, hdone2⟩
        · exact absurd hx (hno x)
        · simp only at he2 hdone2
          rcases hinv.invalidateDependents ord p.id with ⟨c', he', _⟩ | ⟨c', he', _, hinv2, _, _, _, hart2, _⟩
          · simp only at he'; rw [hdone2] at he'; cases he'
          · simp only at he'
            rw [hdone2] at he'
            cases he'
            have ha2 : c2.artifacts[p.id]? = some v := by
              rw [hart2]
              exact ⟨ha, strictHit_none hno _⟩
            refine ⟨c2, v, rfl, hdone2, ha2, hinv2, ?_⟩
            rw [ha2] at he2
            rw [ha] at he
            simp only [getMut, he, he2]
      | none =>
        right
        refine ⟨rfl, ?_⟩
        rw [ha] at he
        simp only [getMut, he]
        have := hb.ok p { s with c := c1 } hinv hl ha
        generalize bld p { s with c := c1 } = x at this ⊢
        obtain ⟨s', r⟩ := x
        rcases r with (_ | v) | _ | _ | _
        · rfl
        · simp [fresh, (this v rfl).2]
        · rfl
        · rfl
        · rfl

theorem getMut_spec {Y : Sys σ} {s : St σ} (hi : Inv Y s) (n : Nat) (ord : HashOrder) {p : Promise σ}
    (hl : s.live p = true) :
    (∃ c', getMut Y ord (buildN Y n) p s = ({ s with c := c' }, .panic .noCounterpart) ∧
      ∃ x, x ≠ p.id ∧ Dep s.c x p.id) ∨
    (∃ c1, invalidateDependents Y ord p.id s.c = (c1, .done) ∧
      ((∃ c2 v, c1.artifacts[p.id]? = some v ∧ invalidateDependents Y ord p.id c1 = (c2, .done) ∧
          c2.artifacts[p.id]? = some v ∧ Inv Y { s with c := c2 } ∧
          getMut Y ord (buildN Y n) p s = ({ s with c := c2 }, .val (.ok v))) ∨
       (c1.artifacts[p.id]? = none ∧ getMut Y ord (buildN Y n) p s = buildN Y n p { s with c := c1 }))) :=
  getMut_spec_of hi (getA_ok Y n).2 ord hl

theorem allocB_c {q : Promise σ} {s s' : St σ} (h : allocB q s = some s') : s'.c = s.c := by
  unfold allocB at h
  split at h <;> cases h
  rfl

/-- `ensureDyn` on top of an invalidated cache, `dyn_state_mut`. -/
theorem dynStateMut_inv {Y : Sys σ} {s : St σ} (hi : Inv Y s) (ord : HashOrder) {p : Promise σ}
    (hl : s.live p = true) (f : σ.S → σ.S) : Inv Y (dynStateMut Y ord p f s).1 ∧
      (dynStateMut Y ord p f s).2.noInternal := by
  obtain ⟨c', he, hd⟩ := invalidate_spec hi ord p
  have hinv := hi.invalidated hd
  unfold dynStateMut
  rw [he]
  simp only
  have hen := ensureDyn_ran hinv (p := p) hl
  generalize ensureDyn Y p { s with c := c'.emit (.invalidate p) } = x at hen
  obtain ⟨s1, r⟩ := x
  obtain ⟨hr, hk, ha, hdv⟩ := hen
  have hi1 := hr.inv hinv
  cases r with
  | val d =>
    simp only
    split
    · next ht =>
      have hm := hdv d rfl
      exact ⟨hi1.micro (.setDyn p (f d) hk (by simp only at hm; grind) ht), noInternal_val _⟩
    · exact ⟨hi1, noInternal_stuck⟩
  | panic k => exact ⟨hi1, hr.noInt⟩
  | stuck => exact ⟨hi1, noInternal_stuck⟩
  | overflow => exact ⟨hi1, noInternal_overflow⟩

/-- `get_mut` together with the write of the caller, for any way to build. -/
def getMutWrite (Y : Sys σ) (ord : HashOrder) (bld : BuildFn σ) (p : Promise σ) (f : σ.V → σ.V) (s : St σ) :
    St σ × Res (Ans σ) :=
  match getMut Y ord bld p s with
  | (s, .val (.ok v)) =>
    match writeArt Y p f v s.c with
    | some c => ({ s with c := c }, .val (.art (.ok v)))
    | none => (s, .stuck)
  | (s, .val (.error e)) => (s, .val (.art (.error e)))
  | (s, .panic k) => (s, .panic k)
  | (s, .stuck) => (s, .stuck)
  | (s, .overflow) => (s, .overflow)

theorem getMutWrite_inv {Y : Sys σ} {s : St σ} (hi : Inv Y s) {bld : BuildFn σ} (hb : BuildOk Y bld)
    (ord : HashOrder) {p : Promise σ} (hl : s.live p = true) (f : σ.V → σ.V) :
    Inv Y (getMutWrite Y ord bld p f s).1 ∨ (getMutWrite Y ord bld p f s).2 = .panic .noCounterpart := by
  unfold getMutWrite
  rcases getMut_spec_of hi hb ord hl with ⟨c', he, _⟩ | ⟨c1, h1, ⟨c2, v, _, _, h2, hinv, he⟩ | ⟨h2, he⟩⟩
  · rw [he]; exact Or.inr rfl
  · left
    rw [he]
    simp only
    split
    · next c' hw => exact hinv.written (s := { s with c := c2 }) (p := p) hl h2 hw
    · exact hinv
  · left
    rcases hi.invalidateDependents ord p.id with ⟨c', he', _⟩ | ⟨c', he', _, hinv, _⟩
    · rw [h1] at he'; cases he'
    · rw [h1] at he'
      cases he'
      rw [he]
      have hbr := hb.ran p { s with c := c1 } hinv hl h2
      have hok := hb.ok p { s with c := c1 } hinv hl h2
      generalize bld p { s with c := c1 } = x at hbr hok
      obtain ⟨s', r⟩ := x
      have hinv' := hbr.inv hinv
      rcases r with (_ | v) | _ | _ | _
      · exact hinv'
      · simp only
        split
        · next c' hw =>
          -- the write goes to the freshly built artifact, whose builder is known
          obtain ⟨ha, _⟩ := hok v rfl
          simp only at ha
          unfold writeArt at hw
          split at hw
          · next ht =>
            cases hw
            have hm : p.id ∈ s'.c.artifacts := (mem_getElem _ _).2 ⟨v, ha⟩
            obtain ⟨b, hb'⟩ := (mem_getElem _ _).1 (hinv'.dynKnown _ (hinv'.artDyn _ hm))
            have hbv : Y.artTy v = Y.vty b := hinv'.artTy _ _ _ ha hb'
            have hpv := (hok v rfl).2
            have hlive : ({ s' with heap := s'.heap.insert p.id b } : St σ).live ⟨p.id, b⟩ = true := by
              simp [live_iff]
            have hinv2 : Inv Y { s' with heap := s'.heap.insert p.id b } := by
              refine { hinv' with heapKnown := ?_, bornHeap := ?_ }
              · have := hinv'.heapKnown
                simp only at hb' ⊢
                grind
              · have := hinv'.bornHeap
                have := hinv'.bornKnown _ _ hb'
                simp only at this ⊢
                grind
            have := hinv2.written (p := ⟨p.id, b⟩) (f := f) (v := v) hlive ha
              (c' := { s'.c with artifacts := s'.c.artifacts.insert p.id (f v) }.emit
                (.write p.id (f v))) (by
                unfold writeArt
                rw [if_pos (by rw [ht, ← hpv]; exact hbv)])
            exact { this with
              heapKnown := fun a b b' h1 h2 => hinv'.heapKnown a b b' h1 h2
              bornHeap := hinv'.bornHeap }
          · cases hw
        · exact hinv'
      · exact hinv'
      · exact hinv'
      · exact hinv'

theorem Inv.exec {Y : Sys σ} {s : St σ} (hi : Inv Y s) (n : Nat) (ord : HashOrder) (op : Op σ)
    (hl : ∀ p, op.promise? = some p → s.live p = true) :
    Inv Y (exec Y n ord s op).1 ∨ (exec Y n ord s op).2 = .panic .noCounterpart := by
  cases op with
  | get how p => exact Or.inl (((getA_ok Y n).1.ran how p s hi).inv hi)
  | getMut p f => exact getMutWrite_inv hi (getA_ok Y n).2 ord (hl p rfl) f
  | lookup how p => exact Or.inl hi
  | lookupMut p f =>
    have hl := hl p rfl
    simp only [Daab.exec]
    rcases lookupMut_spec hi ord hl with ⟨c', he, _⟩ | ⟨c1, he, h1⟩
    · rw [he]; exact Or.inr rfl
    · left
      rcases hi.invalidateDependents ord p.id with ⟨c', he', _⟩ | ⟨c', he', _, hinv, _⟩
      · rw [h1] at he'; cases he'
      · rw [h1] at he'
        cases he'
        rw [he]
        cases ha : c1.artifacts[p.id]? with
        | none => exact hinv
        | some v =>
          simp only
          split
          · next c' hw => exact hinv.written (s := { s with c := c1 }) (p := p) hl ha hw
          · exact hinv
  | dynState p => exact Or.inl ((ensureDyn_ran hi (hl p rfl)).1.inv hi)
  | getDynState p => exact Or.inl hi
  | dynStateMut p f => exact Or.inl (dynStateMut_inv hi ord (hl p rfl) f).1
  | isKnown p => exact Or.inl hi
  | numKnown => exact Or.inl hi
  | invalidate p =>
    obtain ⟨c', he, hd⟩ := invalidate_spec hi ord p
    left
    simp only [Daab.exec, he]
    exact hi.invalidated hd
  | purge p => exact Or.inl (hi.purged ord p)
  | clearArtifacts => exact Or.inl hi.clearedArtifacts
  | clearAll => exact Or.inl hi.clearedAll
  | gc => exact Or.inl (hi.gc ord).1
  | alloc p =>
    left
    simp only [Daab.exec]
    cases ha : allocB p s with
    | none => exact hi
    | some s' => exact hi.micro (.alloc p ha)
  | free a => exact Or.inl (hi.micro (.free a))
  | world f => exact Or.inl (hi.micro (.world _))

theorem Inv.step {Y : Sys σ} {s : St σ} (hi : Inv Y s) (n : Nat) (ord : HashOrder) (op : Op σ)
    (hg : (step Y n ord s op).2.goesOn) : Inv Y (step Y n ord s op).1 := by
  unfold Daab.step at *
  cases hp : op.promise? with
  | none =>
    simp only [hp] at hg ⊢
    rcases hi.exec n ord op (by intro p h; rw [hp] at h; cases h) with h | h
    · exact h
    · rw [h] at hg; exact absurd rfl hg
  | some p =>
    simp only [hp] at hg ⊢
    split
    · next hl =>
      simp only [hl, if_true] at hg
      rcases hi.exec n ord op (by intro q h; rw [hp] at h; cases h; exact hl) with h | h
      · exact h
      · rw [h] at hg; exact absurd rfl hg
    · exact hi

theorem Inv.hook {Y : Sys σ} {s : St σ} (hi : Inv Y s) {α : Type} (D : Hooks σ) (h : Hook σ)
    {k : St σ → St σ × Res α} (hk : ∀ w, Inv Y (k { s with w := w }).1) : Inv Y (callHook D h s k).1 := by
  unfold callHook
  split
  · exact hi.micro (.world _)
  · exact hk _

theorem dynStateMutH_inv {Y : Sys σ} {s : St σ} (hi : Inv Y s) (D : Hooks σ) (ord : HashOrder) {p : Promise σ}
    (hl : s.live p = true) (f : σ.S → σ.S) : Inv Y (dynStateMutH Y D ord p f s).1 := by
  obtain ⟨c', he, hd⟩ := invalidate_spec hi ord p
  have hinv := hi.invalidated hd
  unfold dynStateMutH
  rw [he]
  refine hinv.hook D _ fun w => ?_
  have hinv := hinv.micro (.world w)
  have hen := ensureDyn_ran hinv (p := p) hl
  simp only at hen ⊢
  generalize ensureDyn Y p { s with c := c'.emit (.invalidate p), w := w } = x at hen
  obtain ⟨s1, r⟩ := x
  obtain ⟨hr, hk, ha, hdv⟩ := hen
  have hi1 := hr.inv hinv
  cases r with
  | val d =>
    simp only
    split
    · next ht =>
      have hm := hdv d rfl
      exact hi1.micro (.setDyn p (f d) hk (by simp only at hm; grind) ht)
    · exact hi1
  | panic k => exact hi1
  | stuck => exact hi1
  | overflow => exact hi1

theorem Inv.execH {Y : Sys σ} {s : St σ} (hi : Inv Y s) (D : Hooks σ) (n : Nat) (ord : HashOrder) (op : Op σ)
    (hl : ∀ p, op.promise? = some p → s.live p = true) :
    Inv Y (execH Y D n ord s op).1 ∨ (execH Y D n ord s op).2 = .panic .noCounterpart := by
  cases op with
  | get how p => exact Or.inl (((getAH_ok Y D n).1 how p s hi).inv hi)
  | getMut p f => exact getMutWrite_inv hi (getAH_ok Y D n).2 ord (hl p rfl) f
  | lookup how p =>
    left
    simp only [Daab.execH, lookupByH]
    split
    · exact hi
    · exact hi
    · split
      · exact hi.hook D _ fun w => hi.micro (.world w)
      · exact hi
  | dynStateMut p f => exact Or.inl (dynStateMutH_inv hi D ord (hl p rfl) f)
  | invalidate p =>
    obtain ⟨c', he, hd⟩ := invalidate_spec hi ord p
    left
    simp only [Daab.execH, he, thenTell]
    exact (hi.invalidated hd).hook D _ fun w => (hi.invalidated hd).micro (.world w)
  | purge p =>
    obtain ⟨c', cF, he, hd, hF⟩ := purge_spec hi ord p
    have h1 := hi.purged ord p
    left
    rw [he] at h1
    simp only [Daab.execH, he, thenTell]
    exact h1.hook D _ fun w => h1.micro (.world w)
  | clearAll =>
    left
    simp only [Daab.execH]
    exact hi.clearedAll.hook D _ fun w => hi.clearedAll.micro (.world w)
  | lookupMut p f => exact hi.exec n ord (.lookupMut p f) hl
  | dynState p => exact hi.exec n ord (.dynState p) hl
  | getDynState p => exact hi.exec n ord (.getDynState p) hl
  | isKnown p => exact hi.exec n ord (.isKnown p) hl
  | numKnown => exact hi.exec n ord .numKnown hl
  | clearArtifacts => exact hi.exec n ord .clearArtifacts hl
  | gc => exact hi.exec n ord .gc hl
  | alloc p => exact hi.exec n ord (.alloc p) hl
  | free a => exact hi.exec n ord (.free a) hl
  | world f => exact hi.exec n ord (.world f) hl

/-- The operations in which hooks can be called in the middle. -/
def Op.deep : Op σ → Bool
  | .get .. | .getMut .. | .dynStateMut .. => true
  | _ => false

/-- The world `w'` is `w` itself, or what a single hook made of it. -/
def HookWorld (D : Hooks σ) (w w' : σ.W) : Prop := w' = w ∨ ∃ h, w' = (D w h).1

/-- For all other operations hooks do not change the effect upon the cache. -/
theorem execH_shallow' {Y : Sys σ} {s : St σ} (D : Hooks σ) (n : Nat) (ord : HashOrder) (op : Op σ) (h : op.deep = false) :
    ∃ w, HookWorld D (exec Y n ord s op).1.w w ∧ (execH Y D n ord s op).1 = { (exec Y n ord s op).1 with w := w } ∧
      ((execH Y D n ord s op).2 = (exec Y n ord s op).2 ∨
        (execH Y D n ord s op).2 = .panic .user ∧ ∃ a, (exec Y n ord s op).2 = .val a) := by
  have call : ∀ {α : Type} (h : Hook σ) (s : St σ) (a : α), ∃ w, HookWorld D s.w w ∧
      (callHook D h s fun s => (s, .val a)).1 = { s with w := w } ∧
      ((callHook D h s fun s => (s, .val a)).2 = .val a ∨
        (callHook D h s fun s => (s, .val a)).2 = .panic .user) := by
    intro α h s a
    refine ⟨(D s.w h).1, Or.inr ⟨h, rfl⟩, ?_⟩
    simp only [callHook]
    generalize D s.w h = x
    obtain ⟨w, c⟩ := x
    cases c
    · exact ⟨rfl, Or.inl rfl⟩
    · exact ⟨rfl, Or.inr rfl⟩
  have tell : ∀ (p : Promise σ) (x : Cache σ × LoopEnd), ∃ w, HookWorld D s.w w ∧
      (thenTell D p s x).1 = { s with c := x.1, w := w } ∧
      ((thenTell D p s x).2 = x.2.res .unit ∨ (thenTell D p s x).2 = .panic .user ∧ ∃ a : Ans σ, x.2.res .unit = .val a) := by
    rintro p ⟨c, e⟩
    unfold thenTell
    cases e with
    | done =>
      obtain ⟨w, h0, h1, h2⟩ := call (.report (.invalidate p)) { s with c := c } (.unit : Ans σ)
      exact ⟨w, h0, h1, h2.imp id fun h => ⟨h, _, rfl⟩⟩
    | panic k => exact ⟨s.w, .inl rfl, rfl, Or.inl rfl⟩
    | outOfFuel => exact ⟨s.w, .inl rfl, rfl, Or.inl rfl⟩
  cases op with
  | get how p => cases h
  | getMut p f => cases h
  | dynStateMut p f => cases h
  | lookup how p =>
    simp only [execH, exec, lookupByH, lookupBy]
    cases how with
    | bin => exact ⟨s.w, .inl rfl, rfl, Or.inl rfl⟩
    | ref => exact ⟨s.w, .inl rfl, rfl, Or.inl rfl⟩
    | cloned =>
      simp only [lookupCloned]
      generalize lookupRef Y p s.c = r
      rcases r with (_ | v) | _ | _ | _
      · exact ⟨s.w, .inl rfl, rfl, Or.inl rfl⟩
      · refine ⟨(D s.w (.clone v)).1, .inr ⟨_, rfl⟩, ?_⟩
        simp only [callHook]
        generalize D s.w (.clone v) = x
        obtain ⟨w, c⟩ := x
        cases c
        · exact ⟨rfl, Or.inl rfl⟩
        · exact ⟨rfl, Or.inr ⟨rfl, _, rfl⟩⟩
      · exact ⟨s.w, .inl rfl, rfl, Or.inl rfl⟩
      · exact ⟨s.w, .inl rfl, rfl, Or.inl rfl⟩
      · exact ⟨s.w, .inl rfl, rfl, Or.inl rfl⟩
  | invalidate p => exact tell p _
  | purge p => exact tell p _
  | clearAll =>
    obtain ⟨w, h0, h1, h2⟩ := call (.report .clear) (s.onCache clearAll) (.unit : Ans σ)
    exact ⟨w, h0, h1, h2.imp id fun h => ⟨h, _, rfl⟩⟩
  | _ => exact ⟨_, .inl rfl, rfl, Or.inl rfl⟩

theorem execH_shallow {Y : Sys σ} {s : St σ} (D : Hooks σ) (n : Nat) (ord : HashOrder) (op : Op σ) (h : op.deep = false) :
    ∃ w, (execH Y D n ord s op).1 = { (exec Y n ord s op).1 with w := w } ∧
      ((execH Y D n ord s op).2 = (exec Y n ord s op).2 ∨
        (execH Y D n ord s op).2 = .panic .user ∧ ∃ a, (exec Y n ord s op).2 = .val a) := by
  obtain ⟨w, _, h⟩ := execH_shallow' D n ord op h
  exact ⟨w, h⟩

/-- An operation of a live promise is executed, else nothing happens. -/
theorem stepH_cases {Y : Sys σ} {s : St σ} (D : Hooks σ) (n : Nat) (ord : HashOrder) (op : Op σ) :
    ((∀ p, op.promise? = some p → s.live p = true) ∧ stepH Y D n ord s op = execH Y D n ord s op) ∨
    stepH Y D n ord s op = (s, .stuck) := by
  unfold stepH
  cases hp : op.promise? with
  | none => refine Or.inl ⟨?_, rfl⟩; intro p h; cases h
  | some p =>
    simp only
    split
    · next hl => refine Or.inl ⟨?_, rfl⟩; intro q h; cases h; exact hl
    · exact Or.inr rfl

theorem Inv.stepH {Y : Sys σ} {s : St σ} (hi : Inv Y s) (D : Hooks σ) (n : Nat) (ord : HashOrder) (op : Op σ)
    (hg : (stepH Y D n ord s op).2.goesOn) : Inv Y (stepH Y D n ord s op).1 := by
  rcases stepH_cases (Y := Y) (s := s) D n ord op with ⟨hl, e⟩ | e
  · rw [e] at hg ⊢
    rcases hi.execH D n ord op hl with h | h
    · exact h
    · rw [h] at hg; exact absurd rfl hg
  · rw [e]; exact hi

/-- Every reachable state satisfies the invariant. -/
theorem Reachable.inv {Y : Sys σ} {s : St σ} (h : Reachable Y s) : Inv Y s := by
  induction h with
  | new w => exact Inv.new Y w
  | step n ord op _ hg ih => exact ih.step n ord op hg
  | hooked D n ord op _ hg ih => exact ih.stepH D n ord op hg

end Daab
