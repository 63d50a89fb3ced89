import Verif.Props38

/-!
# C25 and C31 with any hooks

Which panics come out of the cache at all, and that `get`, `get_ref` and `get_cloned` (and the lookups) are the same but for one call
of a `Clone` implementation.
-/

open Std

namespace Daab

section
variable {σ : Sig} {Y : Sys σ} {s s' : St σ}

/-- **C25** The only panics that ever come out of the cache, whatever the hooks, are: those of builders and hooks themselves, those of
initialisers, and those of findings 1 and 2.  None of the other assertions, unwraps, expects and index operations fails. -/
theorem C25_any_hooks (h : Reachable Y s) {op : Op σ} {k : Panic} (hw : Went Y s op s' (.panic k)) :
    k = .user ∨ (k = .init ∧ op.runsCode) ∨ (k = .leafUnknown ∧ op = .gc) ∨
    (k = .noCounterpart ∧ ∃ p f, op = .lookupMut p f ∨ op = .getMut p f) := by
  have hplain : ∀ {n : Nat} {ord : HashOrder}, (step Y n ord s op).2 = .panic k →
      k = .user ∨ (k = .init ∧ op.runsCode) ∨ (k = .leafUnknown ∧ op = .gc) ∨
      (k = .noCounterpart ∧ ∃ p f, op = .lookupMut p f ∨ op = .getMut p f) := by
    intro n ord hk
    rcases C25_panics h hk with ⟨h1 | h1, h2⟩ | h1 | h1
    · exact .inl h1
    · exact .inr (.inl ⟨h1, h2⟩)
    · exact .inr (.inr (.inl h1))
    · exact .inr (.inr (.inr h1))
  cases hd : op.deep with
  | false =>
    obtain ⟨D, n, ord, rfl, hr⟩ := went_plain hw
    rcases stepH_cases (Y := Y) (s := s) D n ord op with ⟨hl, e⟩ | e
    · rw [e] at hr
      obtain ⟨w, _, h2⟩ := execH_shallow (Y := Y) (s := s) D n ord op hd
      rw [← hr] at h2
      rcases h2 with h2 | ⟨h2, _⟩
      · refine hplain (n := n) (ord := ord) ?_
        rw [h2]
        cases hp : op.promise? with
        | none => simp only [step, hp]
        | some p => rw [step_live hp (hl p hp)]
      · cases h2; exact .inl rfl
    · rw [e] at hr; cases hr
  | true =>
    cases op with
    | get how p =>
      rcases (C65_panics (C65_reachable h) (.went hw)).1 k rfl with h | h | ⟨h, _⟩ | ⟨h, _⟩
      · exact .inl h
      · exact .inr (.inl ⟨h, trivial⟩)
      all_goals cases h
    | dynStateMut p f =>
      have hl : s.live p = true := by
        obtain ⟨D, n, ord, rfl, hr⟩ := went_plain hw
        cases hl : s.live p with
        | true => rfl
        | false => simp [stepH, Op.promise?, hl] at hr
      rcases C10_any_hooks h hl (op := .dynStateMut p f) rfl hw with h | ⟨_, h⟩ | h | h | h <;> cases h
      · exact .inl rfl
      · exact .inr (.inl ⟨rfl, trivial⟩)
    | getMut p f =>
      obtain ⟨D, n, ord, rfl, hr⟩ := went_plain hw
      have hl : s.live p = true := by
        cases hl : s.live p with
        | true => rfl
        | false => simp [stepH, Op.promise?, hl] at hr
      rw [stepH_live rfl hl] at hr
      simp only [execH] at hr
      rcases getMut_spec_of h.inv (getAH_ok Y D n).2 ord hl with ⟨c', he, _⟩ | ⟨c1, h1, h3⟩
      · rw [he] at hr
        cases hr
        exact .inr (.inr (.inr ⟨rfl, p, f, .inr rfl⟩))
      · rcases h.inv.invalidateDependents ord p.id with ⟨c', he', _⟩ | ⟨c', he', _, hinv, _⟩
        · rw [h1] at he'; cases he'
        rw [h1] at he'
        cases he'
        rcases h3 with ⟨c2, v, _, _, _, _, he⟩ | ⟨h4, he⟩
        · rw [he] at hr
          simp only at hr
          split at hr <;> cases hr
        · rw [he] at hr
          have hno := ((getAH_ok Y D n).2.ran p { s with c := c1 } hinv hl h4).noInt
          generalize buildNH Y D n p { s with c := c1 } = z at hr hno
          obtain ⟨s3, r3⟩ := z
          rcases r3 with (e | v) | k' | _ | _
          · cases hr
          · simp only at hr
            split at hr <;> cases hr
          · cases hr
            rcases hno k rfl with h | h
            · exact .inl h
            · exact .inr (.inl ⟨h, trivial⟩)
          · cases hr
          · cases hr
    | _ => cases hd

/-- Call `Clone` once on what was answered, if it is an artifact. -/
def clonedAfter (Y : Sys σ) (D : Hooks σ) : St σ × Res (Ans σ) → St σ × Res (Ans σ)
  | (s, .val (.art (.ok v))) => callHook D (.clone v) s fun s => (s, .val (.art (.ok (Y.clone v))))
  | (s, .val (.optArt (some v))) => callHook D (.clone v) s fun s => (s, .val (.optArt (some (Y.clone v))))
  | x => x

theorem getBy_ref_bin (hi : Inv Y s) {bld : BuildFn σ} (hb : BuildOk Y bld) (p : Promise σ) :
    getBy Y bld .ref p s = getBy Y bld .bin p s := by
  cases hl : s.live p with
  | false => simp [getBy, hl]
  | true =>
    cases ha : s.c.artifacts[p.id]? with
    | some v => rw [getBy_hit hi bld .ref hl ha, getBy_hit hi bld .bin hl ha]; rfl
    | none =>
      rw [getBy_miss hi hb .ref hl ha, getBy_miss hi hb .bin hl ha]
      generalize bld p s = x
      obtain ⟨s1, r⟩ := x
      rcases r with (_ | _) | _ | _ | _ <;> rfl

/-- **C31** With the same hooks, `get_ref` is `get`, and `get_cloned` is `get` and one call of `Clone`, if there is an artifact; and
likewise for the lookups: the same effects on the cache and the outside world, the same panics, the same answers. -/
theorem C31_any_hooks (h : Reachable Y s) (D : Hooks σ) (n : Nat) (ord : HashOrder) (p : Promise σ) :
    stepH Y D n ord s (.get .ref p) = stepH Y D n ord s (.get .bin p) ∧
    stepH Y D n ord s (.get .cloned p) = clonedAfter Y D (stepH Y D n ord s (.get .bin p)) ∧
    stepH Y D n ord s (.lookup .ref p) = stepH Y D n ord s (.lookup .bin p) ∧
    stepH Y D n ord s (.lookup .cloned p) = clonedAfter Y D (stepH Y D n ord s (.lookup .bin p)) := by
  cases hl : s.live p with
  | false => simp [stepH, Op.promise?, hl, clonedAfter]
  | true =>
    have hrb := getBy_ref_bin h.inv (getAH_ok Y D n).2 p
    have hr : getAH Y D n .ref p s = getBy Y (buildNH Y D n) .ref p s := by rw [getAH_eq]; simp only [getByH, getBy]
    have hb : getAH Y D n .bin p s = getBy Y (buildNH Y D n) .bin p s := by rw [getAH_eq]; simp only [getByH, getBy]
    refine ⟨?_, ?_, ?_, ?_⟩
    · rw [stepH_get hl, stepH_get hl, hr, hb, hrb]
    · rw [stepH_get hl, stepH_get hl, hb, ← hrb]
      rw [getAH_eq]
      simp only [getByH, getBy, hl, if_true, getClonedH]
      generalize getRef Y (buildNH Y D n) p s = x
      obtain ⟨s1, r⟩ := x
      rcases r with (e | v) | k | _ | _
      · rfl
      · simp only [clonedAfter, Res.map]
        unfold callHook
        split <;> rfl
      all_goals rfl
    · rw [stepH_live rfl hl, stepH_live rfl hl]
      simp only [execH, lookupByH]
      have h1 := lookupBy_eq h.inv (Y := Y) .bin hl
      have h2 := lookupBy_eq h.inv (Y := Y) .ref hl
      simp only [lookupBy] at h1 h2
      rw [h1, h2]
      rfl
    · rw [stepH_live rfl hl, stepH_live rfl hl]
      simp only [execH, lookupByH]
      have h1 := lookupBy_eq h.inv (Y := Y) .bin hl
      have h2 := lookupBy_eq h.inv (Y := Y) .ref hl
      simp only [lookupBy] at h1 h2
      rw [h1, h2]
      cases s.c.artifacts[p.id]? with
      | none => rfl
      | some v =>
        simp only [Option.map, seen, clonedAfter, Res.map]
        unfold callHook
        split <;> rfl

end

/-! ## Examples -/

namespace Demo

set_option smartUnfolding false in
/-- The `Clone` implementation panics: `get` and `get_ref` do not call it, ... -/
example : (stepH Y (tick s1.w) 9 ord s1 (.get .ref (P 0))).2 = .val (.art (.ok (5 : Nat))) ∧
    (stepH Y (tick s1.w) 9 ord s1 (.get .cloned (P 0))).2 = .panic .user := by
  obtain ⟨h1, h2, _⟩ := C31_any_hooks reach1 (tick s1.w) 9 ord (P 0)
  rw [h1, h2]
  exact ⟨rfl, rfl⟩

/-- ... and it is the only panic there can be. -/
example {s' : St sig} {k : Panic} (hw : Went Y s1 (.lookup .cloned (P 0)) s' (.panic k)) : k = .user := by
  rcases C25_any_hooks reach1 hw with h | ⟨_, h⟩ | ⟨_, h⟩ | ⟨_, p, f, h | h⟩
  · exact h
  · exact h.elim
  all_goals cases h

set_option smartUnfolding false in
example : ∃ s', Went Y s1 (.lookup .cloned (P 0)) s' (.panic .user) := by
  have := Went.hooked (Y := Y) (s := s1) (op := .lookup .cloned (P 0)) (tick s1.w) 9 ord
  rw [show (stepH Y (tick s1.w) 9 ord s1 (.lookup .cloned (P 0))).2 = .panic .user from rfl] at this
  exact ⟨_, this⟩

end Demo

end Daab
