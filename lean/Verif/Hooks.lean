import Verif.Props5
import Verif.Preserve

/-!
# C59: panics of the doctor, of `Debug` and of `Clone` implementations

The panics that come out of the cache if hooks may panic at any call.
-/

open Std

namespace Daab

variable {σ : Sig} {Y : Sys σ} {s : St σ}

theorem getMutWrite_panics (hi : Inv Y s) {bld : BuildFn σ} (hb : BuildOk Y bld) (ord : HashOrder)
    {p : Promise σ} (hl : s.live p = true) (f : σ.V → σ.V) {k : Panic}
    (hk : (getMutWrite Y ord bld p f s).2 = .panic k) : k = .user ∨ k = .init ∨ k = .noCounterpart := by
  unfold getMutWrite at hk
  rcases getMut_spec_of hi hb ord hl with ⟨c', he, _⟩ | ⟨c1, h1, ⟨c2, v, _, _, h2, hinv, he⟩ | ⟨h2, he⟩⟩
  · rw [he] at hk; cases hk; exact .inr (.inr rfl)
  · rw [he] at hk
    simp only at hk
    split at hk <;> cases hk
  · rcases hi.invalidateDependents ord p.id with ⟨c', he', _⟩ | ⟨c', he', _, hinv, _⟩
    · rw [h1] at he'; cases he'
    · rw [h1] at he'
      cases he'
      rw [he] at hk
      have hn := (hb.ran p { s with c := c1 } hinv hl h2).noInt
      generalize bld p { s with c := c1 } = x at hk hn
      obtain ⟨s', r⟩ := x
      rcases r with (e | v) | k' | _ | _
      · cases hk
      · simp only at hk
        split at hk <;> cases hk
      · cases hk; exact (hn k rfl).imp id .inl
      · cases hk
      · cases hk

theorem dynStateMutH_panics (hi : Inv Y s) (D : Hooks σ) (ord : HashOrder) {p : Promise σ}
    (hl : s.live p = true) (f : σ.S → σ.S) : (dynStateMutH Y D ord p f s).2.noInternal := by
  obtain ⟨c', he, hd⟩ := invalidate_spec hi ord p
  have hinv := hi.invalidated hd
  unfold dynStateMutH
  rw [he]
  simp only
  unfold callHook
  split
  · exact noInternal_user
  · next w _ =>
    have hen := (ensureDyn_ran (hinv.micro (.world w)) (p := p) hl).1.noInt
    simp only at hen ⊢
    generalize ensureDyn Y p { s with c := c'.emit (.invalidate p), w := w } = x at hen
    obtain ⟨s1, r⟩ := x
    cases r with
    | val d =>
      simp only
      split
      · exact noInternal_val _
      · exact noInternal_stuck
    | panic k => exact hen
    | stuck => exact noInternal_stuck
    | overflow => exact noInternal_overflow

/-- **C59** Whatever the doctor and the `Debug` and `Clone` implementations do, in the cache's own code nothing
panics that does not panic without them: every panic that comes out is one of user code (builders or hooks) or one
of findings 1 (GC) and 2 (mutable access). -/
theorem C59_panics (h : Reachable Y s) {D : Hooks σ} {n : Nat} {ord : HashOrder} {op : Op σ} {k : Panic}
    (hk : (stepH Y D n ord s op).2 = .panic k) :
    k = .user ∨ (k = .init ∧ op.runsCode) ∨ (k = .leafUnknown ∧ op = .gc) ∨
    (k = .noCounterpart ∧ ∃ p f, op = .lookupMut p f ∨ op = .getMut p f) := by
  have hi := h.inv
  rcases stepH_cases (Y := Y) (s := s) D n ord op with ⟨hl, e⟩ | e
  swap
  · rw [e] at hk; cases hk
  rw [e] at hk
  cases hdeep : op.deep with
  | false =>
    obtain ⟨w, _, h2⟩ := execH_shallow (Y := Y) (s := s) D n ord op hdeep
    rcases h2 with h2 | ⟨h2, _⟩
    · rw [h2] at hk
      have hse : step Y n ord s op = exec Y n ord s op := by
        unfold step
        cases hp : op.promise? with
        | none => rfl
        | some p => simp only [hl p hp, if_true]
      rw [← hse] at hk
      rcases C25_panics h hk with ⟨h1 | h1, h2⟩ | h1 | h1
      · exact .inl h1
      · exact .inr (.inl ⟨h1, h2⟩)
      · exact .inr (.inr (.inl h1))
      · exact .inr (.inr (.inr h1))
    · rw [h2] at hk; cases hk; exact .inl rfl
  | true =>
    cases op with
    | get how p =>
      have hn := ((getAH_ok Y D n).1 how p s hi).noInt
      simp only [execH] at hk
      generalize getAH Y D n how p s = x at hn hk
      obtain ⟨s2, r⟩ := x
      simp only at hn hk
      cases r <;> simp only [Res.map] at hk <;> cases hk
      exact (hn k rfl).imp id fun h => .inl ⟨h, trivial⟩
    | getMut p f =>
      rcases getMutWrite_panics hi (getAH_ok Y D n).2 ord (hl p rfl) f hk with h1 | h1 | h1
      · exact .inl h1
      · exact .inr (.inl ⟨h1, trivial⟩)
      · exact .inr (.inr (.inr ⟨h1, p, f, .inr rfl⟩))
    | dynStateMut p f =>
      have hn := dynStateMutH_panics hi D ord (hl p rfl) f
      simp only [execH] at hk
      generalize dynStateMutH Y D ord p f s = x at hn hk
      obtain ⟨s2, r⟩ := x
      simp only at hn hk
      cases r <;> simp only [Res.map] at hk <;> cases hk
      exact (hn k rfl).imp id fun h => .inl ⟨h, trivial⟩
    | _ => cases hdeep

end Daab
