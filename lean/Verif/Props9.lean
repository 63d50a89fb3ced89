import Verif.Redeem
import Verif.Props8

/-! # Property C33 (`RedeemingBuilder`) -/

open Std

namespace Daab

variable {σ : Sig} {Y : Sys σ} {s : St σ}

/-- What a `RedeemingBuilder` `p` of `q` answers, depending on the outcome `x` of asking `q`. -/
def redeemed (Y : Sys σ) (how : Access) (last : Option σ.V) : Res (Ans σ) → Res (Ans σ)
  | .val (.art (.ok v)) => .val (.art (.ok (seen Y how v)))
  | .val (.art (.error _)) =>
    match last with
    | some v => .val (.art (.ok (seen Y how v)))
    | none => .panic .user
  | x => x

/-- **C33** A `RedeemingBuilder` `p` without artifact asks its inner builder `q`.  It answers `q`'s
artifact if there is one; if `q` fails it answers the artifact it was itself built to the last time (at
first its default), and panics iff there is none; a panic of `q` is passed on.  An answer it gave is
what it remembers from then on; and nothing else changes what it remembers while `q` is asked, except
if `q`'s build in turn builds `p`.  This holds after any history without handing out `p`'s dynamic state for
writing, with any doctors, `Debug` and `Clone` implementations, as long as no doctor panics when it is told that
`p` was built. -/
theorem C33_redeeming {p q : Promise σ} {enc : Option σ.V → σ.S} {dec : σ.S → Option σ.V}
    {dflt : Option σ.V} (h : ReachableBy Y (NotSetting p) (Hears p) s) (hr : Redeeming Y enc dec dflt p q)
    (hl : s.live p = true) (hq : s.live q = true) (hu : Uncached s p.id) (n : Nat) (ord : HashOrder)
    (how : Access) :
    ∃ s1, Asked Y s s1 p q ∧
      (step Y (n + 1) ord s (.get how p)).2 =
        redeemed Y how (lastGood p dflt (step Y n ord s1 (.get .bin q)).1.c.log)
          (step Y n ord s1 (.get .bin q)).2 ∧
      (∀ v, (step Y n ord s1 (.get .bin q)).2 = .val (.art (.ok v)) →
        Cached (step Y (n + 1) ord s (.get how p)).1 p.id v ∧
        lastGood p dflt (step Y (n + 1) ord s (.get how p)).1.c.log = some v) ∧
      ((∀ v, ¬ Since s1 (step Y n ord s1 (.get .bin q)).1 (.built p v)) →
        lastGood p dflt (step Y n ord s1 (.get .bin q)).1.c.log = lastGood p dflt s.c.log) := by
  have hi := h.reachable.inv
  have hm := h.memo hr
  obtain ⟨s1, hask, hrun, hq1, e⟩ := build_asks n hi hl hq hu hr.init hr.code
  have e1 : lastGood p dflt s1.c.log = lastGood p dflt s.c.log := by
    obtain ⟨l, hlog, hlog'⟩ := hask.log
    rw [hlog]
    rcases hlog' with rfl | ⟨d, rfl⟩ <;> rfl
  refine ⟨s1, hask, ?_⟩
  have hm1 : Memo Y dec dflt p s1 := by
    have hs1 := hrun.known
    have e2 : held p s1.c = stateOf Y s p := by rw [held_self hs1 ⟨rfl, rfl⟩, hask.state]
    unfold stateOf at e2
    cases hd : s.c.dynStates[p.id]? with
    | some d =>
      rw [hd] at e2
      refine hm.same ?_ e1
      rw [e2]
      obtain ⟨b, hb⟩ := (mem_getElem _ _).1 (hi.dynKnown _ ((mem_getElem _ _).2 ⟨d, hd⟩))
      have hb' := hi.heapKnown _ _ _ hb (live_iff.1 hl)
      rw [held_self (q := p) (by rw [hb, hb']) ⟨rfl, rfl⟩, hd]
    | none =>
      rw [hd] at e2
      rw [hr.init.2] at e2
      have hn := hm.none (by unfold held; simp [hd])
      constructor
      · intro d hd'
        rw [e2] at hd'
        cases hd'
        rw [hr.decEnc, e1, hn]
        exact ⟨rfl, hr.dfltTy⟩
      · intro hd'
        rw [e2] at hd'
        cases hd'
  rw [step_get (n + 1) ord how hl, step_get n ord .bin hq1, getA_miss (n + 1) how hi hl hu, e]
  have hj := (getA_preserves (memo_ops hr).bld n).1 .bin q s1 hrun.inv hm1
  have m := ((getA_ok Y n).1.ran .bin q s1 hrun.inv).micros
  have hlast : (∀ v, ¬ Since s1 (getA Y n .bin q s1).1 (.built p v)) →
      lastGood p dflt (getA Y n .bin q s1).1.c.log = lastGood p dflt s.c.log := fun hn =>
    (m.lastGood p dflt hn).trans e1
  have hty := fun v => getA_ty (v := v) (n := n) (how := .bin) (q := q) hrun.inv
  generalize getA Y n .bin q s1 = x at hj m hty hlast
  obtain ⟨s2, r⟩ := x
  cases r with
  | val r =>
    obtain ⟨hm3, hres⟩ := redeem_rest hr (hrun.micros m) (hj (ended_val _)) (getA Y n) r (by
      rintro v rfl
      obtain ⟨v0, _, hv, ht⟩ := hty v rfl
      rw [hv]; exact ht)
    simp only [andThen]
    cases r with
    | ok v =>
      obtain ⟨hres, hdyn⟩ := hres
      refine ⟨?_, ?_, hlast⟩
      · rw [hres]; rfl
      · rintro v' ⟨⟩
        revert hres hdyn
        generalize runProg Y (getA Y n) p (redeemingRest enc dec (.ok v)) s2 = y
        obtain ⟨s3, r3⟩ := y
        rw [finish_res]
        rintro ⟨⟩ hdyn
        simp [finish, Cached, St.onCache, Cache.emit, lastGood]
    | error er =>
      refine ⟨?_, fun _ h => (by cases h), hlast⟩
      simp only [Res.map, redeemed]
      revert hres
      cases lastGood p dflt s2.c.log with
      | some v => intro hres; simp only at hres; rw [hres]; rfl
      | none => intro hres; simp only at hres; rw [hres]; rfl
  | panic k => exact ⟨rfl, fun _ h => (by cases h), hlast⟩
  | stuck => exact ⟨rfl, fun _ h => (by cases h), hlast⟩
  | overflow => exact ⟨rfl, fun _ h => (by cases h), hlast⟩

/-- **C33** A `RedeemingBuilder` is invalidated with its inner builder. -/
theorem C33_invalidated_with_inner (h : Reachable Y s) {p q : Promise σ} {enc : Option σ.V → σ.S}
    {dec : σ.S → Option σ.V} {dflt : Option σ.V} (hr : Redeeming Y enc dec dflt p q)
    (hl : s.live p = true) (hq : s.live q = true) (n : Nat) (ord : HashOrder) :
    Uncached (step Y n ord s (.invalidate q)).1 p.id :=
  C34_invalidated_with_inner h (.inr (.inr (.inr ⟨enc, dec, dflt, hr⟩))) hl hq n ord

end Daab
