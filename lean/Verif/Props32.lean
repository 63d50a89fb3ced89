import Verif.LogFreeH
import Verif.Props27

/-!
# C09, C15: with any doctor, `Debug` and `Clone` implementations

The hooks (`Hooks`) may keep state of their own in the outside world, and may panic at any call.  So equal states
include what the doctor, `Debug` and `Clone` implementations remember: the doctor is told the same, in the same order,
under every hash order.
-/

open Std

namespace Daab

section
variable {σ : Sig} {Y : Sys σ} {s : St σ}

/-! ## Vocabulary -/

/-- The same operations, stack sizes and hooks, with possibly different hash orders. -/
def SameOpsH : HistoryH σ → HistoryH σ → Prop :=
  List.Forall₂ fun x y => x.1 = y.1 ∧ x.2.1 = y.2.1 ∧ x.2.2.2 = y.2.2.2

/-! ## Proofs -/

theorem getMut_order' (hi : Inv Y s) (bld : BuildFn σ) (ord ord' : HashOrder) {p : Promise σ}
    (hl : s.live p = true) :
    getMut Y ord bld p s = getMut Y ord' bld p s ∨
    ((getMut Y ord bld p s).2 = .panic .noCounterpart ∧ (getMut Y ord' bld p s).2 = .panic .noCounterpart) := by
  rcases lookupMut_order hi ord ord' hl with he | ⟨h1, h2⟩
  · left
    rcases lookupMut_spec hi ord hl with ⟨c1, e1, x, hx⟩ | ⟨c1, e1, d1⟩
    · have e2 := he ▸ e1
      unfold getMut
      rw [e1, e2]
    · have e2 : lookupMut Y ord' p s.c = _ := he ▸ e1
      rcases hi.invalidateDependents ord p.id with ⟨c3, e3, _⟩ | ⟨c3, e3, _, hinv, hno, _⟩
      · rw [d1] at e3; cases e3
      · rw [d1] at e3
        cases e3
        unfold getMut
        rw [e1, e2]
        rcases lookupMut_order hinv ord ord' (p := p) hl with h3 | ⟨h3, _⟩
        · simp only at h3
          cases c1.artifacts[p.id]? with
          | none => rfl
          | some v => simp only [h3]
        · exfalso
          rcases lookupMut_spec hinv ord (p := p) hl with ⟨c4, _, x, hx⟩ | ⟨c4, e4, _⟩
          · exact hno x hx.2
          · rw [e4] at h3; cases h3
  · right
    have : ∀ o, (lookupMut Y o p s.c).2 = .panic .noCounterpart →
        (getMut Y o bld p s).2 = .panic .noCounterpart := by
      intro o ho
      unfold getMut
      generalize lookupMut Y o p s.c = x at ho
      obtain ⟨c, r⟩ := x
      simp only at ho
      subst ho
      rfl
    exact ⟨this _ h1, this _ h2⟩

theorem SameButLog.stepH {s s' : St σ} (h : SameButLog s s') (D : Hooks σ) (n : Nat) (ord : HashOrder) (op : Op σ) :
    SameButLog (stepH Y D n ord s op).1 (stepH Y D n ord s' op).1 ∧
      (stepH Y D n ord s op).2 = (stepH Y D n ord s' op).2 := by
  obtain ⟨new, hn⟩ := stepH_logFree Y D n ord op s
  obtain ⟨new', hn'⟩ := stepH_logFree Y D n ord op s'
  have e := hn []
  have e' := hn' []
  rw [sameButLog_iff] at h ⊢
  simp only at e e'
  rw [h] at e
  rw [e] at e'
  simp only [Prod.mk.injEq] at e'
  refine ⟨?_, e'.2⟩
  have : ∀ (x : St σ) l, (x.withLog l).withLog [] = x.withLog [] := fun _ _ => rfl
  rw [← this _ (new ++ []), e'.1, this]

theorem stepH_order (hi : Inv Y s) (D : Hooks σ) (n : Nat) (ord ord' : HashOrder) (op : Op σ) :
    (SameButLog (stepH Y D n ord s op).1 (stepH Y D n ord' s op).1 ∧
      (op ≠ .gc → (stepH Y D n ord s op).2 ≠ .panic .noCounterpart →
        (stepH Y D n ord s op).1 = (stepH Y D n ord' s op).1) ∨
      (stepH Y D n ord s op).2 = .panic .noCounterpart) ∧
    (stepH Y D n ord s op).2 = (stepH Y D n ord' s op).2 := by
  have same : stepH Y D n ord s op = stepH Y D n ord' s op →
      (SameButLog (stepH Y D n ord s op).1 (stepH Y D n ord' s op).1 ∧
      (op ≠ .gc → (stepH Y D n ord s op).2 ≠ .panic .noCounterpart →
        (stepH Y D n ord s op).1 = (stepH Y D n ord' s op).1) ∨
      (stepH Y D n ord s op).2 = .panic .noCounterpart) ∧
    (stepH Y D n ord s op).2 = (stepH Y D n ord' s op).2 := by
    intro h
    rw [h]
    exact ⟨Or.inl ⟨rfl, fun _ _ => rfl⟩, rfl⟩
  by_cases hlive : ∀ p, op.promise? = some p → s.live p = true
  swap
  · apply same
    unfold Daab.stepH
    cases hp : op.promise? with
    | none => exact absurd (fun p h => by rw [hp] at h; cases h) hlive
    | some p =>
      have : s.live p = false := by
        cases hl : s.live p with
        | false => rfl
        | true => exact absurd (fun q h => by rw [hp] at h; cases h; exact hl) hlive
      simp only [this, Bool.false_eq_true, if_false]
  have hse : ∀ o, stepH Y D n o s op = execH Y D n o s op := by
    intro o
    unfold Daab.stepH
    cases hp : op.promise? with
    | none => rfl
    | some p => simp only [hlive p hp, if_true]
  cases op with
  | invalidate p => apply same; rw [hse, hse]; simp only [execH, invalidate_order hi ord ord' p]
  | purge p => apply same; rw [hse, hse]; simp only [execH, purge_order hi ord ord' p]
  | dynStateMut p f =>
    apply same; rw [hse, hse]; simp only [execH, dynStateMutH, invalidate_order hi ord ord' p]
  | gc =>
    have := gc_order hi ord ord'
    simp only [hse, execH, exec]
    refine ⟨Or.inl ⟨?_, fun h => absurd rfl h⟩, by rw [this.2]⟩
    rw [sameButLog_iff]
    unfold St.withLog
    simp only [this.1]
  | lookupMut p f =>
    rcases lookupMut_order hi ord ord' (hlive p rfl) with h | ⟨h1, h2⟩
    · apply same; rw [hse, hse]; simp only [execH, exec, h]
    · have : ∀ o, (lookupMut Y o p s.c).2 = .panic .noCounterpart →
          (Daab.stepH Y D n o s (.lookupMut p f)).2 = .panic .noCounterpart := by
        intro o ho
        rw [hse]
        simp only [execH, exec]
        generalize lookupMut Y o p s.c = x at ho
        obtain ⟨c, r⟩ := x
        simp only at ho
        subst ho
        rfl
      exact ⟨Or.inr (this _ h1), by rw [this _ h1, this _ h2]⟩
  | getMut p f =>
    rcases getMut_order' hi (buildNH Y D n) ord ord' (hlive p rfl) with h | ⟨h1, h2⟩
    · apply same; rw [hse, hse]; simp only [execH, h]
    · have : ∀ o, (getMut Y o (buildNH Y D n) p s).2 = .panic .noCounterpart →
          (Daab.stepH Y D n o s (.getMut p f)).2 = .panic .noCounterpart := by
        intro o ho
        rw [hse]
        simp only [execH]
        generalize getMut Y o (buildNH Y D n) p s = x at ho
        obtain ⟨c, r⟩ := x
        simp only at ho
        subst ho
        rfl
      exact ⟨Or.inr (this _ h1), by rw [this _ h1, this _ h2]⟩
  | _ => apply same; rw [hse, hse]; rfl

theorem playH_sameButLog {s s' : St σ} (h : SameButLog s s') (hist : HistoryH σ) :
    (playH Y hist s).2 = (playH Y hist s').2 ∧ SameButLog (playH Y hist s).1 (playH Y hist s').1 := by
  induction hist generalizing s s' with
  | nil => exact ⟨rfl, h⟩
  | cons x hist ih =>
    obtain ⟨D, n, ord, op⟩ := x
    obtain ⟨h1, h2⟩ := h.stepH (Y := Y) D n ord op
    obtain ⟨h3, h4⟩ := ih h1
    simp only [playH]
    exact ⟨by rw [h2, h3], h4⟩

/-! ## Theorems -/

/-- **C09** One operation under two hash orders, with any doctor, `Debug` and `Clone` implementations (which may count,
print, panic): the same answer, the same cache, the same surroundings, including what those implementations remember,
hence they were told the same in the same order.  Exceptions: ghost events of the garbage collection (no hook is
called there), and the state after the panic of finding 2. -/
theorem C09_any_hooks (h : Reachable Y s) (D : Hooks σ) (n : Nat) (ord ord' : HashOrder) (op : Op σ)
    (hp : (stepH Y D n ord s op).2 ≠ .panic .noCounterpart) :
    (stepH Y D n ord s op).2 = (stepH Y D n ord' s op).2 ∧
    SameButLog (stepH Y D n ord s op).1 (stepH Y D n ord' s op).1 ∧
    (op ≠ .gc → (stepH Y D n ord s op).1 = (stepH Y D n ord' s op).1) := by
  obtain ⟨h1 | h1, h2⟩ := stepH_order h.inv D n ord ord' op
  · exact ⟨h2, h1.1, fun hg => h1.2 hg hp⟩
  · exact absurd h1 hp

/-- **C09** Whole histories with any hooks, which may be others in each operation, and in which panics of builders
and hooks are caught. -/
theorem C09_any_hooks_history (h : Reachable Y s) {hist hist' : HistoryH σ}
    (hops : SameOpsH hist hist') (hg : ∀ r ∈ (playH Y hist s).2, r.goesOn) :
    (playH Y hist s).2 = (playH Y hist' s).2 ∧ SameButLog (playH Y hist s).1 (playH Y hist' s).1 := by
  suffices H : ∀ s s' : St σ, Reachable Y s → Reachable Y s' → SameButLog s s' →
      (∀ r ∈ (playH Y hist s).2, r.goesOn) →
      (playH Y hist s).2 = (playH Y hist' s').2 ∧ SameButLog (playH Y hist s).1 (playH Y hist' s').1 from
    H s s h h (SameButLog.refl s) hg
  clear h hg
  unfold SameOpsH at hops
  induction hops with
  | nil => intro s s' _ _ hs _; exact ⟨rfl, hs⟩
  | @cons x y hist hist' hxy hrest ih =>
    obtain ⟨D, n, ord, op⟩ := x
    obtain ⟨D', n', ord', op'⟩ := y
    obtain ⟨rfl, rfl, rfl⟩ := hxy
    intro s s' hr hr' hs hg
    simp only [playH] at hg ⊢
    have hg1 : (stepH Y D n ord s op).2.goesOn := hg _ (by simp)
    obtain ⟨h1, h2⟩ := hs.stepH (Y := Y) D n ord op
    have hg2 : (stepH Y D n ord s' op).2.goesOn := h2 ▸ hg1
    have hne : (stepH Y D n ord s' op).2 ≠ .panic .noCounterpart := by
      intro he; rw [he] at hg2; exact hg2 rfl
    obtain ⟨h3, h4, _⟩ := C09_any_hooks hr' D n ord ord' op hne
    have hg3 : (stepH Y D n ord' s' op).2.goesOn := h3 ▸ hg2
    obtain ⟨h5, h6⟩ := ih _ _ (Reachable.hooked D n ord op hr hg1) (Reachable.hooked D n ord' op hr' hg3)
      (h1.trans h4) (fun r hr => hg r (List.mem_cons_of_mem _ hr))
    exact ⟨by rw [h5, h2, h3], h6⟩

/-- **C15** With any hooks: `clear_all` has emptied the cache when the doctor is told, so whatever the doctor does
then (it may even panic), every later history, with any hooks, gives the answers it would give on a newly created
cache in the same surroundings (living builders, and the outside world as the doctor left it). -/
theorem C15_clear_all_any_hooks (D : Hooks σ) (n : Nat) (ord : HashOrder) (s : St σ) (hist : HistoryH σ) :
    let s' := (stepH Y D n ord s .clearAll).1
    (playH Y hist s').2 = (playH Y hist { St.new (D s.w (.report .clear)).1 with heap := s.heap, born := s.born }).2 ∧
    ((stepH Y D n ord s .clearAll).2 = .val .unit ∨ (D s.w (.report .clear)).2 = true) := by
  have hw : (s.onCache clearAll).w = s.w := rfl
  simp only [stepH, Op.promise?, execH, callHook, hw]
  rcases D s.w (.report .clear) with ⟨w, _ | _⟩
  · refine ⟨(playH_sameButLog ?_ hist).1, .inl rfl⟩
    rfl
  · refine ⟨(playH_sameButLog ?_ hist).1, .inr rfl⟩
    rfl

end

/-! ## The hypotheses are met -/

namespace Demo

/-- A doctor that counts its calls and panics at the `k`-th one. -/
def tick (k : Nat) : Hooks sig := fun w _ => (w + 1, w == k)

/-- `C09_any_hooks`: `invalidate(0)`, which iterates over two dependents, in different orders; the doctor counts one
call, or panics at it. -/
example : (stepH Y (tick 99) 9 ord s1 (.invalidate (P 0))).1 = (stepH Y (tick 99) 9 ord' s1 (.invalidate (P 0))).1 ∧
    (stepH Y (tick 99) 9 ord s1 (.invalidate (P 0))).1.w = s1.w + 1 ∧
    (stepH Y (tick s1.w) 9 ord s1 (.invalidate (P 0))).2 = .panic .user :=
  ⟨(C09_any_hooks reach1 (tick 99) 9 ord ord' (.invalidate (P 0))
      (by intro h; cases (show Res.val Ans.unit = _ from h))).2.2 (by intro h; cases h), rfl, rfl⟩

/-- The operations of the next example. -/
def ops32 : List (Op sig) := [.invalidate (P 0), .get .bin (P 2), .lookup .cloned (P 1), .clearAll, .free 12, .gc]

set_option smartUnfolding false in
/-- `C09_any_hooks_history`: a history in which the doctor panics in the middle of a build, which is caught. -/
example : SameOpsH (ops32.map fun o => (tick 4, 9, ord, o)) (ops32.map fun o => (tick 4, 9, ord', o)) ∧
    (∀ r ∈ (playH Y (ops32.map fun o => (tick 4, 9, ord, o)) s1).2, r.goesOn) ∧
    (playH Y (ops32.map fun o => (tick 4, 9, ord, o)) s1).2 = [.val .unit, .panic .user, .val (.optArt none), .val .unit,
      .val .unit, .val .unit] := by
  refine ⟨by simp [SameOpsH], by decide +kernel, ?_⟩
  rfl

/-- `C15_clear_all_any_hooks`: the doctor panics when it is told, yet builder 0 answers its initial state afterwards
(it was 5 before). -/
example : (stepH Y (tick s1.w) 9 ord s1 .clearAll).2 = .panic .user ∧
    (playH Y [(tick 99, 9, ord, .get .bin (P 0))] s1).2 = [.val (.art (.ok 5))] ∧
    (playH Y [(tick 99, 9, ord, .get .bin (P 0))] (stepH Y (tick s1.w) 9 ord s1 .clearAll).1).2 = [.val (.art (.ok 0))] :=
  ⟨rfl, rfl, (C15_clear_all_any_hooks (tick s1.w) 9 ord s1 _).1.trans rfl⟩

end Demo

end Daab
