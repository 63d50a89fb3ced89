import Verif.Step

/-!
# A concrete system

Used to show that the hypotheses of the property theorems are met by real histories, and for the
witnesses of the refuted properties.  Nothing here is a property theorem.
-/

open Std

namespace Daab

variable {σ : Sig}

instance {α : Type} (r : Res α) : Decidable r.goesOn := by
  cases r <;> unfold Res.goesOn <;> infer_instance

/-- Run operations one after the other (stack space `n`). -/
def runOps (Y : Sys σ) (n : Nat) (ord : HashOrder) : List (Op σ) → St σ → St σ
  | [], s => s
  | op :: ops, s => runOps Y n ord ops (step Y n ord s op).1

/-- Every operation of the list returns or panics in a way the program can go on. -/
def goOn (Y : Sys σ) (n : Nat) (ord : HashOrder) : List (Op σ) → St σ → Bool
  | [], _ => true
  | op :: ops, s => decide (step Y n ord s op).2.goesOn && goOn Y n ord ops (step Y n ord s op).1

theorem Reachable.runOps {Y : Sys σ} {n : Nat} {ord : HashOrder} (ops : List (Op σ)) {s : St σ}
    (h : Reachable Y s) (hg : goOn Y n ord ops s = true) : Reachable Y (runOps Y n ord ops s) := by
  induction ops generalizing s with
  | nil => exact h
  | cons op ops ih =>
    simp only [goOn, Bool.and_eq_true, decide_eq_true_eq] at hg
    exact ih (.step n ord op h hg.1) hg.2

theorem Undisturbed.runOps {Y : Sys σ} {n : Nat} {ord : HashOrder} (ops : List (Op σ)) {s : St σ}
    (h : Undisturbed Y s) (hg : goOn Y n ord ops s = true) : Undisturbed Y (runOps Y n ord ops s) := by
  induction ops generalizing s with
  | nil => exact h
  | cons op ops ih =>
    simp only [goOn, Bool.and_eq_true, decide_eq_true_eq] at hg
    exact ih (.step n ord op h hg.1) hg.2

namespace Demo

/-- Everything is a number. -/
abbrev sig : Sig := ⟨Nat, Nat, Nat, Nat, Nat, Nat, inferInstance, inferInstance⟩

/-- Builder `b` lives at address `10 + b`. -/
def P (b : Nat) : Promise sig := ⟨10 + b, b⟩

/-- * 0: leaf, returns its dynamic state.
* 1: resolves 0, returns artifact + 100; 2: resolves 1 and 0, returns the sum.
* 3: if the world is 0, resolves 0 and fails (and sets the world to 1); otherwise returns 7.
* 4: resolves itself.  5: panics if the world is 0, else returns 5.  6: always fails.
* 7, 8: resolve each other.
* 9: if the world is 0, sets it to 1 and resolves itself; otherwise returns 9.
* otherwise: returns `b`. -/
def code : Nat → Prog sig
  | 0 => .myState id fun d => .ret (.ok d)
  | 1 => .resolve .bin (P 0) fun r => match r with
    | .ok v => .ret (.ok (v + 100))
    | .error e => .ret (.error e)
  | 2 => .resolve .ref (P 1) fun r => match r with
    | .ok v => .resolve .cloned (P 0) fun r => match r with
      | .ok w => .ret (.ok (v + w))
      | .error e => .ret (.error e)
    | .error e => .ret (.error e)
  | 3 => .world (fun _ => 1) fun w => match w with
    | 0 => .resolve .bin (P 0) fun _ => .ret (.error 0)
    | _ => .ret (.ok 7)
  | 4 => .resolve .bin (P 4) .ret
  | 5 => .world (fun _ => 1) fun w => match w with
    | 0 => .panic
    | _ => .ret (.ok 5)
  | 6 => .resolve .bin (P 0) fun _ => .ret (.error 6)
  | 7 => .resolve .bin (P 8) .ret
  | 8 => .resolve .bin (P 7) .ret
  | 9 => .world (fun _ => 1) fun w => match w with
    | 0 => .resolve .bin (P 9) .ret
    | _ => .ret (.ok 9)
  | b => .ret (.ok b)

/-- The demo system, compiled with debug assertions. -/
def Y : Sys sig where
  code := code
  init b w := (w, some b)
  vty _ := 0
  sty _ := 0
  artTy _ := 0
  stTy _ := 0
  clone v := v
  debug := true

/-- Iterate in the order of the list. -/
def ord : HashOrder := ⟨fun _ l => l, fun _ _ => List.Perm.refl _⟩

/-- Iterate in reverse order. -/
def ord' : HashOrder := ⟨fun _ l => l.reverse, fun _ l => List.reverse_perm l⟩

/-- Allocate builders 0 to 9. -/
def allocs : List (Op sig) := (List.range 10).map fun b => .alloc (P b)

/-- The state after a history. -/
def after (ops : List (Op sig)) : St sig := runOps Y 9 ord (allocs ++ ops) (St.new 0)

theorem reach (ops : List (Op sig)) (h : goOn Y 9 ord (allocs ++ ops) (St.new 0) = true) :
    Reachable Y (after ops) :=
  Reachable.runOps _ (Reachable.new (Y := Y) (0 : Nat)) h

example : Reachable Y (after [.get .bin (P 2), .invalidate (P 1)]) := reach _ (by decide)

/-- The state of builder 0 is set to 5 and builder 2 is got: 0, 1 and 2 are built to 5, 105, 110. -/
def s1 : St sig := after [.dynStateMut (P 0) (fun _ => 5), .get .bin (P 2)]

theorem undisturbed1 : Undisturbed Y s1 :=
  Undisturbed.runOps _ (Undisturbed.new (Y := Y) (0 : Nat)) (by decide)

theorem reach1 : Reachable Y s1 := reach _ (by decide)

example : Cached s1 10 5 ∧ Cached s1 11 105 ∧ Cached s1 12 110 := by unfold Cached; decide

example : UsesNow s1 12 11 ∧ UsesNow s1 12 10 ∧ UsesNow s1 11 10 :=
  ⟨⟨_, rfl, by decide⟩, ⟨_, rfl, by decide⟩, ⟨_, rfl, by decide⟩⟩

end Demo
end Daab
