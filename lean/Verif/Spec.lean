import Verif.Model
import Mathlib.Logic.Relation
import Mathlib.Data.List.Forall2

/-!
# Specification vocabulary

Small definitions the property statements are written in.  They mention no helper of the model other
than the state's fields and the event log.
-/

open Std

namespace Daab

variable {σ : Sig}

/-! ## What can be seen in a state -/

/-- The cache holds the artifact `v` for the builder id `a`. -/
def Cached (s : St σ) (a : Id) (v : σ.V) : Prop := s.c.artifacts[a]? = some v

/-- The cache holds no artifact for the builder id `a`. -/
def Uncached (s : St σ) (a : Id) : Prop := s.c.artifacts[a]? = none

/-- The cache holds the dynamic state `d` for the builder id `a`. -/
def HasState (s : St σ) (a : Id) (d : σ.S) : Prop := s.c.dynStates[a]? = some d

/-- The cache knows the builder id `a`. -/
def Known (s : St σ) (a : Id) : Prop := a ∈ s.c.known

/-- The builder `u` is recorded to have used `d`. -/
def UsesNow (s : St σ) (u d : Id) : Prop := ∃ us, s.c.dependents[d]? = some us ∧ u ∈ us

/-- `x` is `a` or uses it directly or through others. -/
def Hit (dep : Id → Id → Prop) (a x : Id) : Prop := Relation.ReflTransGen dep x a

/-- `x` uses `a` directly or through others. -/
def StrictHit (dep : Id → Id → Prop) (a x : Id) : Prop := Relation.TransGen dep x a

/-- What the caller of `get`/`get_ref`/`get_cloned` (or `lookup*`, `resolve*`) sees of the artifact
`v`: itself or a clone. -/
def seen (Y : Sys σ) : Access → σ.V → σ.V
  | .cloned, v => Y.clone v
  | _, v => v

/-- The event `e` happened on the way from `s` to `s'`. -/
def Since (s s' : St σ) (e : Event σ) : Prop := ∃ new, s'.c.log = new ++ s.c.log ∧ e ∈ new

/-- The operation `op` can take the program from `s` to `s'` with result `r`: with some stack size and
hash orders, and with quiet hooks or with any others (doctor, `Debug`, `Clone`). -/
inductive Went (Y : Sys σ) (s : St σ) (op : Op σ) : St σ → Res (Ans σ) → Prop
  | plain (n : Nat) (ord : HashOrder) : Went Y s op (step Y n ord s op).1 (step Y n ord s op).2
  | hooked (D : Hooks σ) (n : Nat) (ord : HashOrder) :
      Went Y s op (stepH Y D n ord s op).1 (stepH Y D n ord s op).2

/-- From `s` the program gets to `s'` by some operations of any kind. -/
inductive Runs (Y : Sys σ) (s : St σ) : St σ → Prop
  | refl : Runs Y s s
  | step {s' s'' : St σ} {op : Op σ} {r : Res (Ans σ)} :
      Runs Y s s' → Went Y s' op s'' r → r.goesOn → Runs Y s s''

/-- A history: operations, each with the stack space and hash order it happens to run with. -/
abbrev History (σ : Sig) := List (Nat × HashOrder × Op σ)

/-- The state and the answers after a history (first operation first). -/
def play (Y : Sys σ) : History σ → St σ → St σ × List (Res (Ans σ))
  | [], s => (s, [])
  | (n, ord, op) :: h, s =>
    let r := step Y n ord s op
    let q := play Y h r.1
    (q.1, r.2 :: q.2)

/-- The two states differ at most in what was logged (reported to the doctor, or ghost events). -/
def SameButLog (s s' : St σ) : Prop :=
  { s with c := { s.c with log := [] } } = { s' with c := { s'.c with log := [] } }

/-- The same operations with the same stack space, but other hash orders. -/
def SameOps : History σ → History σ → Prop :=
  List.Forall₂ fun x y => x.1 = y.1 ∧ x.2.2 = y.2.2

/-- No promise for the address `a` is alive: nobody references the builder there any more. -/
def Dead (s : St σ) (a : Id) : Prop := ∀ p : Promise σ, p.id = a → s.live p = false

/-! ## What a cache should hold, as a function of the history

The event log is read from the oldest event (the end of the list) to the newest. -/

/-- Abstract cache. `art a`: the builder and artifact, `state a`: the builder and dynamic state,
`dep u d`: `u` resolved `d` since `u` was invalidated the last time. -/
structure Abs (σ : Sig) where
  art : Id → Option (σ.B × σ.V)
  state : Id → Option (σ.B × σ.S)
  dep : Id → Id → Prop

/-- Nothing is held. -/
def Abs.empty : Abs σ := ⟨fun _ => none, fun _ => none, fun _ _ => False⟩

open Classical in
/-- Forget the artifacts of the builders in `R` and what these builders used. -/
noncomputable def Abs.drop (A : Abs σ) (R : Id → Prop) : Abs σ where
  art a := if R a then none else A.art a
  state := A.state
  dep u d := A.dep u d ∧ ¬ R u

/-- One event.
* `resolve u d`: `u` now uses `d`.
* `built p v`: the artifact of `p` is `v`.
* `invalidate p`: everything that is `p` or uses it directly or indirectly is dropped.
* `mutDeps a`: the same, but not `a` itself (unless it uses itself).
* `collect a`: like invalidate, and the state of `a` is dropped, too.
* `clearArtifacts`, `clear`: no artifacts and uses / nothing is left.
* `initDyn`, `setDyn`, `purged`: the dynamic state is set / dropped.
* `write a v`: the artifact of `a` is overwritten. -/
noncomputable def Abs.apply (A : Abs σ) : Event σ → Abs σ
  | .resolve u d => { A with dep := fun x y => A.dep x y ∨ (x = u.id ∧ y = d.id) }
  | .built p v => { A with art := fun a => if a = p.id then some (p.b, v) else A.art a }
  | .invalidate p => A.drop (Hit A.dep p.id)
  | .mutDeps a => A.drop (StrictHit A.dep a)
  | .collect a =>
    { A.drop (Hit A.dep a) with state := fun x => if x = a then none else A.state x }
  | .clear => Abs.empty
  | .clearArtifacts => { Abs.empty with state := A.state }
  | .initDyn p (some d) => { A with state := fun a => if a = p.id then some (p.b, d) else A.state a }
  | .initDyn _ none => A
  | .setDyn p d => { A with state := fun a => if a = p.id then some (p.b, d) else A.state a }
  | .purged p => { A with state := fun a => if a = p.id then none else A.state a }
  | .write a v => { A with art := fun x => if x = a then (A.art a).map fun bv => (bv.1, v) else A.art x }
  | .call _ => A

/-- What a cache should hold after a history (newest event first). -/
noncomputable def Abs.of : List (Event σ) → Abs σ
  | [] => Abs.empty
  | e :: l => (Abs.of l).apply e

end Daab
