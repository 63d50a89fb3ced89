import Verif.Spec
import Mathlib.Data.Set.Card

/-!
# The ideal cache

A specification of the whole public interface that fits on a page.  It says what a cache is *for*: it remembers
artifacts and dynamic states, and who used whom; it knows nothing of `dependents`, `dependencies`,
`known_leaf_builder`, of worklists, hash orders, type tags or debug assertions.  Invalidation is defined by
"everything that uses it, directly or through others".  (Nothing here models code of the repository.)
-/

open Std

namespace Daab

variable {σ : Sig}

/-- What an ideal cache remembers, and its surroundings.
* `art`, `state`: artifacts and dynamic states,
* `uses u d`: `u` has used `d` since `u` was invalidated the last time,
* `known`: the builders the cache has met,
* `stray`: the builders that were invalidated or purged but are not known (see finding 1),
* `heap`: the builders somebody holds a blueprint of; `w`: the outside world. -/
structure Ideal (σ : Sig) where
  art : Id → Option σ.V
  state : Id → Option σ.S
  uses : Id → Id → Prop
  known : Id → Prop
  stray : Id → Prop
  heap : Id → Option σ.B
  w : σ.W

namespace Ideal

/-- First do the one thing, then, if it returned, the other. -/
def bind {α β : Type} (x : Ideal σ × Res α) (k : α → Ideal σ → Ideal σ × Res β) : Ideal σ × Res β :=
  match x with
  | (m, .val a) => k a m
  | (m, .panic e) => (m, .panic e)
  | (m, .stuck) => (m, .stuck)
  | (m, .overflow) => (m, .overflow)

/-- Nothing is remembered. -/
def empty (heap : Id → Option σ.B) (w : σ.W) : Ideal σ :=
  ⟨fun _ => none, fun _ => none, fun _ _ => False, fun _ => False, fun _ => False, heap, w⟩

/-- From now on the builder is known. -/
def meet (p : Promise σ) (m : Ideal σ) : Ideal σ :=
  { m with known := fun a => m.known a ∨ a = p.id, stray := fun a => m.stray a ∧ a ≠ p.id }

/-- `u` uses `q`. -/
def use (u q : Promise σ) (m : Ideal σ) : Ideal σ :=
  { m.meet q with uses := fun x y => m.uses x y ∨ (x = u.id ∧ y = q.id) }

/-- Set the dynamic state. -/
def setState (p : Promise σ) (d : σ.S) (m : Ideal σ) : Ideal σ :=
  { m with state := fun a => if a = p.id then some d else m.state a }

/-- Set the artifact. -/
def setArt (p : Promise σ) (v : σ.V) (m : Ideal σ) : Ideal σ :=
  { m with art := fun a => if a = p.id then some v else m.art a }

/-- The dynamic state, initialised if there is none. -/
def getState (Y : Sys σ) (p : Promise σ) (m : Ideal σ) : Ideal σ × Res σ.S :=
  match m.state p.id with
  | some d => (m.meet p, .val d)
  | none =>
    match Y.init p.b m.w with
    | (w, some d) => ({ m.meet p with w := w }.setState p d, .val d)
    | (w, none) => ({ m.meet p with w := w }, .panic .init)

/-- The code of the builder `p` runs; `get` is how it gets other artifacts. -/
def run (get : Access → Promise σ → Ideal σ → Ideal σ × Res (Except σ.E σ.V)) (p : Promise σ) :
    Prog σ → Ideal σ → Ideal σ × Res (Except σ.E σ.V)
  | .ret r, m => (m, .val r)
  | .panic, m => (m, .panic .user)
  | .resolve how q k, m => bind (get how q (m.use p q)) fun r m => run get p (k r) m
  | .myState f k, m =>
    match m.state p.id with
    | some d => run get p (k d) (m.setState p (f d))
    | none => (m, .panic .noMyState)
  | .world f k, m => run get p (k m.w) { m with w := f m.w }
  | .alloc q k, m => run get p k { m with heap := fun a => if a = q.id then some q.b else m.heap a }
  | .free b k, m => run get p k { m with heap := fun a => if a = b then none else m.heap a }

/-- `get`, `get_ref`, `get_cloned`: the artifact if there is one; otherwise the builder is run, and its
artifact, but no error, is remembered.  `n`: how many builds may be nested. -/
def get (Y : Sys σ) : Nat → Access → Promise σ → Ideal σ → Ideal σ × Res (Except σ.E σ.V)
  | n, how, p, m =>
    match m.art p.id with
    | some v => (m, .val (.ok (seen Y how v)))
    | none =>
      match n with
      | 0 => (m, .overflow)
      | n + 1 =>
        bind (getState Y p m) fun _ m =>
        bind (run (get Y n) p (Y.code p.b) m) fun r m =>
        match r with
        | .ok v => (m.setArt p v, .val (.ok (seen Y how v)))
        | .error e => (m, .val (.error e))

open Classical in
/-- Forget the artifacts of the builders in `R`, and what they used. -/
noncomputable def drop (R : Id → Prop) (m : Ideal σ) : Ideal σ :=
  { m with art := fun a => if R a then none else m.art a, uses := fun u d => m.uses u d ∧ ¬ R u }

/-- An unknown builder was to be invalidated. -/
def strays (p : Promise σ) (m : Ideal σ) : Ideal σ :=
  { m with stray := fun a => m.stray a ∨ (a = p.id ∧ ¬ m.known a) }

/-- Forget the artifact of `p` and of everything that uses it, directly or through others. -/
noncomputable def invalidate (p : Promise σ) (m : Ideal σ) : Ideal σ :=
  (m.drop (Hit m.uses p.id)).strays p

/-- Forget the builder and invalidate it. -/
noncomputable def purge (p : Promise σ) (m : Ideal σ) : Ideal σ :=
  ({ m with
      known := fun a => m.known a ∧ a ≠ p.id
      state := fun a => if a = p.id then none else m.state a }).invalidate p

/-- The builders nobody holds and nobody uses. -/
def garbage (m : Ideal σ) (a : Id) : Prop := m.known a ∧ m.heap a = none ∧ ∀ u, ¬ m.uses u a

open Classical in
/-- Forget the garbage. -/
noncomputable def sweep (m : Ideal σ) : Ideal σ :=
  { m.drop m.garbage with
    known := fun a => m.known a ∧ ¬ m.garbage a
    state := fun a => if m.garbage a then none else m.state a }

open Classical in
/-- Everything that uses `p` is invalidated, then the artifact is handed out for writing.  Finding 2: panics
if there is something to invalidate (other than `p` itself). -/
noncomputable def mutDeps (p : Promise σ) (m : Ideal σ) : Ideal σ × Res Unit :=
  if ∃ x, x ≠ p.id ∧ m.uses x p.id then (m, .panic .noCounterpart)
  else ((m.drop (StrictHit m.uses p.id)).strays p, .val ())

open Classical in
/-- The operations of the cache, and what else may happen (the last three). -/
noncomputable def step (Y : Sys σ) (n : Nat) (m : Ideal σ) : Op σ → Ideal σ × Res (Ans σ)
  | .get how p => bind (get Y n how p m) fun r m => (m, .val (.art r))
  | .getMut p f =>
    bind (mutDeps p m) fun _ m =>
    bind (get Y n .bin p m) fun r m =>
    match r with
    | .ok v => (m.setArt p (f v), .val (.art (.ok v)))
    | .error e => (m, .val (.art (.error e)))
  | .lookup how p => (m, .val (.optArt ((m.art p.id).map (seen Y how))))
  | .lookupMut p f =>
    bind (mutDeps p m) fun _ m =>
    match m.art p.id with
    | some v => (m.setArt p (f v), .val (.optArt (some v)))
    | none => (m, .val (.optArt none))
  | .dynState p => bind (getState Y p m) fun d m => (m, .val (.state d))
  | .getDynState p => (m, .val (.optState (m.state p.id)))
  | .dynStateMut p f =>
    bind (getState Y p (m.invalidate p)) fun d m => (m.setState p (f d), .val (.state d))
  | .isKnown p => (m, .val (.bool (decide (m.known p.id))))
  | .numKnown => (m, .val (.nat (Set.ncard { a | m.known a })))
  | .invalidate p => (m.invalidate p, .val .unit)
  | .purge p => (m.purge p, .val .unit)
  | .clearArtifacts => (m.drop fun _ => True, .val .unit)
  | .clearAll => (empty m.heap m.w, .val .unit)
  | .gc => if ∃ a, m.stray a then (m, .panic .leafUnknown) else (m.sweep, .val .unit)
  | .alloc q => ({ m with heap := fun a => if a = q.id then some q.b else m.heap a }, .val .unit)
  | .free b => ({ m with heap := fun a => if a = b then none else m.heap a }, .val .unit)
  | .world f => ({ m with w := f m.w }, .val .unit)

/-- A history of operations, first operation first; how many builds may be nested in each. -/
noncomputable def play (Y : Sys σ) : List (Nat × Op σ) → Ideal σ → Ideal σ × List (Res (Ans σ))
  | [], m => (m, [])
  | (n, op) :: h, m =>
    let r := step Y n m op
    let q := play Y h r.1
    (q.1, r.2 :: q.2)

end Ideal

/-- What the cache remembers, as an ideal cache: the answers to `lookup` and `get_dyn_state`, the uses on record,
the known builders, and the leafs that are not known. -/
def ideal (s : St σ) : Ideal σ where
  art a := s.c.artifacts[a]?
  state a := s.c.dynStates[a]?
  uses := UsesNow s
  known := Known s
  stray a := a ∈ s.c.leafs ∧ a ∉ s.c.known
  heap a := s.heap[a]?
  w := s.w

end Daab
