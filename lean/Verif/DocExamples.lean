import Verif.Demo

/-!
# The example of the crate's documentation and the programs in `examples/`, replayed in the model

Not properties, but a check that the model is a model of this code: the example in `src/lib.rs` 101-218 (a doc test) with all
its assertions, and `examples/boxed_result.rs` and `examples/boxed_result_cloned.rs` with the lines their builders print, executed
by the kernel.
-/

open Std

namespace Daab.DocExamples

/-- `lib.rs` 105-108 `Leaf`, 132-137 `Node`.  The `addr` says which `Rc` it is: every `Rc::new` makes a new one. -/
inductive Art
  | leaf (addr : Nat)
  | node (addr : Nat) (leaf : Art) (value : Nat)
  deriving DecidableEq

/-- The types of artifacts and dynamic states. -/
inductive Ty
  | leaf | node | unit | u8
  deriving DecidableEq

/-- Dynamic states: `()` is `none`. The world counts the `Rc::new`s. -/
abbrev sig : Sig := ⟨Nat, Art, Option Nat, Empty, Nat, Ty, inferInstance, inferInstance⟩

def P (b : Nat) : Promise sig := ⟨0x1000 + 16 * b, b⟩

def leafBuilder := P 0
def nodeBuilder1 := P 1
def nodeBuilder2 := P 2

/-- `Rc::new` (or `.into()`). -/
def rcNew (k : Nat → Prog sig) : Prog sig := .world (· + 1) k

/-- `lib.rs` 122-131 `BuilderLeaf::build`, 158-178 `BuilderNode::build`: `resolve(&self.builder_leaf).unpack()`, then the state. -/
def code : Nat → Prog sig
  | 0 => rcNew fun a => .ret (.ok (.leaf a))
  | _ => .resolve .bin leafBuilder fun
    | .ok l => .myState id fun
      | some v => rcNew fun a => .ret (.ok (.node a l v))
      | none => .panic
    | .error e => e.elim

/-- `lib.rs` 175-177: the state of a node starts with 42. -/
def Y : Sys sig where
  code := code
  init b w := (w, some (match b with | 0 => none | _ => some 42))
  vty b := match b with | 0 => .leaf | _ => .node
  sty b := match b with | 0 => .unit | _ => .u8
  artTy | .leaf _ => .leaf | .node .. => .node
  stTy | none => .unit | some _ => .u8
  clone v := v
  debug := true

/-- What an assertion of the example looks at. -/
inductive Seen
  | art (v : Art)
  | state (d : Option (Option Nat))
  | unit
  | other
  deriving DecidableEq

def seenOf : Res (Ans sig) → Seen
  | .val (.art (.ok v)) => .art v
  | .val (.optState d) => .state d
  | .val (.state d) => .state (some d)
  | .val .unit => .unit
  | _ => .other

def play : List (Op sig) → St sig → List Seen
  | [], _ => []
  | op :: ops, s => seenOf (step Y 20 Demo.ord s op).2 :: play ops (step Y 20 Demo.ord s op).1

def start : St sig := runOps Y 0 Demo.ord [.alloc leafBuilder, .alloc nodeBuilder1, .alloc nodeBuilder2] (St.new (0 : Nat))

/-- `lib.rs` 181-217, all calls in order. -/
def calls : List (Op sig) := [
  -- The same builder results in same artifact
  .get .bin nodeBuilder1, .get .bin nodeBuilder1,
  -- Different builders result in different artifacts
  .get .bin nodeBuilder1, .get .bin nodeBuilder2,
  -- Different artifacts may link the same dependent artifact
  .get .bin nodeBuilder1, .get .bin nodeBuilder2,
  -- Purge builder 2
  .purge nodeBuilder2,
  -- Test dynamic state
  .get .bin nodeBuilder1,
  -- Change state
  .dynStateMut nodeBuilder1 fun _ => some 127,
  .dynState nodeBuilder1,
  .get .bin nodeBuilder1,
  -- State of node 2
  .getDynState nodeBuilder2,
  .get .bin nodeBuilder2]

/-- All assertions of the example hold: `Rc::ptr_eq` where it says so (the numbers of the `Rc`s), the values 42, 127, 42, the states
127 and `None`. -/
example : play calls start = [
    .art (.node 1 (.leaf 0) 42), .art (.node 1 (.leaf 0) 42),
    .art (.node 1 (.leaf 0) 42), .art (.node 2 (.leaf 0) 42),
    .art (.node 1 (.leaf 0) 42), .art (.node 2 (.leaf 0) 42),
    .unit,
    .art (.node 1 (.leaf 0) 42),
    .state (some (some 42)),
    .state (some (some 127)),
    .art (.node 3 (.leaf 0) 127),
    .state none,
    .art (.node 4 (.leaf 0) 42)] := by decide +kernel

/-- But a garbage collection after the `purge` of the example panics (finding on C21), until node 2 is got again at its end. -/
example : (step Y 20 Demo.ord (runOps Y 20 Demo.ord (calls.take 7) start) .gc).2 = .panic .leafUnknown ∧
    (step Y 20 Demo.ord (runOps Y 20 Demo.ord calls start) .gc).2 = .val .unit := ⟨rfl, rfl⟩

/-! ## `examples/boxed_result.rs`, `examples/boxed_result_cloned.rs` -/

namespace Boxed

inductive Art
  | foo | baz | bar (foo baz : Art)
  deriving DecidableEq

inductive Ty
  | foo | baz | bar | unit
  deriving DecidableEq

/-- The world is what was printed, the last line first. -/
abbrev sig : Sig := ⟨Nat, Art, Unit, Unit, List String, Ty, inferInstance, inferInstance⟩

def foo : Promise sig := ⟨0x1000, (0 : Nat)⟩
def baz : Promise sig := ⟨0x1010, (1 : Nat)⟩
def bar : Promise sig := ⟨0x1020, (2 : Nat)⟩

def println (l : String) (k : Prog sig) : Prog sig := .world (l :: ·) fun _ => k

/-- 25-37 `FooBuilder`, 42-54 `BazBuilder`, 62-79 `BarBuilder`. -/
def code : Nat → Prog sig
  | 0 => println "Building FooArtifact..." (.ret (.ok .foo))
  | 1 => println "Building BazArtifact..." (.ret (.ok .baz))
  | _ => .resolve .bin foo fun
    | .ok f => .resolve .bin baz fun
      | .ok z => println "Building BarArtifact..." (.ret (.ok (.bar f z)))
      | .error e => .ret (.error e)
    | .error e => .ret (.error e)

def Y : Sys sig where
  code := code
  init _ w := (w, some ())
  vty b := match b with | 0 => .foo | 1 => .baz | _ => .bar
  sty _ := .unit
  artTy | .foo => .foo | .baz => .baz | .bar .. => .bar
  stTy _ := .unit
  clone v := v
  debug := true

/-- 81-115 `main`; `how` is `get_ref` in the one program and `get` in the other. -/
def main (how : Access) : List (Op sig) := [
  .alloc foo, .alloc baz, .alloc bar,
  .world ("Taking FooBuilder dyn_state..." :: ·), .getDynState foo,
  .world ("Setting FooBuilder dyn_state..." :: ·), .dynStateMut foo fun _ => (),
  .world ("Taking FooBuilder dyn_state..." :: ·), .getDynState foo,
  .world ("Taking FooBuilder dyn_state..." :: ·), .getDynState foo,
  .world ("Requesting BarArtifact..." :: ·), .get how bar,
  .world ("Requesting BarArtifact..." :: ·), .get how bar,
  .world ("Invalidating BarArtifact..." :: ·), .invalidate bar,
  .world ("Requesting BarArtifact..." :: ·), .get how bar,
  .world ("Requesting BarArtifact..." :: ·), .get how bar]

/-- What the programs print: only what is invalidated is built again. -/
example (how : Access) : (runOps Y 20 Demo.ord (main how) (St.new ([] : List String))).w.reverse = [
    "Taking FooBuilder dyn_state...", "Setting FooBuilder dyn_state...", "Taking FooBuilder dyn_state...",
    "Taking FooBuilder dyn_state...",
    "Requesting BarArtifact...", "Building FooArtifact...", "Building BazArtifact...", "Building BarArtifact...",
    "Requesting BarArtifact...",
    "Invalidating BarArtifact...",
    "Requesting BarArtifact...", "Building BarArtifact...",
    "Requesting BarArtifact..."] := by cases how <;> decide +kernel

/-- What they `dbg!`: `None` at first, `Some(())` after it was set. -/
example : (step Y 20 Demo.ord (runOps Y 20 Demo.ord ((main .bin).take 4) (St.new ([] : List String))) (.getDynState foo)).2 =
      .val (.optState none) ∧
    (step Y 20 Demo.ord (runOps Y 20 Demo.ord ((main .bin).take 8) (St.new ([] : List String))) (.getDynState foo)).2 =
      .val (.optState (some ())) := ⟨rfl, rfl⟩

end Boxed

end Daab.DocExamples
