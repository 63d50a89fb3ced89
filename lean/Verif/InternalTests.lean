import Verif.Demo

/-!
# The unit tests of `internal.rs` on the model

The tests in `internal.rs` 1047-1955 call the functions of `RawCache` and inspect its tables.  Each is executed here on the
model, where Lean evaluates it.  They check the model (not the code, and they are no proofs of properties): a model that
deviated from what the authors of the code expect of `RawCache` would fail here.
-/

open Std

namespace Daab.InternalTests

/-- `test.rs` 16-19 `Leaf`, 93-97 `SimpleNode`. -/
inductive Art
  | leaf (id : Nat)
  | node (id : Nat) (leaf : Art)
  deriving DecidableEq

/-- The dynamic states `()`, `bool`, `(AP, bool)` (`test.rs` 41, 76, 189). -/
inductive Dyn
  | unit
  | bool (b : Bool)
  | var (ap : Nat) (b : Bool)
  deriving DecidableEq

/-- The types. -/
inductive Ty
  | leaf | node | unit | bool | var
  deriving DecidableEq

/-- The world is the `COUNTER`. -/
abbrev sig : Sig := ⟨Nat, Art, Dyn, Unit, Nat, Ty, inferInstance, inferInstance⟩

/-- The blueprint of builder `b`. -/
def P (b : Nat) : Promise sig := ⟨0x1000 + 16 * b, b⟩

/-- `BuilderLeaf::new()` -/
def bp := P 0
/-- `BuilderLeafFallible::new()` -/
def fallible := P 1
def base := P 2
def base2 := P 3
/-- `BuilderVariableNode::new(base_bp.clone())` -/
def mid := P 4
/-- `BuilderVariableNode::new(mid_bp.clone())` -/
def endp := P 5

/-- `COUNTER.fetch_add(1, ..)` -/
def fetchAdd (k : Nat → Prog sig) : Prog sig := .world (fun w => w + 1) k

/-- `test.rs` 45-49, 80-88, 193-207. -/
def code : Nat → Prog sig
  | 0 => fetchAdd fun i => .ret (.ok (.leaf i))
  | 1 | 2 | 3 => .myState id fun
    | .bool true => fetchAdd fun i => .ret (.ok (.leaf i))
    | _ => .ret (.error ())
  | _ => .myState id fun
    | .var ap _ => .resolve .bin (P ap) fun
      | .ok leaf => .myState id fun
        | .var _ true => fetchAdd fun i => .ret (.ok (.node i leaf))
        | _ => .ret (.error ())
      | .error e => .ret (.error e)
    | _ => .panic

/-- Compiled as a test, i.e. with debug assertions. -/
def Y : Sys sig where
  code := code
  init b w := (w, some (if b = 0 then .unit else if b ≤ 3 then .bool true else if b = 4 then .var 2 true else .var 4 true))
  vty b := if b ≤ 3 then .leaf else .node
  sty b := if b = 0 then .unit else if b ≤ 3 then .bool else .var
  artTy
    | .leaf _ => .leaf
    | .node .. => .node
  stTy
    | .unit => .unit
    | .bool _ => .bool
    | .var .. => .var
  clone v := v
  debug := true

def ord : HashOrder := ⟨fun _ l => l, fun _ l => .refl l⟩

/-- `Blueprint::new` for all of them, and `RawCache::new()`. -/
def start : St sig := runOps Y 0 ord ((List.range 6).map fun b => .alloc (P b)) (St.new (0 : Nat))

/-- Calls of the functions of `RawCache`. -/
def run (ops : List (Op sig)) : St sig := runOps Y 20 ord ops start

/-- `cache.build(&bp)`, which the public functions call for builders without artifact only. -/
def built (p : Promise sig) (s : St sig) : St sig := (buildN Y 20 p s).1
def built? (p : Promise sig) (s : St sig) : Option (Except Unit Art) :=
  match (buildN Y 20 p s).2 with
  | .val r => some r
  | _ => none

/-- `is_builder_known`, `contains_artifact`, `get_dyn_state(..).is_some()` -/
def has (s : St sig) (p : Promise sig) : Bool × Bool × Bool :=
  (isKnown p.id s.c, containsArtifact p.id s.c, match getDynState Y p s.c with | .val o => o.isSome | _ => false)

/-- The artifacts the three lookups find. -/
def found (s : St sig) (p : Promise sig) : Option (Option Art × Option Art × Option Art) :=
  match lookup Y p s.c, lookupRef Y p s.c, lookupCloned Y p s.c with
  | .val a, .val b, .val c => some (a, b, c)
  | _, _, _ => none

abbrev get (p : Promise sig) : Op sig := .get .bin p

/-- 1047-1065 `contains_artifact` -/
example : (containsArtifact bp.id start.c, containsArtifact bp.id (built bp start).c,
    containsArtifact bp.id (runOps Y 20 ord [.invalidate bp] (built bp start)).c) = (false, true, false) := by decide +kernel

/-- 1067-1089 `is_builder_known` -/
example : (isKnown bp.id start.c, isKnown bp.id (built bp start).c,
    isKnown bp.id (runOps Y 20 ord [.invalidate bp] (built bp start)).c,
    isKnown bp.id (runOps Y 20 ord [.invalidate bp, .purge bp] (built bp start)).c) = (false, true, true, false) := by
  decide +kernel

/-- 1091-1117 `is_builder_known_by_id` -/
example : ([[], [.dynState bp], [.dynState bp, .purge bp], [.dynState bp, .purge bp, .invalidate bp],
    [.dynState bp, .purge bp, .invalidate bp, .lookup .bin bp]].map fun ops => isKnown bp.id (run ops).c) =
    [false, true, false, false, false] := by decide +kernel

/-- 1119-1230 `lookup`, `lookup_ref`, `lookup_mut`, `lookup_cloned` -/
example : found start bp = some (none, none, none) ∧ found (run [.dynState bp]) bp = some (none, none, none) ∧
    built? bp (run [.dynState bp]) = some (.ok (.leaf 0)) ∧
    found (built bp (run [.dynState bp])) bp = some (some (.leaf 0), some (.leaf 0), some (.leaf 0)) ∧
    found (runOps Y 20 ord [.lookupMut bp id, .lookupMut bp id] (built bp (run [.dynState bp]))) bp =
      some (some (.leaf 0), some (.leaf 0), some (.leaf 0)) ∧
    found (runOps Y 20 ord [.invalidate bp] (built bp (run [.dynState bp]))) bp = some (none, none, none) := by decide +kernel

/-- 1232-1258 `build` -/
example : has start bp = (false, false, false) ∧ has (built bp start) bp = (true, true, true) ∧
    built? bp start = some (.ok (.leaf 0)) ∧ found (built bp start) bp = some (some (.leaf 0), some (.leaf 0), some (.leaf 0)) ∧
    built? bp (runOps Y 20 ord [.invalidate bp] (built bp start)) = some (.ok (.leaf 1)) ∧
    found (built bp (runOps Y 20 ord [.invalidate bp] (built bp start))) bp =
      some (some (.leaf 1), some (.leaf 1), some (.leaf 1)) := by decide +kernel

/-- 1260-1279 `build_double_build`: panics. -/
example : (buildN Y 20 bp (built bp start)).2 = .panic .buildCached := by rfl

/-- 1281-1319 `build_err` -/
example : let no := run [.dynStateMut fallible fun _ => .bool false]
    built? fallible no = some (.error ()) ∧ containsArtifact fallible.id (built fallible no).c = false ∧
    built? fallible (built fallible no) = some (.error ()) ∧
    containsArtifact fallible.id (built fallible (built fallible no)).c = false ∧
    built? fallible (runOps Y 20 ord [.dynStateMut fallible fun _ => .bool true] (built fallible (built fallible no))) =
      some (.ok (.leaf 0)) := by decide +kernel

/-- 1321-1424 `get`, `get_ref`, `get_mut`, `get_cloned` -/
example : found (run [get bp]) bp = some (some (.leaf 0), some (.leaf 0), some (.leaf 0)) ∧
    found (run [get bp, .get .ref bp, .getMut bp id, .get .cloned bp]) bp = found (run [get bp]) bp ∧
    found (run [get bp, .invalidate bp, .getMut bp id]) bp = some (some (.leaf 1), some (.leaf 1), some (.leaf 1)) := by
  decide +kernel

/-- 1426-1452 `ensure_dyn_state`, 1454-1534 the other functions for dynamic states -/
example : getDynState Y fallible start.c = .val none ∧ (ensureDyn Y fallible start).2 = .val (.bool true) ∧
    (ensureDyn Y fallible (ensureDyn Y fallible start).1).2 = .val (.bool true) ∧
    (ensureDyn Y fallible (run [.dynState fallible, .dynStateMut fallible fun _ => .bool false])).2 = .val (.bool false) ∧
    getDynState Y fallible (ensureDyn Y fallible start).1.c = .val (some (.bool true)) := ⟨rfl, rfl, rfl, rfl, rfl⟩

/-- 1536-1556 `purge`, 1601-1621 `clear_artifacts`, 1666-1686 `clear_all`, 1731-1751 `invalidate` -/
example : ([[get bp], [get bp, .purge bp], [get bp, .clearArtifacts], [get bp, .clearAll],
    [get bp, .invalidate bp]].map fun ops => has (run ops) bp) =
    [(true, true, true), (false, false, false), (true, false, true), (false, false, false), (true, false, true)] := by
  decide +kernel

/-- 1558-1599 `purge_deps`, 1623-1664 `clear_artifacts_deps`, 1688-1729 `clear_all_deps`, 1753-1794 `invalidate_deps` -/
example : ([[get endp], [get endp, .purge mid], [get endp, .clearArtifacts], [get endp, .clearAll],
    [get endp, .invalidate mid]].map fun ops => [base, mid, endp].map (has (run ops))) =
    [[(true, true, true), (true, true, true), (true, true, true)],
     [(true, true, true), (false, false, false), (true, false, true)],
     [(true, false, true), (true, false, true), (true, false, true)],
     [(false, false, false), (false, false, false), (false, false, false)],
     [(true, true, true), (true, false, true), (true, false, true)]] := by decide +kernel

/-- The operation of line 1832: `cache.dyn_state_mut(&mid_bp).0 = base_bp_2.clone();` -/
def toBase2 : Op sig := .dynStateMut mid fun | .var _ b => .var 3 b | d => d

/-- 1796-1886 `invalidate_deps_complex` -/
example : ([[get endp], [get endp, toBase2], [get endp, toBase2, get endp],
    [get endp, toBase2, get endp, .invalidate base]].map fun ops => [base, base2, mid, endp].map (has (run ops))) =
    [[(true, true, true), (false, false, false), (true, true, true), (true, true, true)],
     [(true, true, true), (false, false, false), (true, false, true), (true, false, true)],
     [(true, true, true), (true, true, true), (true, true, true), (true, true, true)],
     [(true, false, true), (true, true, true), (true, true, true), (true, true, true)]] := by decide +kernel

/-- 1888-1919 `garbage_collection` -/
example : ([[get bp], [get bp, .gc], [get bp, .gc, .free bp.id, .gc]].map fun ops => (has (run ops) bp, numKnown (run ops).c)) =
    [((true, true, true), 1), ((true, true, true), 1), ((false, false, false), 0)] := by decide +kernel

/-- 1921-1954 `garbage_collection_deps`: the program's handles of `mid` and `end` are dropped.  `end` is gone then; `mid` is
when the collection has dropped the builder and dynamic state of `end`, which have handles of it, too. -/
example : ([[get endp], [get endp, .free endp.id, .gc], [get endp, .free endp.id, .gc, .free mid.id, .gc]].map fun ops =>
    (numKnown (run ops).c, has (run ops) base)) =
    [(3, (true, true, true)), (2, (true, true, true)), (1, (true, true, true))] := by decide +kernel

end Daab.InternalTests
