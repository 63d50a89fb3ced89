import Verif.Props17
import Verif.Demo

/-!
# The repository's own unit tests, replayed in the model

Not properties, but a check that the model is a model of this code: the tests of `src/test_impl.rs` (which is compiled for
`rc` and `arc`) and `src/test.rs`, executed by the kernel, with the assertions the tests make, and with the doctors' complete
texts where the tests have patterns for them.
-/

open Std

namespace Daab.RepoTests

/-- `test_impl.rs` 18-21 `Leaf`, 47-51 `SimpleNode`, 80-88 and 117-121 `ComplexNode`. -/
inductive Art
  | leaf (id : Nat)
  | simple (id : Nat) (leaf : Art)
  | complexLeaf (id : Nat) (leaf : Art)
  | complexNodes (id : Nat) (left right : Art)
  deriving DecidableEq

/-- The types of the artifacts. -/
inductive Ty
  | leaf | simple | complex | unit | bool
  deriving DecidableEq

/-- The world is the `COUNTER` of the tests (`test_impl.rs` 15). -/
abbrev sig : Sig := ⟨Nat, Art, Bool, Unit, Nat, Ty, inferInstance, inferInstance⟩

/-- The blueprint of builder `b`. -/
def P (b : Nat) : Promise sig := ⟨0x1000 + 16 * b, b⟩

def leaf1 := P 0
def leaf2 := P 1
def node1 := P 2
def node2 := P 3
def node3 := P 4
def nodef1 := P 5
def nodef2 := P 6
def nodef3 := P 7
def noden1 := P 8
def noden2 := P 9
def noden3 := P 10
def twin := P 11
def fallible := P 12

/-- `COUNTER.fetch_add(1, ..)` -/
def fetchAdd (k : Nat → Prog sig) : Prog sig := .world (fun w => w + 1) k

/-- `cache.resolve(..).unpack()` -/
def resolve (p : Promise sig) (k : Art → Prog sig) : Prog sig := .resolve .bin p fun
  | .ok v => k v
  | .error e => .ret (.error e)

/-- `test_impl.rs` 37-45. -/
def buildLeaf : Prog sig := fetchAdd fun i => .ret (.ok (.leaf i))

/-- `test_impl.rs` 67-78: first the leaf, then the number. -/
def buildSimple (l : Promise sig) : Prog sig := resolve l fun v => fetchAdd fun i => .ret (.ok (.simple i v))

/-- `test_impl.rs` 106-110, 173-182: first the number. -/
def buildComplexLeaf (l : Promise sig) : Prog sig := fetchAdd fun i => resolve l fun v => .ret (.ok (.complexLeaf i v))

/-- `test_impl.rs` 111-116, 173-182. -/
def buildComplexNodes (l r : Promise sig) : Prog sig :=
  fetchAdd fun i => resolve l fun v => resolve r fun w => .ret (.ok (.complexNodes i v w))

/-- `test.rs` 56-92 `BuilderLeafFallible`. -/
def buildFallible : Prog sig := .myState id fun
  | true => fetchAdd fun i => .ret (.ok (.leaf i))
  | false => .ret (.error ())

/-- The builders of the tests. -/
def code : Nat → Prog sig
  | 0 | 1 => buildLeaf
  | 2 => buildSimple leaf1
  | 3 => buildSimple leaf2
  | 4 => buildSimple leaf2
  | 5 => buildComplexLeaf leaf1
  | 6 => buildComplexLeaf leaf2
  | 7 => buildComplexLeaf leaf2
  | 8 => buildComplexNodes nodef1 nodef2
  | 9 => buildComplexNodes nodef3 noden1
  | 10 => buildComplexNodes noden2 noden2
  | 11 => buildSimple leaf1
  | _ => buildFallible

/-- Compiled as a test, i.e. with debug assertions. -/
def Y : Sys sig where
  code := code
  init _ w := (w, some true)
  vty b := if b ≤ 1 then .leaf else if b ≤ 4 then .simple else if b ≤ 10 then .complex else if b = 11 then .simple else .leaf
  sty _ := .bool
  artTy
    | .leaf _ => .leaf
    | .simple .. => .simple
    | _ => .complex
  stTy _ := .bool
  clone v := v
  debug := true

def ord : HashOrder := ⟨fun _ l => l, fun _ l => .refl l⟩

/-- `Blueprint::new` for all of them, and `Cache::new()`. -/
def start : St sig := runOps Y 0 ord ((List.range 13).map fun b => .alloc (P b)) (St.new (0 : Nat))

/-- The artifact of an answer. -/
def art : Res (Ans sig) → Option Art
  | .val (.art (.ok v)) => some v
  | .val (.optArt v) => v
  | _ => none

/-- Execute the calls; the artifacts they return. -/
def play : List (Op sig) → St sig → List (Option Art)
  | [], _ => []
  | op :: ops, s => art (step Y 20 ord s op).2 :: play ops (step Y 20 ord s op).1

abbrev get (p : Promise sig) : Op sig := .get .bin p

/-! ## Same builder, same artifact -/

/-- `test_impl.rs` 184-216 `test_leaf_broken`, `test_leaf`; `test.rs` 464-480: the artifact of `leaf1` is the same every time,
the one of `leaf2` is another. -/
example : play [get leaf1, get leaf1, get leaf1, get leaf2] start =
    [some (.leaf 0), some (.leaf 0), some (.leaf 0), some (.leaf 1)] := rfl

/-- `test.rs` 363-380, 481-496 with other access functions. -/
example : play [.get .cloned leaf1, .get .ref leaf1, .get .cloned leaf1, .get .ref leaf2] start =
    [some (.leaf 0), some (.leaf 0), some (.leaf 0), some (.leaf 1)] := rfl

/-- `test.rs` 381-396 `test_boxed_mut`. -/
example : play [.getMut leaf1 id, .getMut leaf1 id, .getMut leaf1 id, .getMut leaf2 id] start =
    [some (.leaf 0), some (.leaf 0), some (.leaf 0), some (.leaf 1)] := rfl

/-- `test_impl.rs` 218-238 `test_node`: `node2` and `node3` differ, but have the same leaf. -/
example : play [get node1, get node1, get node2, get node3, get node2, get node3] start =
    [some (.simple 1 (.leaf 0)), some (.simple 1 (.leaf 0)), some (.simple 3 (.leaf 2)), some (.simple 4 (.leaf 2)),
      some (.simple 3 (.leaf 2)), some (.simple 4 (.leaf 2))] := rfl

/-- `test_impl.rs` 240-270 `test_complex`: the seven calls, and the three assertions about their artifacts. -/
example : play [get noden3, get noden3, get noden1, get noden2, get leaf1, get noden1, get noden3] start =
    let leaf := Art.leaf 6
    let node := Art.complexNodes 4 (.complexLeaf 5 leaf) (.complexLeaf 7 (.leaf 3))
    let inner := Art.complexNodes 1 (.complexLeaf 2 (.leaf 3)) node
    let root := Art.complexNodes 0 inner inner
    [some root, some root, some node, some inner, some leaf, some node, some root] := by decide +kernel

/-- `test_impl.rs` 542-552 `test_into`. -/
example : play [get leaf1, get node1] start = [some (.leaf 0), some (.simple 1 (.leaf 0))] := rfl

/-! ## Clearing and invalidating -/

/-- `test_impl.rs` 272-286 `test_clear`. -/
example : play [get leaf1, .clearAll, get leaf1] start = [some (.leaf 0), none, some (.leaf 1)] := rfl

/-- `test_impl.rs` 525-540 `test_invalidate`. -/
example : play [get leaf1, .invalidate leaf1, get leaf1] start = [some (.leaf 0), none, some (.leaf 1)] := rfl

/-- `test_impl.rs` 494-523 `test_complex_clear`: all three artifacts differ afterwards. -/
example : let a := play [get leaf1, get noden1, get noden3, .clearAll, get noden3, get noden1, get leaf1] start
    a.length = 7 ∧ a[0]? ≠ a[6]? ∧ a[1]? ≠ a[5]? ∧ a[2]? ≠ a[4]? := by decide +kernel

/-- `test_impl.rs` 554-585 `test_complex_invalidate`: the leaf stays, `noden1` and the root that uses it are built again. -/
example : let a := play [get leaf1, get noden1, get noden3, .invalidate noden1, get leaf1, get noden1, get noden3] start
    a.length = 7 ∧ a[0]? = a[4]? ∧ a[1]? ≠ a[5]? ∧ a[2]? ≠ a[6]? ∧ a[4]? = some (some (.leaf 0)) := by decide +kernel

/-- `test.rs` 60-92 `BuilderLeafFallible`: told to fail, it does; told not to, it succeeds. -/
example : play [get fallible, .dynStateMut fallible fun _ => false, get fallible, .dynStateMut fallible fun _ => true,
      get fallible] start = [some (.leaf 0), none, none, none, some (.leaf 1)] := rfl

/-! ## The doctors -/

open Doc

/-- The types' names, as `tynm` abbreviates them. -/
def bname (b : Nat) : Text := if b ≤ 1 then lit "BuilderLeaf" else lit "BuilderSimpleNode"

def aname : Art → Text
  | .leaf _ => lit "Leaf"
  | .simple .. => lit "SimpleNode"
  | _ => lit "ComplexNode"

/-- `{:#?}` of a leaf inside of `n` others. -/
def pretty : Art → Text
  | .leaf i => lit "Leaf {\n    id: " ++ dec i ++ lit ",\n}"
  | .simple i (.leaf j) =>
    lit "SimpleNode {\n    id: " ++ dec i ++ lit ",\n    leaf: Leaf {\n        id: " ++ dec j ++ lit ",\n    },\n}"
  | _ => []

def bh (p : Promise sig) : BHandle := ⟨p.id, bname p.b, []⟩

/-- The artifacts' addresses: of no importance here. -/
def addr : Art → Nat
  | .leaf i | .simple i _ | .complexLeaf i _ | .complexNodes i _ _ => 0x2000 + 16 * i

def ah (v : Art) : AHandle := ⟨addr v, aname v, pretty v⟩

/-- What the doctor is called with for an event (`none`: it is not called). -/
def docEv : Event sig → Option DocEv
  | .resolve p q => some (.resolve (bh p) (bh q))
  | .built p v => some (.build (bh p) (ah v))
  | .invalidate p => some (.invalidate (bh p))
  | .clear => some .clear
  | _ => none

/-- The calls of the doctor of a cache that executed the operations. -/
def calls (ops : List (Op sig)) : List DocEv := (runOps Y 20 ord ops start).c.log.reverse.filterMap docEv

/-- The operations of `test_impl.rs` 334-372 and 393-427 (`twin` is the other node with `leaf1`). -/
def docOps : List (Op sig) := [get node1, get node1, get twin, get node1, get node1, get twin]

set_option maxRecDepth 20000 in
unseal lit in
/-- `test_impl.rs` 394-443 `test_text_doc`: exactly the text of `TEXT_DOC_PATTERN_TYNM` (385-391). -/
example : ((TextualDoc.new ⟨false, false, false, id⟩ []).run (calls docOps)).output = lit (
"resolves BuilderSimpleNode -> BuilderLeaf
built #0.0  BuilderLeaf => Leaf
built #0.1  BuilderSimpleNode => SimpleNode
resolves BuilderSimpleNode -> BuilderLeaf
built #0.2  BuilderSimpleNode => SimpleNode
") := by decide +kernel

/-- `test_impl.rs` 301-332 `VIS_DOC_PATTERN`, with this run's addresses and numbers, the lines between the first and the last one. -/
def visExpected : List Text := [
  lit "  \"0x1020\" [label = \"BuilderSimpleNode\"]",
  lit "  \"0x1000\" [label = \"BuilderLeaf\"]",
  lit "  \"0x1020\" -> \"0x1000\"",
  lit "  \"0x1000\" [label = \"BuilderLeaf\"]",
  lit "  \"0.0-0x2000\" [label = \"#0.0 Leaf :",
  lit "Leaf {",
  lit "    id: 0,",
  lit "}\", shape = box]",
  lit "  \"0x1000\" -> \"0.0-0x2000\" [arrowhead = \"none\"]",
  lit "  \"0x1020\" [label = \"BuilderSimpleNode\"]",
  lit "  \"0.1-0x2010\" [label = \"#0.1 SimpleNode :",
  lit "SimpleNode {",
  lit "    id: 1,",
  lit "    leaf: Leaf {",
  lit "        id: 0,",
  lit "    },",
  lit "}\", shape = box]",
  lit "  \"0x1020\" -> \"0.1-0x2010\" [arrowhead = \"none\"]",
  lit "  \"0x10b0\" [label = \"BuilderSimpleNode\"]",
  lit "  \"0x1000\" [label = \"BuilderLeaf\"]",
  lit "  \"0x10b0\" -> \"0x1000\"",
  lit "  \"0x10b0\" [label = \"BuilderSimpleNode\"]",
  lit "  \"0.2-0x2020\" [label = \"#0.2 SimpleNode :",
  lit "SimpleNode {",
  lit "    id: 2,",
  lit "    leaf: Leaf {",
  lit "        id: 0,",
  lit "    },",
  lit "}\", shape = box]",
  lit "  \"0x10b0\" -> \"0.2-0x2020\" [arrowhead = \"none\"]"]

set_option maxRecDepth 40000 in
unseal lit in
theorem vis_body : body (fun _ => true) ⟨false, true⟩ (0, 0) (calls docOps) = visExpected.flatMap (· ++ ['\n']) := by decide +kernel

/-- `test_impl.rs` 335-374 `test_vis_doc`: the text has the form `VIS_DOC_PATTERN`. -/
example : ((VisgraphDoc.new ⟨false, true⟩ []).run (fun _ => true) (calls docOps)).bind (·.intoInner) =
    some (lit "strict digraph { graph [labeljust = l];\n" ++ visExpected.flatMap (· ++ ['\n']) ++ lit "}" ++ ['\n'], none) := by
  obtain ⟨c, h⟩ := run_body (fun _ => true) (calls docOps) (VisgraphDoc.new ⟨false, true⟩ [])
    (out := lit "strict digraph { graph [labeljust = l];\n") rfl
  rw [h, show (VisgraphDoc.new ⟨false, true⟩ []).opts = ⟨false, true⟩ from rfl,
    show (VisgraphDoc.new ⟨false, true⟩ []).count = (0, 0) from rfl, vis_body]
  rfl

end Daab.RepoTests
