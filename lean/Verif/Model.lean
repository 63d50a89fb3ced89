import Std.Data.ExtTreeMap
import Std.Data.ExtTreeSet

/-!
# Model of `daab`'s cache

Executable model of `src/cache/internal.rs` (`RawCache`) and of the `Resolver` of
`src/cache.rs`, function by function.  The simplifications are listed in DESIGN.md, section 1,
and repeated at the definitions they concern.
-/

open Std

namespace Daab

/-- `src/lib.rs` 508-530 `BuilderId(usize)`: the address of the builder's allocation. -/
abbrev Id := Nat

/-- `std::collections::HashMap<BuilderId, α>`: an extensional finite map.  The iteration order of
the hash map is not part of it, see `HashOrder`. -/
abbrev AMap (α : Type) := ExtTreeMap Nat α

/-- `std::collections::HashSet<BuilderId>`: an extensional finite set. -/
abbrev IdSet := ExtTreeSet Nat

/-- The types a program using the cache is built from.
* `B` builder instances (every allocation of a builder is a value of its own),
* `V` artifact bins (`ArtCan` together with its pointer), `S` dynamic states,
* `E` builder errors, `W` everything outside the cache that builder code can see or change,
* `T` Rust types (what `Any::type_id` compares).
Simplification: Rust's per-builder associated types `Artifact`, `DynState`, `Err`
(`src/lib.rs` 455-510) are collected in one type each, tagged with `T`. -/
structure Sig where
  B : Type
  V : Type
  S : Type
  E : Type
  W : Type
  T : Type
  decB : DecidableEq B
  decT : DecidableEq T

attribute [instance] Sig.decB Sig.decT

/-- A promise (`src/lib.rs`, trait `Promise`: `id()`, `builder()`, `canned()`): the address and the
builder living there. -/
structure Promise (σ : Sig) where
  id : Id
  b : σ.B

/-- The three ways to access an artifact: `resolve`/`get`, `resolve_ref`/`get_ref`,
`resolve_cloned`/`get_cloned` (`src/cache.rs` 907-987, `internal.rs` 502-595). -/
inductive Access where
  | bin
  | ref
  | cloned

/-- Code of a `Builder::build` method (`src/lib.rs` 480-500), as interaction tree: all it can do is
use its `Resolver` (`src/cache.rs` 854-1003: resolve*, my_state), act on the outside world,
create and drop builders, panic, or return. -/
inductive Prog (σ : Sig) where
  /-- return `Ok(artifact)` or `Err(e)` -/
  | ret (r : Except σ.E σ.V)
  /-- `panic!()` -/
  | panic
  /-- `resolver.resolve(q)` / `resolve_ref` / `resolve_cloned` -/
  | resolve (how : Access) (q : Promise σ) (k : Except σ.E σ.V → Prog σ)
  /-- `let s = resolver.my_state(); *s = f(*s)`, going on with the old value -/
  | myState (f : σ.S → σ.S) (k : σ.S → Prog σ)
  /-- any effect outside of the cache, going on with the old world -/
  | world (f : σ.W → σ.W) (k : σ.W → Prog σ)
  /-- create a new builder (`Blueprint::new`) at the address the allocator gives -/
  | alloc (q : Promise σ) (k : Prog σ)
  /-- drop the last strong reference to a builder -/
  | free (a : Id) (k : Prog σ)

/-- The builder implementations and the compilation profile.
* `code b`: `b.build(..)`; `init b`: `b.init_dyn_state()`, `none` = panic (`src/lib.rs` 480-510),
* `vty b`/`sty b`: `TypeId` of `B::Artifact`/`B::DynState`; `artTy`/`stTy`: `TypeId` of a value,
* `clone`: `Clone::clone` of an artifact,
* `debug`: `cfg!(debug_assertions)`. -/
structure Sys (σ : Sig) where
  code : σ.B → Prog σ
  init : σ.B → σ.W → σ.W × Option σ.S
  vty : σ.B → σ.T
  sty : σ.B → σ.T
  artTy : σ.V → σ.T
  stTy : σ.S → σ.T
  clone : σ.V → σ.V
  debug : Bool

/-- What is reported to the doctor (`src/diagnostics/mod.rs`, trait `Doctor`), plus ghost events
(marked so) for effects the code does not report.  Ghost events do not influence anything. -/
inductive Event (σ : Sig) where
  /-- `doctor.resolve(user, used)`, `internal.rs` 260 -/
  | resolve (user used : Promise σ)
  /-- `doctor.build(builder, artifact)`, `internal.rs` 475 -/
  | built (p : Promise σ) (v : σ.V)
  /-- `doctor.invalidate(builder)`, `internal.rs` 756 and 877 -/
  | invalidate (p : Promise σ)
  /-- `doctor.clear()`, `internal.rs` 783 -/
  | clear
  /-- ghost: `Builder::build` of `p` is called, `internal.rs` 461 -/
  | call (p : Promise σ)
  /-- ghost: `Builder::init_dyn_state` of `p` is called and returns `d` (`none`: it panics),
  `internal.rs` 614 -/
  | initDyn (p : Promise σ) (d : Option σ.S)
  /-- ghost: the dynamic state of `p` is written, by `p`'s own build (`my_state`) or through
  `dyn_state_mut` -/
  | setDyn (p : Promise σ) (d : σ.S)
  /-- ghost: `purge(p)` drops the dynamic state of `p`, `internal.rs` 749 -/
  | purged (p : Promise σ)
  /-- ghost: `clear_artifacts()`, `internal.rs` 761 -/
  | clearArtifacts
  /-- ghost: the garbage collection drops `a`, `internal.rs` 906-909 -/
  | collect (a : Id)
  /-- ghost: the dependents of `a` were invalidated by mutable access, `internal.rs` 850 -/
  | mutDeps (a : Id)
  /-- ghost: the caller of `get_mut`/`lookup_mut` wrote the artifact of `a` -/
  | write (a : Id) (v : σ.V)

/-- `internal.rs` 91-146, `struct RawCache`.  `log` stands for the doctor (newest event first). -/
structure Cache (σ : Sig) where
  artifacts : AMap σ.V := ∅
  dynStates : AMap σ.S := ∅
  dependents : AMap IdSet := ∅
  dependencies : AMap IdSet := ∅
  /-- `known_leaf_builder` -/
  leafs : IdSet := ∅
  /-- `known_builders`: the weak can, i.e. the allocation it points to -/
  known : AMap σ.B := ∅
  log : List (Event σ) := []

/-- The cache and its surroundings.
* `heap`: builders with at least one strong reference, by address,
* `born`: all builders ever allocated (an allocation never happens twice),
* `w`: the outside world. -/
structure St (σ : Sig) where
  c : Cache σ
  w : σ.W
  heap : AMap σ.B := ∅
  born : List σ.B := []

/-- The panics in the code, by place. -/
inductive Panic where
  /-- `internal.rs` 242 debug_assert "Tracking dependency for unknown builder" -/
  | trackUnknown
  /-- `internal.rs` 326, 353, 386: debug_assert "Found artifact, but the builder is not known." -/
  | artUnknown
  /-- `internal.rs` 331, 358, 396: "Cached artifact is of invalid type" -/
  | badArt
  /-- `internal.rs` 437: debug_assert that nothing is cached when building -/
  | buildCached
  /-- `internal.rs` 638, 671: debug_assert "Found dyn state, but the builder is not known." -/
  | dynUnknown
  /-- `internal.rs` 618, 650, 677: "Cached dyn state is of invalid type" -/
  | badDyn
  /-- `cache.rs` 1001: unwrap in `my_state` -/
  | noMyState
  /-- `internal.rs` 820: "Mapped dependency has no dependents counterpart map." -/
  | noCounterpart
  /-- `internal.rs` 825: debug_assert!(found) -/
  | notFound
  /-- `internal.rs` 901: index `known_builders[bid]` -/
  | leafUnknown
  /-- `internal.rs` 887-895: debug_assert at the start of the garbage collection -/
  | gcAssert
  /-- `internal.rs` 520, 546, 574: "Just build artifact is of invalid type" -/
  | badFresh
  /-- `internal.rs` 537, 565: unwrap of the second lookup -/
  | secondLookup
  /-- a panic in `Builder::build` -/
  | user
  /-- a panic in `Builder::init_dyn_state` -/
  | init
  deriving DecidableEq

/-- How a computation ends.  `stuck`: cannot be written in safe, well-typed Rust (use of a promise
whose builder is gone, ill-typed builder, impossible allocation).  `overflow`: the call stack is
exhausted. -/
inductive Res (α : Type) where
  | val (a : α)
  | panic (k : Panic)
  | stuck
  | overflow

variable {σ : Sig}

/-- `HashMap::get(..)` on a map of sets, absent = empty.  Helper. -/
def setAt (m : AMap IdSet) (a : Id) : IdSet := (m[a]?).getD ∅

/-- Report to the doctor / add a ghost event. -/
def Cache.emit (c : Cache σ) (e : Event σ) : Cache σ := { c with log := e :: c.log }

/-- Lift an update of the cache. -/
def St.onCache (s : St σ) (f : Cache σ → Cache σ) : St σ := { s with c := f s.c }

/-- A promise holds a strong reference, so its builder is alive at its address. -/
def St.live (s : St σ) (p : Promise σ) : Bool := s.heap[p.id]? == some p.b

/-! ## Builders known to the cache -/

/-- `internal.rs` 915-937 `make_builder_known`. -/
def makeKnown (p : Promise σ) (c : Cache σ) : Cache σ :=
  match c.known[p.id]? with
  | some _ => c
  | none => { c with known := c.known.insert p.id p.b, leafs := c.leafs.insert p.id }

/-- `internal.rs` 286-306 `is_builder_known`, `is_builder_known_by_id`. -/
def isKnown (a : Id) (c : Cache σ) : Bool := c.known.contains a

/-- `internal.rs` 941-943 `number_of_known_builders`. -/
def numKnown (c : Cache σ) : Nat := c.known.size

/-- `internal.rs` 272-281 `contains_artifact`. -/
def containsArtifact (a : Id) (c : Cache σ) : Bool := c.artifacts.contains a

/-- `internal.rs` 245-260, the second half of `track_dependency`: enter the dependency of `user`
upon `q` in both maps, unmark `q` as leaf, report. -/
def addEdge (user q : Promise σ) (c : Cache σ) : Cache σ :=
  let c := { c with dependents := c.dependents.insert q.id ((setAt c.dependents q.id).insert user.id) }
  let c := { c with leafs := c.leafs.erase q.id }
  let c := { c with
    dependencies := c.dependencies.insert user.id ((setAt c.dependencies user.id).insert q.id) }
  c.emit (.resolve user q)

/-- `internal.rs` 228-262 `track_dependency`; `user` is the builder of the `Resolver`. -/
def track (Y : Sys σ) (user q : Promise σ) (c : Cache σ) : Cache σ × Option Panic :=
  let c := makeKnown q c
  if Y.debug && !isKnown user.id c then (c, some .trackUnknown) else
  (addEdge user q c, none)

/-! ## Lookups -/

/-- `internal.rs` 310-334 `lookup`. -/
def lookup (Y : Sys σ) (p : Promise σ) (c : Cache σ) : Res (Option σ.V) :=
  match c.artifacts[p.id]? with
  | none => .val none
  | some v =>
    if Y.debug && !isKnown p.id c then .panic .artUnknown
    else if Y.artTy v = Y.vty p.b then .val (some v) else .panic .badArt

/-- `internal.rs` 338-361 `lookup_ref`. -/
def lookupRef (Y : Sys σ) (p : Promise σ) (c : Cache σ) : Res (Option σ.V) :=
  match c.artifacts[p.id]? with
  | none => .val none
  | some v =>
    if Y.debug && !isKnown p.id c then .panic .artUnknown
    else if Y.artTy v = Y.vty p.b then .val (some v) else .panic .badArt

/-- `internal.rs` 403-417 `lookup_cloned`. -/
def lookupCloned (Y : Sys σ) (p : Promise σ) (c : Cache σ) : Res (Option σ.V) :=
  match lookupRef Y p c with
  | .val o => .val (o.map Y.clone)
  | .panic k => .panic k
  | .stuck => .stuck
  | .overflow => .overflow

/-! ## Dynamic states -/

/-- `internal.rs` 600-619 `ensure_dyn_state`.  An ill-typed `init_dyn_state` is `stuck`. -/
def ensureDyn (Y : Sys σ) (p : Promise σ) (s : St σ) : St σ × Res σ.S :=
  let s := s.onCache (makeKnown p)
  match s.c.dynStates[p.id]? with
  | some d => (s, if Y.stTy d = Y.sty p.b then .val d else .panic .badDyn)
  | none =>
    match Y.init p.b s.w with
    | (w, none) => ({ s with w := w, c := s.c.emit (.initDyn p none) }, .panic .init)
    | (w, some d) =>
      if Y.stTy d = Y.sty p.b then
        ({ s with
            w := w,
            c := ({ s.c with dynStates := s.c.dynStates.insert p.id d }).emit (.initDyn p (some d)) }, .val d)
      else (s, .stuck)

/-- `cache.rs` 998-1002 `Resolver::my_state` and `internal.rs` 631-652 `dyn_state_cast_mut`, with the
builder's write `f`.  An ill-typed write is `stuck`. -/
def myState (Y : Sys σ) (p : Promise σ) (f : σ.S → σ.S) (s : St σ) : St σ × Res σ.S :=
  match s.c.dynStates[p.id]? with
  | none => (s, .panic .noMyState)
  | some d =>
    if Y.debug && !isKnown p.id s.c then (s, .panic .dynUnknown)
    else if Y.stTy d = Y.sty p.b then
      if Y.stTy (f d) = Y.sty p.b then
        ({ s with
            c := { s.c with dynStates := s.c.dynStates.insert p.id (f d) }.emit (.setDyn p (f d)) },
          .val d)
      else (s, .stuck)
    else (s, .panic .badDyn)

/-- `internal.rs` 663-679 `dyn_state_cast_ref`, 720-729 `get_dyn_state`. -/
def getDynState (Y : Sys σ) (p : Promise σ) (c : Cache σ) : Res (Option σ.S) :=
  match c.dynStates[p.id]? with
  | none => .val none
  | some d =>
    if Y.debug && !isKnown p.id c then .panic .dynUnknown
    else if Y.stTy d = Y.sty p.b then .val (some d) else .panic .badDyn

/-! ## Memory -/

/-- `Blueprint::new` (`src/blueprint.rs`): `Rc::new(builder)`.  The allocator returns an address
that is neither used by a live builder nor kept by a weak reference in `known_builders`; every
allocation is a new one. -/
def allocB (q : Promise σ) (s : St σ) : Option (St σ) :=
  if s.heap.contains q.id || s.c.known.contains q.id || decide (q.b ∈ s.born) then none
  else some { s with heap := s.heap.insert q.id q.b, born := q.b :: s.born }

/-- Dropping the last strong reference. -/
def freeB (a : Id) (s : St σ) : St σ := { s with heap := s.heap.erase a }

/-! ## Building -/

/-- The signature of `get`, `get_ref`, `get_cloned` as the `Resolver` uses them. -/
abbrev Getter (σ : Sig) := Access → Promise σ → St σ → St σ × Res (Except σ.E σ.V)

/-- Run the code of a `build` method of the builder `p` with its `Resolver`
(`cache.rs` 854-1003; resolve 907-920, resolve_ref 944-956, resolve_cloned 974-987: first track
the dependency, then get).  `getN` is the cache's getter one level deeper. -/
def runProg (Y : Sys σ) (getN : Getter σ) (p : Promise σ) :
    Prog σ → St σ → St σ × Res (Except σ.E σ.V)
  | .ret (.error e), s => (s, .val (.error e))
  | .ret (.ok v), s => (s, if Y.artTy v = Y.vty p.b then .val (.ok v) else .stuck)
  | .panic, s => (s, .panic .user)
  | .resolve how q k, s =>
    if s.live q then
      match track Y p q s.c with
      | (c, some pk) => ({ s with c := c }, .panic pk)
      | (c, none) =>
        match getN how q { s with c := c } with
        | (s, .val r) => runProg Y getN p (k r) s
        | (s, .panic pk) => (s, .panic pk)
        | (s, .stuck) => (s, .stuck)
        | (s, .overflow) => (s, .overflow)
    else (s, .stuck)
  | .myState f k, s =>
    match myState Y p f s with
    | (s, .val d) => runProg Y getN p (k d) s
    | (s, .panic pk) => (s, .panic pk)
    | (s, .stuck) => (s, .stuck)
    | (s, .overflow) => (s, .overflow)
  | .world f k, s => runProg Y getN p (k s.w) { s with w := f s.w }
  | .alloc q k, s =>
    match allocB q s with
    | some s => runProg Y getN p k s
    | none => (s, .stuck)
  | .free a k, s => runProg Y getN p k (freeB a s)

/-- `internal.rs` 426-497 `build`.  Simplification: the reference to the entry just inserted
(line 494) is the value inserted. -/
def build (Y : Sys σ) (getN : Getter σ) (p : Promise σ) (s : St σ) :
    St σ × Res (Except σ.E σ.V) :=
  if Y.debug && containsArtifact p.id s.c then (s, .panic .buildCached) else
  let s := s.onCache (makeKnown p)
  match ensureDyn Y p s with
  | (s, .panic k) => (s, .panic k)
  | (s, .stuck) => (s, .stuck)
  | (s, .overflow) => (s, .overflow)
  | (s, .val _) =>
    match runProg Y getN p (Y.code p.b) (s.onCache (·.emit (.call p))) with
    | (s, .val (.ok v)) =>
      (s.onCache fun c => { c.emit (.built p v) with artifacts := c.artifacts.insert p.id v },
        .val (.ok v))
    | (s, .val (.error e)) => (s, .val (.error e))
    | (s, .panic k) => (s, .panic k)
    | (s, .stuck) => (s, .stuck)
    | (s, .overflow) => (s, .overflow)

/-- The signature of `build` as `get*` use it. -/
abbrev BuildFn (σ : Sig) := Promise σ → St σ → St σ × Res (Except σ.E σ.V)

/-- The downcast of the artifact just built, `internal.rs` 518-521, 544-547, 572-575. -/
def fresh (Y : Sys σ) (p : Promise σ) :
    St σ × Res (Except σ.E σ.V) → St σ × Res (Except σ.E σ.V)
  | (s, .val (.ok v)) => (s, if Y.artTy v = Y.vty p.b then .val (.ok v) else .panic .badFresh)
  | r => r

/-- `internal.rs` 502-523 `get`. -/
def getBin (Y : Sys σ) (bld : BuildFn σ) (p : Promise σ) (s : St σ) :
    St σ × Res (Except σ.E σ.V) :=
  match lookup Y p s.c with
  | .val (some v) => (s, .val (.ok v))
  | .val none => fresh Y p (bld p s)
  | .panic k => (s, .panic k)
  | .stuck => (s, .stuck)
  | .overflow => (s, .overflow)

/-- `internal.rs` 527-549 `get_ref` (with its second lookup, line 537). -/
def getRef (Y : Sys σ) (bld : BuildFn σ) (p : Promise σ) (s : St σ) :
    St σ × Res (Except σ.E σ.V) :=
  match lookupRef Y p s.c with
  | .val (some _) =>
    match lookupRef Y p s.c with
    | .val (some v) => (s, .val (.ok v))
    | .val none => (s, .panic .secondLookup)
    | .panic k => (s, .panic k)
    | .stuck => (s, .stuck)
    | .overflow => (s, .overflow)
  | .val none => fresh Y p (bld p s)
  | .panic k => (s, .panic k)
  | .stuck => (s, .stuck)
  | .overflow => (s, .overflow)

/-- `internal.rs` 581-595 `get_cloned`. -/
def getCloned (Y : Sys σ) (bld : BuildFn σ) (p : Promise σ) (s : St σ) :
    St σ × Res (Except σ.E σ.V) :=
  match getRef Y bld p s with
  | (s, .val (.ok v)) => (s, .val (.ok (Y.clone v)))
  | r => r

/-- One of the three getters; the promise must be alive. -/
def getBy (Y : Sys σ) (bld : BuildFn σ) (how : Access) (p : Promise σ) (s : St σ) :
    St σ × Res (Except σ.E σ.V) :=
  if s.live p then
    match how with
    | .bin => getBin Y bld p s
    | .ref => getRef Y bld p s
    | .cloned => getCloned Y bld p s
  else (s, .stuck)

/-- `get`, `get_ref`, `get_cloned` with stack space for `n` nested `build` calls. -/
def getA (Y : Sys σ) : Nat → Getter σ
  | 0 => getBy Y fun _ s => (s, .overflow)
  | n + 1 => getBy Y (build Y (getA Y n))

/-- `build` as used by the getters with stack space for `n` nested `build` calls. -/
def buildN (Y : Sys σ) : Nat → BuildFn σ
  | 0 => fun _ s => (s, .overflow)
  | n + 1 => build Y (getA Y n)

/-! ## Invalidation -/

/-- Identifies one iteration over a hash set: which map, in which call (root), after how many steps.
-/
structure IterPoint where
  map : Nat
  root : Id
  time : Nat

/-- The order in which hash sets are iterated: an arbitrary permutation at every iteration. -/
structure HashOrder where
  f : IterPoint → List Id → List Id
  perm : ∀ i l, (f i l).Perm l

/-- How an internal loop ends. -/
inductive LoopEnd where
  | done
  | panic (k : Panic)
  /-- the model's loop bound is reached; proved impossible (C10) -/
  | outOfFuel
  deriving DecidableEq

/-- `internal.rs` 814-835: the loop over the dependencies of the builder `bid` just popped. -/
def unlink (Y : Sys σ) (processed : IdSet) (bid : Id) : List Id → Cache σ → Cache σ × LoopEnd
  | [], c => (c, .done)
  | dep :: rest, c =>
    if dep ∈ processed then unlink Y processed bid rest c
    else
      match c.dependents[dep]? with
      | none => (c, .panic .noCounterpart)
      | some set =>
        let c := { c with dependents := c.dependents.insert dep (set.erase bid) }
        if Y.debug && !(set.contains bid) then (c, .panic .notFound)
        else
          let c := if (set.erase bid).isEmpty then { c with leafs := c.leafs.insert dep } else c
          unlink Y processed bid rest c

/-- `internal.rs` 805-810: push the dependents of `bid` on the stack and forget them. -/
def popDependents (ord : HashOrder) (i : IterPoint) (bid : Id) (pending : List Id) (c : Cache σ) :
    List Id × Cache σ :=
  match c.dependents[bid]? with
  | some set =>
    ((ord.f i set.toList).foldl (fun st d => d :: st) pending,
      { c with dependents := c.dependents.erase bid })
  | none => (pending, c)

/-- `internal.rs` 812-836: forget the dependencies of `bid`, in both directions. -/
def popDependencies (Y : Sys σ) (ord : HashOrder) (i : IterPoint) (processed : IdSet) (bid : Id)
    (c : Cache σ) : Cache σ × LoopEnd :=
  match c.dependencies[bid]? with
  | some set =>
    unlink Y processed bid (ord.f i set.toList) { c with dependencies := c.dependencies.erase bid }
  | none => (c, .done)

/-- `internal.rs` 801-843: the `while` loop of `invalidate_by_id`; `pending` is the stack, top
first. -/
def invLoop (Y : Sys σ) (ord : HashOrder) (root : Id) :
    Nat → IdSet → List Id → Cache σ → Cache σ × LoopEnd
  | _, _, [], c => (c, .done)
  | 0, _, _ :: _, c => (c, .outOfFuel)
  | n + 1, processed, bid :: pending, c =>
    let processed := processed.insert bid
    let r := popDependents ord ⟨0, root, n⟩ bid pending c
    let q := popDependencies Y ord ⟨1, root, n⟩ processed bid r.2
    match q with
    | (c, .done) =>
      let c := { c with leafs := c.leafs.insert bid }
      let c := { c with artifacts := c.artifacts.erase bid }
      invLoop Y ord root n processed r.1 c
    | q => q

/-- Number of recorded dependencies; bounds the number of iterations (model only). -/
def edgeCount (m : AMap IdSet) : Nat := (m.toList.map fun kv => kv.2.size).sum

/-- `internal.rs` 789-845 `invalidate_by_id`. -/
def invalidateById (Y : Sys σ) (ord : HashOrder) (a : Id) (c : Cache σ) : Cache σ × LoopEnd :=
  invLoop Y ord a (edgeCount c.dependents + 1) ((∅ : IdSet).insert a) [a] c

/-- `internal.rs` 852-854: the loop of `invalidate_dependents`. -/
def invEach (Y : Sys σ) (ord : HashOrder) : List Id → Cache σ → Cache σ × LoopEnd
  | [], c => (c, .done)
  | a :: rest, c =>
    match invalidateById Y ord a c with
    | (c, .done) => invEach Y ord rest c
    | r => r

/-- `internal.rs` 850-859 `invalidate_dependents`. -/
def invalidateDependents (Y : Sys σ) (ord : HashOrder) (a : Id) (c : Cache σ) :
    Cache σ × LoopEnd :=
  let r :=
    match c.dependents[a]? with
    | some set =>
      invEach Y ord (ord.f ⟨2, a, 0⟩ set.toList) { c with dependents := c.dependents.erase a }
    | none => (c, .done)
  match r with
  | (c, .done) => ({ c with leafs := c.leafs.insert a }.emit (.mutDeps a), .done)
  | r => r

/-- The result of an operation that consists of a loop. -/
def LoopEnd.res {α : Type} (e : LoopEnd) (a : α) : Res α :=
  match e with
  | .done => .val a
  | .panic k => .panic k
  | .outOfFuel => .overflow

/-- `internal.rs` 864-879 `invalidate`. -/
def invalidate (Y : Sys σ) (ord : HashOrder) (p : Promise σ) (c : Cache σ) : Cache σ × LoopEnd :=
  match invalidateById Y ord p.id c with
  | (c, .done) => (c.emit (.invalidate p), .done)
  | r => r

/-- `internal.rs` 733-757 `purge`. -/
def purge (Y : Sys σ) (ord : HashOrder) (p : Promise σ) (c : Cache σ) : Cache σ × LoopEnd :=
  let c := { c with known := c.known.erase p.id }
  let c := { c with artifacts := c.artifacts.erase p.id }
  let c := { c with dynStates := c.dynStates.erase p.id }.emit (.purged p)
  match invalidateById Y ord p.id c with
  | (c, .done) => (c.emit (.invalidate p), .done)
  | r => r

/-- `internal.rs` 761-769 `clear_artifacts`. -/
def clearArtifacts (c : Cache σ) : Cache σ :=
  { c with
    artifacts := ∅, dependents := ∅, dependencies := ∅,
    leafs := c.known.keys.foldl (fun l a => l.insert a) c.leafs }.emit .clearArtifacts

/-- `internal.rs` 774-784 `clear_all`. -/
def clearAll (c : Cache σ) : Cache σ :=
  { c with
    artifacts := ∅, dynStates := ∅, dependents := ∅, dependencies := ∅, known := ∅,
    leafs := ∅ }.emit .clear

/-- `internal.rs` 683-699 `dyn_state_mut`, with the caller's write `f`.  Answers the state handed
out. -/
def dynStateMut (Y : Sys σ) (ord : HashOrder) (p : Promise σ) (f : σ.S → σ.S) (s : St σ) :
    St σ × Res σ.S :=
  match invalidate Y ord p s.c with
  | (c, .done) =>
    match ensureDyn Y p { s with c := c } with
    | (s, .val d) =>
      if Y.stTy (f d) = Y.sty p.b then
        (s.onCache fun c =>
          { c with dynStates := c.dynStates.insert p.id (f d) }.emit (.setDyn p (f d)), .val d)
      else (s, .stuck)
    | r => r
  | (c, .panic k) => ({ s with c := c }, .panic k)
  | (c, .outOfFuel) => ({ s with c := c }, .overflow)

/-! ## Mutable access to artifacts (feature `unstable`) -/

/-- `internal.rs` 367-399 `lookup_mut` (without the caller's write). -/
def lookupMut (Y : Sys σ) (ord : HashOrder) (p : Promise σ) (c : Cache σ) :
    Cache σ × Res (Option σ.V) :=
  match invalidateDependents Y ord p.id c with
  | (c, .done) =>
    if Y.debug && !(!containsArtifact p.id c || isKnown p.id c) then (c, .panic .artUnknown)
    else
      match c.artifacts[p.id]? with
      | none => (c, .val none)
      | some v => (c, if Y.artTy v = Y.vty p.b then .val (some v) else .panic .badArt)
  | (c, .panic k) => (c, .panic k)
  | (c, .outOfFuel) => (c, .overflow)

/-- The caller's write `f` through the reference to the artifact `v` of `p`.  An ill-typed write is
`stuck`. -/
def writeArt (Y : Sys σ) (p : Promise σ) (f : σ.V → σ.V) (v : σ.V) (c : Cache σ) :
    Option (Cache σ) :=
  if Y.artTy (f v) = Y.vty p.b then
    some ({ c with artifacts := c.artifacts.insert p.id (f v) }.emit (.write p.id (f v)))
  else none

/-- `internal.rs` 555-577 `get_mut` (with its second lookup, line 565; without the write). -/
def getMut (Y : Sys σ) (ord : HashOrder) (bld : BuildFn σ) (p : Promise σ) (s : St σ) :
    St σ × Res (Except σ.E σ.V) :=
  match lookupMut Y ord p s.c with
  | (c, .val (some _)) =>
    match lookupMut Y ord p c with
    | (c, .val (some v)) => ({ s with c := c }, .val (.ok v))
    | (c, .val none) => ({ s with c := c }, .panic .secondLookup)
    | (c, .panic k) => ({ s with c := c }, .panic k)
    | (c, .stuck) => ({ s with c := c }, .stuck)
    | (c, .overflow) => ({ s with c := c }, .overflow)
  | (c, .val none) => fresh Y p (bld p { s with c := c })
  | (c, .panic k) => ({ s with c := c }, .panic k)
  | (c, .stuck) => ({ s with c := c }, .stuck)
  | (c, .overflow) => ({ s with c := c }, .overflow)

/-! ## Garbage collection -/

/-- `BCan::upgrade_from_weak(..).is_none()` (`src/rc.rs`, `src/arc.rs`): the builder the weak can
points to has no strong reference any more. -/
def isDead (s : St σ) (a : Id) (b : σ.B) : Bool := !(s.heap[a]? == some b)

/-- `internal.rs` 898-903: select the unreachable leafs; `none` = panic of the index operation in
line 901. -/
def selectDead (s : St σ) : List Id → Option (List Id)
  | [] => some []
  | a :: rest =>
    match s.c.known[a]? with
    | none => none
    | some b =>
      match selectDead s rest with
      | none => none
      | some l => some (if isDead s a b then a :: l else l)

/-- `internal.rs` 905-910: the loop over the unreachable builders. -/
def collectEach (Y : Sys σ) (ord : HashOrder) : List Id → Cache σ → Cache σ × LoopEnd
  | [], c => (c, .done)
  | a :: rest, c =>
    match invalidateById Y ord a c with
    | (c, .done) =>
      collectEach Y ord rest
        ({ c with
            dynStates := c.dynStates.erase a,
            known := c.known.erase a,
            leafs := c.leafs.erase a }.emit (.collect a))
    | r => r

/-- `internal.rs` 887-895: every known builder is a leaf or has a dependent.  (A missing entry in
`dependents` makes the index operation panic, an empty one the assertion fail.) -/
def gcAssertion (c : Cache σ) : Bool :=
  c.known.keys.all fun a => c.leafs.contains a || !(setAt c.dependents a).isEmpty

/-- `internal.rs` 884-911 `garbage_collection`. -/
def garbageCollection (Y : Sys σ) (ord : HashOrder) (s : St σ) : Cache σ × LoopEnd :=
  if Y.debug && !gcAssertion s.c then (s.c, .panic .gcAssert) else
  match selectDead s (ord.f ⟨3, 0, 0⟩ s.c.leafs.toList) with
  | none => (s.c, .panic .leafUnknown)
  | some l => collectEach Y ord l s.c

/-! ## The public interface as a transition system -/

/-- The operations of `Cache` (`src/cache.rs` 320-830) and, as last three, what else may happen
between them. -/
inductive Op (σ : Sig) where
  | get (how : Access) (p : Promise σ)
  | getMut (p : Promise σ) (f : σ.V → σ.V)
  | lookup (how : Access) (p : Promise σ)
  | lookupMut (p : Promise σ) (f : σ.V → σ.V)
  | dynState (p : Promise σ)
  | getDynState (p : Promise σ)
  | dynStateMut (p : Promise σ) (f : σ.S → σ.S)
  | isKnown (p : Promise σ)
  | numKnown
  | invalidate (p : Promise σ)
  | purge (p : Promise σ)
  | clearArtifacts
  | clearAll
  | gc
  | alloc (p : Promise σ)
  | free (a : Id)
  | world (f : σ.W → σ.W)

/-- The promise an operation is applied to. -/
def Op.promise? : Op σ → Option (Promise σ)
  | .get _ p | .getMut p _ | .lookup _ p | .lookupMut p _ | .dynState p | .getDynState p
  | .dynStateMut p _ | .isKnown p | .invalidate p | .purge p => some p
  | _ => none

/-- What an operation answers. -/
inductive Ans (σ : Sig) where
  | unit
  | art (r : Except σ.E σ.V)
  | optArt (o : Option σ.V)
  | state (d : σ.S)
  | optState (o : Option σ.S)
  | bool (b : Bool)
  | nat (n : Nat)

/-- Post-process the value of a result. -/
def Res.map {α β : Type} (f : α → β) : Res α → Res β
  | .val a => .val (f a)
  | .panic k => .panic k
  | .stuck => .stuck
  | .overflow => .overflow

/-- `lookup`, `lookup_ref`, `lookup_cloned` by accessor. -/
def lookupBy (Y : Sys σ) (how : Access) (p : Promise σ) (c : Cache σ) : Res (Option σ.V) :=
  match how with
  | .bin => lookup Y p c
  | .ref => lookupRef Y p c
  | .cloned => lookupCloned Y p c

/-- The effect of one operation, with stack space for `n` nested builds.  `src/cache.rs` 320-830
only forwards to `RawCache`. -/
def exec (Y : Sys σ) (n : Nat) (ord : HashOrder) (s : St σ) : Op σ → St σ × Res (Ans σ)
  | .get how p =>
    let r := getA Y n how p s
    (r.1, r.2.map .art)
  | .getMut p f =>
    match getMut Y ord (buildN Y n) p s with
    | (s, .val (.ok v)) =>
      match writeArt Y p f v s.c with
      | some c => ({ s with c := c }, .val (.art (.ok v)))
      | none => (s, .stuck)
    | (s, .val (.error e)) => (s, .val (.art (.error e)))
    | (s, .panic k) => (s, .panic k)
    | (s, .stuck) => (s, .stuck)
    | (s, .overflow) => (s, .overflow)
  | .lookup how p => (s, (lookupBy Y how p s.c).map .optArt)
  | .lookupMut p f =>
    match lookupMut Y ord p s.c with
    | (c, .val (some v)) =>
      match writeArt Y p f v c with
      | some c => ({ s with c := c }, .val (.optArt (some v)))
      | none => ({ s with c := c }, .stuck)
    | (c, .val none) => ({ s with c := c }, .val (.optArt none))
    | (c, .panic k) => ({ s with c := c }, .panic k)
    | (c, .stuck) => ({ s with c := c }, .stuck)
    | (c, .overflow) => ({ s with c := c }, .overflow)
  | .dynState p =>
    let r := ensureDyn Y p s
    (r.1, r.2.map .state)
  | .getDynState p => (s, (getDynState Y p s.c).map .optState)
  | .dynStateMut p f =>
    let r := dynStateMut Y ord p f s
    (r.1, r.2.map .state)
  | .isKnown p => (s, .val (.bool (isKnown p.id s.c)))
  | .numKnown => (s, .val (.nat (numKnown s.c)))
  | .invalidate p =>
    let r := invalidate Y ord p s.c
    ({ s with c := r.1 }, r.2.res .unit)
  | .purge p =>
    let r := purge Y ord p s.c
    ({ s with c := r.1 }, r.2.res .unit)
  | .clearArtifacts => (s.onCache clearArtifacts, .val .unit)
  | .clearAll => (s.onCache clearAll, .val .unit)
  | .gc =>
    let r := garbageCollection Y ord s
    ({ s with c := r.1 }, r.2.res .unit)
  | .alloc p =>
    match allocB p s with
    | some s => (s, .val .unit)
    | none => (s, .stuck)
  | .free a => (freeB a s, .val .unit)
  | .world f => ({ s with w := f s.w }, .val .unit)

/-- One operation; the promise it is applied to must be alive. -/
def step (Y : Sys σ) (n : Nat) (ord : HashOrder) (s : St σ) (op : Op σ) : St σ × Res (Ans σ) :=
  match op.promise? with
  | some p => if s.live p then exec Y n ord s op else (s, .stuck)
  | none => exec Y n ord s op

/-! ## User code besides builders: doctor, `Debug`, `Clone`

The functions above assume that the doctor, the `Debug` implementations it needs and the `Clone`
implementations of artifacts return and do not act on the outside world.  The functions below are the
same code with such calls in their places: they may act on the outside world and may panic. -/

/-- The calls of user code other than builders. -/
inductive Hook (σ : Sig) where
  /-- a call of the doctor including the making of its handles, i.e. `Debug` of builders and artifacts
  (`internal.rs` 260, 472-475, 756, 783, 877) -/
  | report (e : Event σ)
  /-- `BuilderHandle::new` for the `Resolver`, i.e. `Debug` of the builder, `internal.rs` 451 -/
  | handle (p : Promise σ)
  /-- `Clone` of an artifact, `internal.rs` 415, 593 -/
  | clone (v : σ.V)
  /-- the destructor of an artifact that is replaced, `internal.rs` 487 -/
  | drop (v : σ.V)

/-- What the hooks do to the outside world (in which they keep their own state), and whether they panic.
Simplification: the value of a clone is still `Sys.clone` (`Clones.lean` does without this). -/
abbrev Hooks (σ : Sig) := σ.W → Hook σ → σ.W × Bool

/-- Call a hook, going on with `k` unless it panics. -/
def callHook {α : Type} (D : Hooks σ) (h : Hook σ) (s : St σ) (k : St σ → St σ × Res α) : St σ × Res α :=
  match D s.w h with
  | (w, true) => ({ s with w := w }, .panic .user)
  | (w, false) => k { s with w := w }

/-- `runProg` with hooks: the doctor is told in line 260, after the use has been recorded. -/
def runProgH (Y : Sys σ) (D : Hooks σ) (getN : Getter σ) (p : Promise σ) :
    Prog σ → St σ → St σ × Res (Except σ.E σ.V)
  | .ret (.error e), s => (s, .val (.error e))
  | .ret (.ok v), s => (s, if Y.artTy v = Y.vty p.b then .val (.ok v) else .stuck)
  | .panic, s => (s, .panic .user)
  | .resolve how q k, s =>
    if s.live q then
      match track Y p q s.c with
      | (c, some pk) => ({ s with c := c }, .panic pk)
      | (c, none) =>
        callHook D (.report (.resolve p q)) { s with c := c } fun s =>
          match getN how q s with
          | (s, .val r) => runProgH Y D getN p (k r) s
          | (s, .panic pk) => (s, .panic pk)
          | (s, .stuck) => (s, .stuck)
          | (s, .overflow) => (s, .overflow)
    else (s, .stuck)
  | .myState f k, s =>
    match myState Y p f s with
    | (s, .val d) => runProgH Y D getN p (k d) s
    | (s, .panic pk) => (s, .panic pk)
    | (s, .stuck) => (s, .stuck)
    | (s, .overflow) => (s, .overflow)
  | .world f k, s => runProgH Y D getN p (k s.w) { s with w := f s.w }
  | .alloc q k, s =>
    match allocB q s with
    | some s => runProgH Y D getN p k s
    | none => (s, .stuck)
  | .free a k, s => runProgH Y D getN p k (freeB a s)

/-- `internal.rs` 486-490 with hooks: the artifact is inserted; one that a re-entrant build of the same builder inserted
meanwhile is replaced and dropped. -/
def storeH (D : Hooks σ) (p : Promise σ) (v : σ.V) (s : St σ) : St σ × Res (Except σ.E σ.V) :=
  let s' := s.onCache fun c => { c.emit (.built p v) with artifacts := c.artifacts.insert p.id v }
  match s.c.artifacts[p.id]? with
  | none => (s', .val (.ok v))
  | some old => callHook D (.drop old) s' fun s => (s, .val (.ok v))

/-- `build` with hooks: the handle of line 451 is made before the builder is called; the doctor is
told in line 475, before the artifact is inserted. -/
def buildH (Y : Sys σ) (D : Hooks σ) (getN : Getter σ) (p : Promise σ) (s : St σ) :
    St σ × Res (Except σ.E σ.V) :=
  if Y.debug && containsArtifact p.id s.c then (s, .panic .buildCached) else
  let s := s.onCache (makeKnown p)
  match ensureDyn Y p s with
  | (s, .panic k) => (s, .panic k)
  | (s, .stuck) => (s, .stuck)
  | (s, .overflow) => (s, .overflow)
  | (s, .val _) =>
    callHook D (.handle p) s fun s =>
      match runProgH Y D getN p (Y.code p.b) (s.onCache (·.emit (.call p))) with
      | (s, .val (.ok v)) =>
        callHook D (.report (.built p v)) s (storeH D p v)
      | (s, .val (.error e)) => (s, .val (.error e))
      | (s, .panic k) => (s, .panic k)
      | (s, .stuck) => (s, .stuck)
      | (s, .overflow) => (s, .overflow)

/-- `get_cloned` with hooks, `internal.rs` 593. -/
def getClonedH (Y : Sys σ) (D : Hooks σ) (bld : BuildFn σ) (p : Promise σ) (s : St σ) :
    St σ × Res (Except σ.E σ.V) :=
  match getRef Y bld p s with
  | (s, .val (.ok v)) => callHook D (.clone v) s fun s => (s, .val (.ok (Y.clone v)))
  | r => r

/-- One of the three getters, with hooks. -/
def getByH (Y : Sys σ) (D : Hooks σ) (bld : BuildFn σ) (how : Access) (p : Promise σ) (s : St σ) :
    St σ × Res (Except σ.E σ.V) :=
  if s.live p then
    match how with
    | .bin => getBin Y bld p s
    | .ref => getRef Y bld p s
    | .cloned => getClonedH Y D bld p s
  else (s, .stuck)

/-- `getA` with hooks. -/
def getAH (Y : Sys σ) (D : Hooks σ) : Nat → Getter σ
  | 0 => getByH Y D fun _ s => (s, .overflow)
  | n + 1 => getByH Y D (buildH Y D (getAH Y D n))

/-- `buildN` with hooks. -/
def buildNH (Y : Sys σ) (D : Hooks σ) : Nat → BuildFn σ
  | 0 => fun _ s => (s, .overflow)
  | n + 1 => buildH Y D (getAH Y D n)

/-- `lookup*` with hooks, `internal.rs` 415. -/
def lookupByH (Y : Sys σ) (D : Hooks σ) (how : Access) (p : Promise σ) (s : St σ) :
    St σ × Res (Option σ.V) :=
  match how with
  | .bin => (s, lookup Y p s.c)
  | .ref => (s, lookupRef Y p s.c)
  | .cloned =>
    match lookupRef Y p s.c with
    | .val (some v) => callHook D (.clone v) s fun s => (s, .val (some (Y.clone v)))
    | r => (s, r)

/-- A loop at the end of which the doctor is told: `invalidate` and `purge`. -/
def thenTell (D : Hooks σ) (p : Promise σ) (s : St σ) (r : Cache σ × LoopEnd) : St σ × Res (Ans σ) :=
  match r with
  | (c, .done) =>
    callHook D (.report (.invalidate p)) { s with c := c } fun s => (s, .val .unit)
  | (c, e) => ({ s with c := c }, e.res .unit)

/-- `dyn_state_mut` with hooks. -/
def dynStateMutH (Y : Sys σ) (D : Hooks σ) (ord : HashOrder) (p : Promise σ) (f : σ.S → σ.S)
    (s : St σ) : St σ × Res σ.S :=
  match invalidate Y ord p s.c with
  | (c, .done) =>
    callHook D (.report (.invalidate p)) { s with c := c } fun s =>
      match ensureDyn Y p s with
      | (s, .val d) =>
        if Y.stTy (f d) = Y.sty p.b then
          (s.onCache fun c =>
            { c with dynStates := c.dynStates.insert p.id (f d) }.emit (.setDyn p (f d)), .val d)
        else (s, .stuck)
      | r => r
  | (c, .panic k) => ({ s with c := c }, .panic k)
  | (c, .outOfFuel) => ({ s with c := c }, .overflow)

/-- The effect of one operation, with hooks. -/
def execH (Y : Sys σ) (D : Hooks σ) (n : Nat) (ord : HashOrder) (s : St σ) : Op σ → St σ × Res (Ans σ)
  | .get how p =>
    let r := getAH Y D n how p s
    (r.1, r.2.map .art)
  | .getMut p f =>
    match getMut Y ord (buildNH Y D n) p s with
    | (s, .val (.ok v)) =>
      match writeArt Y p f v s.c with
      | some c => ({ s with c := c }, .val (.art (.ok v)))
      | none => (s, .stuck)
    | (s, .val (.error e)) => (s, .val (.art (.error e)))
    | (s, .panic k) => (s, .panic k)
    | (s, .stuck) => (s, .stuck)
    | (s, .overflow) => (s, .overflow)
  | .lookup how p =>
    let r := lookupByH Y D how p s
    (r.1, r.2.map .optArt)
  | .dynStateMut p f =>
    let r := dynStateMutH Y D ord p f s
    (r.1, r.2.map .state)
  | .invalidate p => thenTell D p s (invalidate Y ord p s.c)
  | .purge p => thenTell D p s (purge Y ord p s.c)
  | .clearAll => callHook D (.report .clear) (s.onCache clearAll) fun s => (s, .val .unit)
  | op => exec Y n ord s op

/-- One operation, with hooks. -/
def stepH (Y : Sys σ) (D : Hooks σ) (n : Nat) (ord : HashOrder) (s : St σ) (op : Op σ) :
    St σ × Res (Ans σ) :=
  match op.promise? with
  | some p => if s.live p then execH Y D n ord s op else (s, .stuck)
  | none => execH Y D n ord s op

/-- `RawCache::new` (`internal.rs` 173-188, 205-216): the empty cache, before any builder exists. -/
def St.new (w : σ.W) : St σ := { c := {}, w := w }

/-- Whether a program can go on after an operation: it returned, or panicked and the panic was
caught.  Excluded: `stuck` (no such Rust program), `overflow` (aborts the process), and the panic of
finding 2 (C22), after which the cache is corrupt. -/
def Res.goesOn {α : Type} : Res α → Prop
  | .val _ => True
  | .panic k => k ≠ .noCounterpart
  | .stuck => False
  | .overflow => False

/-- The states a program can be in after some history of operations, any builder code, any stack
sizes and any hash iteration orders, any behaviour of the hooks (doctor, `Debug`, `Clone`), which may
be different ones in each operation. -/
inductive Reachable (Y : Sys σ) : St σ → Prop
  | new (w : σ.W) : Reachable Y (St.new w)
  | step {s : St σ} (n : Nat) (ord : HashOrder) (op : Op σ) :
      Reachable Y s → (step Y n ord s op).2.goesOn → Reachable Y (step Y n ord s op).1
  | hooked {s : St σ} (D : Hooks σ) (n : Nat) (ord : HashOrder) (op : Op σ) :
      Reachable Y s → (stepH Y D n ord s op).2.goesOn → Reachable Y (stepH Y D n ord s op).1

/-- The states that are reachable with hooks that do not panic when they are told about a use. -/
inductive Undisturbed (Y : Sys σ) : St σ → Prop
  | new (w : σ.W) : Undisturbed Y (St.new w)
  | step {s : St σ} (n : Nat) (ord : HashOrder) (op : Op σ) :
      Undisturbed Y s → (step Y n ord s op).2.goesOn → Undisturbed Y (step Y n ord s op).1
  | hooked {s : St σ} (D : Hooks σ) (n : Nat) (ord : HashOrder) (op : Op σ) :
      (∀ w p q, (D w (.report (.resolve p q))).2 = false) →
      Undisturbed Y s → (stepH Y D n ord s op).2.goesOn → Undisturbed Y (stepH Y D n ord s op).1

end Daab
