# Formal model of `daab` (Lean 4)

`/repo` = CoffeJunkStudio/daab at the pinned commit.  The model lives in
`lean/Verif/*.lean`; the properties are in `properties.jsonl`, the map from
property to theorem in `MANIFEST.json`, mutation experiments in
`seeded/LOG.jsonl`.

## 1. What is modelled

* `src/cache/internal.rs`, all of `RawCache` function by function (`Model.lean`):
  the six maps (`artifacts`, `dyn_states`, `dependents`, `dependencies`,
  `known_leaf_builder`, `known_builders`), every `expect`/`unwrap`/index panic
  and every `debug_assert!` (switch `Sys.debug`).
* `src/cache.rs`: `Resolver` (resolve, resolve_ref, resolve_cloned, my_state);
  the public `Cache` methods only forward to `RawCache`.
* Builders: arbitrary code.  `build` is an interaction tree (`Prog`) that may
  resolve any promise by any accessor (bin / ref / cloned), read and write its
  own dynamic state, read and write an outside world `W` (interior mutability,
  I/O, allocator state), allocate and drop other builders, return Ok/Err or
  panic.  `init_dyn_state` is an arbitrary function of builder and world which
  may panic.  So the theorems quantify over every builder a user can write.
* Memory: builder ids are addresses (`lib.rs` `BuilderId`).  The heap maps
  addresses to builder allocations; addresses may be reused as soon as no strong
  *and no weak* (i.e. `known_builders`) reference is left, as for `Rc`/`Arc`.
* Recursion depth: `getA n` has `n` nested builds available (call stack); running
  out is the result `overflow`, distinct from every other result.
* HashMap/HashSet iteration order: every operation that iterates takes a
  `HashOrder`, an arbitrary permutation chosen per iteration.
* Doctor notifications: the model's `log`, plus some ghost events (marked so in
  `Event`).  Ghost events influence nothing (`LogFree.lean`).
* `src/utils.rs` (RedeemingBuilder, FeigningBuilder, ForwardingBuilder,
  ClonedBuilder, ConstBuilder, ConfigurableBuilder, FunctionalBuilder): as builder
  code of the same model (`Utils.lean`).
* `src/blueprint.rs`, `src/canning.rs`, `src/rc.rs`, `src/arc.rs`, `src/boxed.rs`:
  a second model, of memory: reference counted boxes with strong/weak counts, layouts,
  addresses (`Rc.lean`), blueprints and the cache's weak entries (`Bp.lean`), bins,
  cans and downcasts (`Canning.lean`).  It justifies the first model's abstraction
  "promise = (address, builder)": C36-C38.
* `src/diagnostics/{textual,visgraph}.rs`: a third model, of the texts written
  (`Doctors.lean`): events to character lists.

### Modules
| module | content |
|--------|---------|
| `Model`, `Spec` | the cache; the vocabulary of the statements |
| `Inval`, `MutAccess`, `Gc` | the internal loops: invalidation, mutable access, garbage collection |
| `Inv`, `Eval`, `Ops`, `Step` | the global invariant and its preservation by builder code and all operations |
| `Trans`, `LogFree`, `Shape`, `KnownDyn`, `Anatomy`, `Stray`, `HashIndep`, `Run`, `Dag`, `Pure`, `Preserve`, `Trace`, `Contracts` | lemmas: refinement of the log, log irrelevance, what builds do, cyclic/acyclic systems, pure systems, generic preservation, reports, contracts |
| `Sim`, `SimStep` | the simulation between a cache and the same cache without garbage |
| `Multi` | programs with several caches |
| `Threads`, `Props23` | operations executed step by step, threads with a cache each (C63, C64) |
| `Debug` | debug assertions do nothing but panic (C25) |
| `Ideal`, `Refine` | the ideal cache (a specification, not a model of code), and the proof that the cache refines it |
| `MemLink` | the memory model of `Bp` refines the memory part of `Model` (C57) |
| `Replay` | C58, and C40 for `get_mut` |
| `Notebook` | C40 seen from the doctor's side: what it is called with |
| `Writer`, `WriterCache` | the doctors on a `Write` that may fail, alone and as hooks of a cache (C61) |
| `Levels` | nested `get`s through several caches whose artifacts are builders (C62) |
| `EvalH`, `Hooks`, `Props22` | user code besides builders (hooks): preservation, C59 |
| `Own` | the program's own steps (outside world, creating and dropping builders) as a relation |
| `Drops`, `Anyhow` | removing operations and mutable accesses with destructors that act and panic (C60); invariants that survive every panic, for C65 |
| `Clones` | `Clone` implementations as arbitrary code, reduced to the model without (C59) |
| `Footprint` | the number of entries of all tables (C66) |
| `Work` | how often the bodies of the cache's loops are executed (C70) |
| `View`, `ViewStep` | the simulation between a cache and its part that belongs to one component |
| `Utils`, `Wrap`, `Leaf`, `Redeem` | builders of `utils.rs` |
| `Rc`, `RcInv`, `Bp`, `BpInv`, `Canning` | memory model |
| `Doctors`, `Words` | the doctors' texts; their counters as `u64`s |
| `Props1`-... | the theorems `Cnn_*`, each followed by a concrete case |
| `Demo`, `DemoUtils` | the concrete systems of these cases |
| `Props31` | C04: all that reading and building adds; C17: how the number of known builders changes |
| `Quoting` | C45: the exact condition under which the lines for a build are quoted properly |
| `LogFreeH` | with hooks too, the ghost log influences nothing |
| `Props32` | C09, C15 with any doctor, `Debug` and `Clone` implementations: what they are told does not depend on the hash order either |
| `Update`, `Props33` | C72: batches of changes and what is rebuilt by the reads after them |
| `SimHooks`, `Props35` | C46 and C47 with any hooks: also the doctor cannot notice a collection, nor tell the order of invalidations, except by having been told about them |
| `Props36` | C73: how often builders are called in one `get` |
| `Props37` | C22: what mutable access does when it does not panic, in all cases (also of a builder that used itself), with any hooks |
| `Props38` | C12, C30, C33, C34 with any hooks: what a panic of whatever is called in a `get` leaves behind; what becomes of dynamic states; what the wrapper builders of `utils.rs` answer |
| `Props39` | C25 and C31 with any hooks: which panics a call may answer with; `get`, `get_ref` and `get_cloned` compared call by call |
| `Props40` | C14, C16, C17, C19, C20, C28, C29 with any hooks: what runs no foreign code; pure systems answer the same whatever the hooks did |
| `Props41` | C56 with any hooks: the ideal cache with a doctor, `Debug`, `Clone` and destructors, and that the cache refines it |
| `Props42` | C50 with any hooks: two writes are one, writes commute, an idle or interrupted write is an invalidation |
| `Props43` | C55 with any hooks: the transition system of many caches, each operation with hooks of its own (a doctor per cache, say), that may panic and share the outside world |
| `Props44` | C27 with any hooks: in a directed acyclic graph no `get` builds anything twice, nor what was cached |
| `HookRuns`, `Props34` | the core properties C01-C03, C05, C06, C10, C11, C13, C18, C22, C26, C32, C48, C49 once more, for operations during which a doctor, `Debug` or `Clone` does anything to the outside world, and may panic (`*_any_hooks`) |
| `RepoTests` | a check of the model: the repository's own unit tests (`test_impl.rs`, `test.rs`), replayed in it by the kernel, with the doctors' texts |
| `InternalTests` | likewise for the unit tests inside `internal.rs` (1047-1955): every test executed on the model's tables by the kernel |
| `DocExamples` | likewise for the example in the crate documentation (`lib.rs` 101-218) and for the programs `examples/boxed_result*.rs` |

### Representation choices / simplifications
* HashMap/HashSet = `Std.ExtTreeMap/ExtTreeSet Nat` (extensional finite maps);
  only the abstract map is relevant, iteration order is a parameter (above).
* One universal artifact type `V`, state type `S`, error type `E`; Rust's static
  types become run-time tags (`vty`, `sty`, `artTy`, `stTy`), a downcast
  compares tags.  Ill-typed builder code (rejected by rustc) and use of dead
  promises (impossible in safe Rust) yield the result `stuck`.
* `V` stands for the Bin, i.e. equality of `V` includes pointer identity.
* `&mut` results (`get_mut`, `lookup_mut`, `dyn_state_mut`) take the caller's
  write as function argument.
* Destructors are modelled as code in `Drops` (for the removing operations and the mutable
  accesses, C60) and, for an artifact that a re-entrant build replaces, as a hook.  In `Drops` they
  may act on the outside world, create and drop builders (`Destructors.Proper`: an allocator gives
  out no address still held by a `Weak` of the cache) and panic, in the middle of every operation.
  In the main model they do nothing, except that dropping a builder is a `free` step that
  may occur between any two operations and inside any build; `C60_quiet_drops_partial` and
  `C60_quiet_mutations_partial` justify that (destructors that do not panic amount to steps of the
  program directly after, or before, the operation).
* The model lets builder code drop the builder that is being built, which Rust
  forbids (the caller holds a promise): an over-approximation, harmless for the
  statements, which are all of the form "for every program".
* A `Doctor` that keeps `BuilderHandle`s keeps builders alive: in the model, these
  builders are just not freed.
* Doctors, `Debug` and `Clone` as code: `Hooks`, an arbitrary function that is called at
  every place where the code calls the doctor, formats (`{:?}` in handles), clones an
  artifact or replaces one; it may change the outside world and may panic.  `stepH` is `step` with these
  calls; `Reachable` allows both at any point of a history, so the theorems about
  reachable states hold after caught panics of doctors, too.  The *value* a `Clone`
  returns is still the function `Sys.clone`, but `Clones.lean` reduces arbitrary clones to that.  The log has a `resolve`/`invalidate`/`clear`
  event as soon as the doctor is called, a `built` event when that call returned (as the
  artifact is inserted only then).  Two theorems exclude some doctors, and there are examples
  that they must: `C16_known_means_state` doctors that panic when told about a use (`Undisturbed`;
  `C16_known_means_state_or_use` excludes none), `C33_redeeming` doctors that panic when told that the
  very builder was built (`Hears`).
* In the memory model the allocator returns any free place (`Free`); blueprints held
  inside a dropped builder are dropped by separate later steps.
* In `Doctors` writing never fails; in `Writer` the `Write` is an arbitrary machine that may
  fail at any time (it takes whole characters; bytes in the code).  Counters are unbounded
  there; `Words` has the `u64`s of the code and shows that both agree while there are fewer
  than `2 ^ 64` events, and no longer.
* A panic is a result with the state at the panic point, so histories can go on
  after `catch_unwind`.  `Reachable` excludes going on after the panic of finding 2 and after panics
  of destructors, since the recorded uses are then incomplete; `Anyhow` (C65) includes them.

## 2. Trusted base
* Lean 4.33.0's kernel.  Axioms used: at most `propext`, `Classical.choice`,
  `Quot.sound` (the standard three); `tools/axioms.sh` prints them for every
  theorem of the manifest.
* My reading of the Rust code into `Model.lean` (cited line by line).
* std: `HashMap`, `HashSet`, `Rc`/`Arc`/`Weak`, `Any` behave as documented.
* Threads: only in `Threads.lean`, where any number of threads with a cache each (a cache needs
  `&mut self`) execute builder code and garbage collection step by step in any order; sequentially
  consistent (memory ordering of `Arc` is std's business); `init_dyn_state` is one
  step there, together with the call that needs it; hooks do not act there.
* The cost model of C70: the execution of the body of a loop costs a constant (a constant number of operations
  on hash tables); what destructors and freeing the tables cost is not counted.
* Not modelled: `Debug` formatting of user
  values, allocation failure, user-implemented
  `Can`/`Promise` traits that violate the documented laws, drop code running on
  unwinding, panics in `Drop` other than in `Drops.lean`.

## 3. Findings (the code violates the expected property)
Each is a machine-checked refutation (a concrete history in the model) next to the
strongest true statement that could be proved.
1. **GC panic** (C21).  `invalidate_by_id` (internal.rs 789-845, line 839) puts
   the id into `known_leaf_builder` even if it is not in `known_builders`.
   So `purge(p); garbage_collection()` — or `invalidate(p)` / `lookup_mut(p)` of a
   builder the cache has never seen — panics in `self.known_builders[bid]` (901).  Also
   `dyn_state_mut(p)` of an unknown builder in which the doctor panicked
   (`C21_gc_panics_after_doctor_panic`).  The entry is never removed unless the builder becomes known again or
   `clear_all` is called, so it is a leak, too: purging builders in turn makes the cache grow without bound although
   it knows none (C66).  The example in the crate's own documentation (`lib.rs` 101-218) followed by a collection right
   after its `purge` panics (`DocExamples`).
2. **get_mut/lookup_mut panic** (C22).  `invalidate_dependents` (850-859) removes
   `dependents[b]` and then runs `invalidate_by_id(x)`, which finds `b` in
   `dependencies[x]` and dies at `.expect("Mapped dependency has no dependents
   counterpart map.")`.  Happens iff `b` has a recorded dependent other than itself.
   If the panic is caught, the cache is corrupt and can hold stale artifacts
   (`C22_stale_after_panic`); `clear_artifacts`/`clear_all` repair it
   (`C22_clearing_recovers`).
3. **Over-invalidation** (C08): dependencies of a failed build stay recorded and
   attach to the next successful build.
4. **RedeemingBuilder docs** (utils.rs 38-42): a dependency *is* established when
   the inner builder failed, since resolve tracks before get.
5. **TextualDoc.invalidate** writes no newline (C43).
6. **VisgraphDoc**: artifact labels are not escaped (visgraph.rs 201) (C45; exactly which artifacts are affected: `C45_build_iff_partial`; every `String` is).
7. **Cyclic dependencies are never collected** (C20_cycles_stay): a builder that
   uses itself, directly or through others, is never a leaf, so the GC leaks it even if
   nobody references it.
8. **Handles of boxed artifacts**: `ArtifactHandle`s of any two boxed zero-sized artifacts of one type are
   equal, since the (dangling) addresses are (`C54_box_counterexample`); the documentation
   (diagnostics/mod.rs 118-119) promises that they can be told apart.
9. **Panicking destructors** (C60).  `invalidate_by_id` removes `dependents[bid]` and
   unlinks `bid` before it drops the artifact (line 841).  If the destructor of that artifact
   panics, the work list is lost: the users' artifacts stay although they are not recorded as
   users any more, so no later invalidation (or `dyn_state_mut`) of the builder reaches them, and
   invalidating such a user panics like finding 2.  The same in `purge` (line 748: before the users
   are invalidated at all).  `clear_all` repairs the cache.  Moreover such a `purge` leaves the dynamic
   state of a builder behind that is not known any more, so that a later builder at the same address
   gets it, or a downcast panic (`C60_foreign_state`).
10. **Doctors on a failing `Write`** (C61).  `build` increments its counter only after `flush`
   returned; if the flush fails and the panic is caught, the next artifact gets the same label as
   the one whose line was written completely (`C61_label_twice`).  `VisgraphDoc::into_inner` does not
   take the output before `finish`, so if `finish` panics the destructor finishes again: the end of
   the graph may be there twice (`C61_into_inner`), and with a `Write` that stays broken the second
   panic aborts the process (`C61_broken_pipe`); so does any failed write in a function that owns
   the cache, since unwinding drops the doctor, which writes again.
11. **Garbage collection is not `O(n)`** (C70).  The documentation of `garbage_collection`
   (cache.rs 782) says its complexity is `O(n)` with `n` being the number of known builders.
   Each collected builder is unlinked from all the builders it used, so the number of recorded uses
   counts as well: with `k` builders that use `k` others each, `k*k` of them
   (`C70_gc_not_linear`, for every constant).  True is: linear in the known builders plus the
   recorded uses it removes, which is at most quadratic; and amortized over a history each such use is paid by
   the `resolve` that recorded it.
12. **Errors are not cached** (C73).  A builder that fails is called again on every path that leads to it, so with builders
   that go on, or try again, after a failure a single `get` can call a builder exponentially often, although the
   builders form no cycle (`C73_exponential`).

## 4. Per property: what is modelled, how it is proved
| id | how |
|----|-----|
| C01-C04, C31 | induction over stack depth and builder code of the evaluator (`Eval`, `Trans`) |
| C05, C06, C09, C10, C13 | loop invariant of `invalidate_by_id`: result is exactly the set of transitive dependents, for every hash order; bound by edge count (`Inval`, `HashIndep`) |
| C07, C40 | refinement: artifacts/dependencies/states = fold of the event log (`Spec.Abs`); C40 also: exact list of reports of every operation (`Trace`), and a doctor that takes notes gets exactly these (`Notebook`) |
| C08 | false: witness history; `_partial`: histories in which no failed build is retried |
| C11, C12, C14-C18, C39 | per-operation analysis under the global invariant |
| C19, C20 | GC loop analysis; multi-round by induction on dependents height; the limit: finite acyclic part, by counting transitive users |
| C21, C22 | false: witness histories; exact characterisation of the panic (iff) as `_partial` |
| C23-C25 | global invariant on all reachable states |
| C26, C32 | rank function / strong induction on stack depth |
| C27 | trace invariant; with any hooks in `Props44` |
| C28, C29 | big-step semantics without cache (`Scratch`); invariant "every cached artifact is the result of building from scratch" |
| C30 | invariant preserved at every panic point (reachable histories go on after panics), also panics of doctor, `Debug`, `Clone` (`Props38`) |
| C33-C35 | builders of utils.rs as `Prog`s; C33 and C34 with any hooks in `Props38` |
| C36-C38 | memory model: invariant "counts = references held" on all reachable worlds |
| C41-C45 | doctors as state machines over event lists; C44: log irrelevance; C43/C45 false: witness, `_partial`: all other events / texts without quotes |
| C46, C47 | two-run simulation `Sim`, then induction over all later histories; with hooks: both runs call the same hooks in the same worlds (`SimHooks`) |
| `*_any_hooks` | the property again for operations during which hooks (doctor, `Debug`, `Clone`, destructors of replaced artifacts) do anything and panic: one `getByH` is one `getBy` whose build function is the hooked one (`HookRuns`) |
| C48, C49 | rely-guarantee: per-builder contract kept by the code of each builder alone holds for all answers in all histories |
| C50 | simulation `Sim` with nothing missing; with any hooks in `Props42`, for caches after which the doctor remembers the same |
| C51 | two-run simulation `View` between the whole program and one component of it |
| C52 | reader for DOT texts (`lex`, `edges`, `labels`); the text of any event list, read back; with C40 linked to the cache |
| C53 | `told`, the words for one event; induction over the event list |
| C54 | handles as further strong references in the memory model (`Bp`, `BpInv`) |
| C55 | transition system of many caches over one memory (`Multi`); each cache's part of it is shown to be a run of a single cache, by turning what the others do into outside steps; with any hooks in `Props43` |
| C56 | specification machine `Ideal`; abstraction function `ideal`; forward simulation for every operation (builds by induction on nesting depth and builder code), then induction over histories; with any hooks in `Props41` |
| C57 | relation `Fits` between the cache model's state and a memory of reference-counted boxes; every memory step is simulated by one memory operation of the cache model |
| C58 | `replay`, a reader of the reported events only (no ghost events); invariant that it agrees with the cache, over all histories without the unreported operations; theorem listing those |
| C60 | false: general theorem (every reachable state with a user) and witness; `_partial`: the loops with destructors do the same or break off between; monotonicity of the loops |
| C61 | doctors and an arbitrary `Write` as state machines; specification `Received` of the text by calls that returned and calls that panicked; induction over the events; linked to the cache by the relational form of C40 (`Keeper`) |
| C62 | inductive relation `Chain` for the nested expression over the several-caches model of C55; each level keeps the artifact of a live builder under gentle operations (C04, C19), hits are free (C01); induction over the levels and the history |
| C63 | `gcT`: the collection with one step per leaf, the memory being arbitrary at each; invariant over all schedules: those found dropped stay dropped, those found alive were there at the start; the set of those found dropped is the moment at which the atomic collection does the same; then C19, C20, C21 |
| C64 | `Task`: operations as trees of atomic actions, proved equal to `step` if undisturbed; `Interleaved`: all schedules of threads with a cache each over one memory; invariant: what others did between two steps of a task can be put into the builder's code (`Sys.among`, looked up by the time on a clock in the world), so the history of each cache is a history of a single cache (`Alone`, C55), to which all other theorems apply |
| C65 | `Anyhow`: all histories in which any panic may be caught; the loops analysed without the invariant that dependencies and dependents agree (`Anyhow.lean`: they only remove, end, and are thorough if they return); each operation with arbitrary builders, hooks and destructors at once (`stepH`, `stepDH`, `stepMH`); a weaker invariant `Safe` on all these states, for which the evaluator lemmas hold, too (`Stable`) |
| C66 | `Rows` (the dependency tables have rows for known builders only) as an invariant of every operation, by `Preserve`; with `Inv` the key sets of all tables but one are subsets of the known builders, so are at most as large; the remaining one is known builders and strays (C21); refutation: purging an unknown builder adds an entry, by induction any number |
| C67 | the removing operations with destructors of `Drops`; a relation that composes: which artifacts and states left the cache (`Paid`) and which destructors ran in which order (`RanEach`), as lists equal up to order; by induction over each loop |
| C68 | `MadeFrom`, a relation between code, the cache as it is now and a result; the invariant that each artifact is so related is proved through the evaluator (a running build changes nothing of rank at least its own but its own state: `Upward`), and through each removing operation, as all of them drop a set closed under use; the counterexample with cycles is evaluated |
| C69 | `Fields`: the fields of artifacts and builders as partial functions, of an arbitrary type of field names; `Prog.assembles` says of code that it fills the fields with what it resolved; from coherence (C68) by induction on the code and on the path; that nothing is overwritten without mutable access is an invariant |
| C70 | work = executions of loop bodies, counted by functions that follow those of `Model` (`Work.lean`); three times the number of recorded uses is a potential: each loop pays with uses it removes; `resolve` adds at most one; refutation: for every constant a program of builders all of which use all of `k` leaves, its history constructed by induction on the number of builders (with C28 and C68 for what it leads to) |
| C71 | `Refs`: which builders artifacts, dynamic states and builders refer to, arbitrary; `Counted`: alive exactly if referred to (what `Rc`/`Arc` do, a hypothesis on the start, proved to be preserved); `Rounds`: collection, then what has no references is dropped; exact limit by induction on the number of entries that keep one; lower bound and rings: histories constructed for every `k` |
| C72 | `Changing` (a batch of changes), `Reading`, both with any hooks, `Affected`; induction on the batch (cutting off one affected set does not change what is hit outside of it); a call needs an uncached artifact (atomic steps); log of a hooked `get` contains only calls of what was resolved (`Needed`, induction on program and stack); for a DAG, artifacts are only inserted where there is none (`Low` with hooks) |
| C73 | false: `retry`, builders that resolve one other builder, twice if it fails; the calls counted by induction on the number of builders; `_partial`: relation `Once` (calls pairwise different, called ones cached if a value was returned, ranks bounded), composed along programs and stack, with any hooks; an infallible builder that returned is cached, and a cached one is not called (C27) |
| C59 | the evaluator with hooks at every call of a doctor, `Debug`, `Clone` or the destructor of a replaced artifact (`stepH`); a two-run simulation (with hooks / without); the global invariants extended to it |

A remark on C34/C33: with builders whose behaviour depends on the outside world, a
re-entrant (cyclic but terminating) build can overwrite an artifact; therefore the
coherence of wrapper and inner artifact is stated per build, and globally only for
pure systems (C28, C29).

## 5. Testing the theorems
* `tools/mutate.py`: applies an edit to a scratch copy of the model, rebuilds module by
  module, replaces every declaration that no longer checks by a stub, and reports which
  theorems of the manifest fail or depend on a failed lemma.
* `tools/falsify.py` with `tools/Falsify.lean.txt`: statement-level test.  The property
  statements are transcribed as executable checks and run on random histories of random
  systems in the edited model; reports which *statements* are false there.  It separates "the
  proof broke" from "the statement is false".  On the unedited model nothing is refuted.
* `seeded/mutants*.json` are the edits, `seeded/LOG.jsonl` (made by `tools/mklog.py`)
  the outcomes.
