{"id": "C01", "title": "Cache hit is free and stable", "statement": "If `lookup(p)` returns `Some(v)`, then `get(p)` (and get_ref / get_cloned) returns `Ok` of that same artifact, calls no builder and leaves the whole cache unchanged.", "quantifier": "every reachable cache state, every promise, every builder code", "why_tests_cant": "must hold after every history of calls, including failed and panicked builds", "anchors": ["src/cache/internal.rs:get", "src/cache/internal.rs:lookup", "src/cache/internal.rs:get_ref", "src/cache/internal.rs:get_cloned"]}
{"id": "C02", "title": "A successful get memoizes", "statement": "If `get(p)` returns `Ok(v)`, then immediately afterwards `lookup(p)` returns `Some(v)` and `is_builder_known(p)` is true.", "quantifier": "every reachable state, promise, builder code, fuel/stack depth", "why_tests_cant": "builder code and histories are unbounded", "anchors": ["src/cache/internal.rs:get", "src/cache/internal.rs:build"]}
{"id": "C03", "title": "Errors are reported only for uncached artifacts and never cached", "statement": "`get(p)` returns `Err` only if no artifact of p was cached before the call, and then (unless p's own build re-entrantly built p) `lookup(p)` is `None` afterwards, so the next get calls the builder again; Ok/Err are exactly what the builder returned.", "quantifier": "every reachable state, promise, builder code", "why_tests_cant": "arbitrary interleavings of failures and retries", "anchors": ["src/cache/internal.rs:build", "src/cache.rs:get"]}
{"id": "C04", "title": "Reads and builds never disturb cached artifacts", "statement": "No `get*`, `lookup`, `lookup_ref`, `lookup_cloned`, `dyn_state`, `get_dyn_state`, `is_builder_known` or `number_of_known_builders` call changes or removes any artifact that was cached before it, even if the call returns Err or a builder panics inside it; and all that is new afterwards (artifacts, dynamic states, recorded uses) was built, initialised or written by a builder to its own state, or resolved, during the call.", "quantifier": "every reachable state, every such operation, every cached builder, every builder code", "why_tests_cant": "nested builds of arbitrary graphs", "anchors": ["src/cache/internal.rs:build", "src/cache/internal.rs:get", "src/cache.rs:Resolver"]}
{"id": "C05", "title": "Invalidation is exact", "statement": "After `invalidate(p)` an artifact is gone iff its builder is p or transitively depends on p, where u depends on d iff u resolved d since u was last invalidated; all other artifacts are untouched.", "quantifier": "every reachable state and dependency graph (including cyclic ones), every promise, every hash iteration order", "why_tests_cant": "graphs and histories are unbounded; hash order is random", "anchors": ["src/cache/internal.rs:invalidate_by_id", "src/cache/internal.rs:track_dependency"]}
{"id": "C06", "title": "Invalidation keeps configuration", "statement": "`invalidate` never adds or removes a dynamic state, never changes `is_builder_known`/`number_of_known_builders`, for any builder.", "quantifier": "every reachable state, every promise, every hash order", "why_tests_cant": "unbounded graphs", "anchors": ["src/cache/internal.rs:invalidate", "src/cache/internal.rs:invalidate_by_id"]}
{"id": "C07", "title": "No stale artifact survives invalidation of what it used", "statement": "If the build of u resolved d (successfully or with an error) and u has not been re-built since, then after any further history u is either no longer cached, or `invalidate(d)` removes it, also through chains of such uses.", "quantifier": "every history after the build, every builder code, including builds that fail, panic or re-enter", "why_tests_cant": "a statement about all later histories", "anchors": ["src/cache.rs:resolve", "src/cache/internal.rs:track_dependency", "src/cache/internal.rs:invalidate_by_id"]}
{"id": "C08", "title": "Invalidation only hits what the current artifact used", "statement": "An artifact whose most recent build did not (transitively) use d survives `invalidate(d)`.", "quantifier": "every history", "why_tests_cant": "needs a search over histories; dependencies recorded by an earlier failed build are kept", "anchors": ["src/cache/internal.rs:build", "src/cache/internal.rs:track_dependency", "src/cache/internal.rs:invalidate_by_id"]}
{"id": "C09", "title": "Invalidation does not depend on hash order", "statement": "Two runs of `invalidate` (or purge, dyn_state_mut) on the same cache under any two hash iteration orders end in observably equal caches: same artifacts, dynamic states, known builders, dependency relation and leaf set. Whole histories of any operations give the same answers under all hash orders, and a doctor (also one that keeps state or panics) is told the same in the same order.", "quantifier": "every reachable state, promise, pair of iteration orders", "why_tests_cant": "RandomState gives a new order each run", "anchors": ["src/cache/internal.rs:invalidate_by_id"]}
{"id": "C10", "title": "Invalidation always terminates and never panics", "statement": "`invalidate`, `purge` and `dyn_state_mut` terminate without an internal panic on every reachable dependency graph, including cyclic ones.", "quantifier": "every reachable state, promise, hash order", "why_tests_cant": "loops over unbounded graphs", "anchors": ["src/cache/internal.rs:invalidate_by_id"]}
{"id": "C11", "title": "dyn_state_mut invalidates and persists", "statement": "`dyn_state_mut(p)` hands out the current dynamic state (init_dyn_state's value if there was none), removes the artifacts of p and of everything transitively depending on p, and a value written through it is the one later reads and p's next build see; nothing else changes.", "quantifier": "every reachable state, promise, written value", "why_tests_cant": "histories", "anchors": ["src/cache/internal.rs:dyn_state_mut", "src/cache/internal.rs:ensure_dyn_state", "src/cache.rs:my_state"]}
{"id": "C12", "title": "Dynamic states persist", "statement": "A dynamic state, once present, stays present and is only changed by `dyn_state_mut` of that builder or by that builder's own build, and only removed by purge of that builder, `clear_all`, or garbage collection when the builder is unreachable.", "quantifier": "every reachable state and operation", "why_tests_cant": "all histories", "anchors": ["src/cache/internal.rs:dyn_states", "src/cache.rs:my_state"]}
{"id": "C13", "title": "purge forgets exactly one builder", "statement": "After `purge(p)`: p has no artifact, no dynamic state and is not known; transitively dependent artifacts are gone; every other artifact, dynamic state and known builder is untouched.", "quantifier": "every reachable state, promise, hash order", "why_tests_cant": "unbounded graphs", "anchors": ["src/cache/internal.rs:purge"]}
{"id": "C14", "title": "clear_artifacts", "statement": "`clear_artifacts` removes every artifact, keeps every dynamic state and every known builder, and afterwards nothing depends on anything.", "quantifier": "every reachable state", "why_tests_cant": "histories", "anchors": ["src/cache/internal.rs:clear_artifacts"]}
{"id": "C15", "title": "clear_all is a fresh cache", "statement": "After `clear_all` the cache is exactly a newly created one, so every later history behaves as on a new cache (apart from what the doctor has seen).", "quantifier": "every reachable state and every later history", "why_tests_cant": "all later histories", "anchors": ["src/cache/internal.rs:clear_all"]}
{"id": "C16", "title": "is_builder_known means what it says", "statement": "`is_builder_known(p)` is false only if the cache holds neither artifact nor dynamic state of p and p takes part in no recorded dependency, and true only if it holds a dynamic state (unless p's init_dyn_state panicked, or the doctor panicked when it was told about a use of p).", "quantifier": "every reachable state, promise", "why_tests_cant": "all histories", "anchors": ["src/cache.rs:is_builder_known", "src/cache/internal.rs:make_builder_known"]}
{"id": "C17", "title": "number_of_known_builders counts exactly the known builders", "statement": "`number_of_known_builders()` equals the number of distinct builder ids for which `is_builder_known` is true; lookups, invalidations, clear_artifacts and lookup_mut leave it as it is, get and get_mut never decrease it, dyn_state and dyn_state_mut add the builder, purge subtracts it, garbage_collection subtracts the number of unreferenced, unused builders, clear_all makes it 0.", "quantifier": "every reachable state", "why_tests_cant": "all histories", "anchors": ["src/cache.rs:number_of_known_builders"]}
{"id": "C18", "title": "Lookups never change anything", "statement": "`lookup`, `lookup_ref`, `lookup_cloned`, `get_dyn_state`, `is_builder_known`, `number_of_known_builders` leave the cache unchanged and agree with each other on presence.", "quantifier": "every reachable state, promise", "why_tests_cant": "all histories", "anchors": ["src/cache/internal.rs:lookup", "src/cache/internal.rs:lookup_ref", "src/cache/internal.rs:lookup_cloned", "src/cache/internal.rs:get_dyn_state"]}
{"id": "C19", "title": "Garbage collection has no functional impact on reachable builders", "statement": "`garbage_collection` keeps artifact, dynamic state and known status of every builder that is still referenced, and calls no builder.", "quantifier": "every reachable state, any set of still-referenced builders, every hash order", "why_tests_cant": "graphs, liveness patterns unbounded", "anchors": ["src/cache/internal.rs:garbage_collection"]}
{"id": "C20", "title": "Garbage collection collects", "statement": "After a `garbage_collection` that returns, no known builder is both unreferenced and without recorded dependents at the time of the call; and a builder all of whose transitive dependents are unreferenced is gone after at most (length of its longest dependents chain + 1) collections. After as many collections as there are known builders exactly those are left that are held, used (transitively) by a held one, or on or used by a cycle of uses; so without cycles nothing leaks.", "quantifier": "every reachable state, liveness pattern, chain length", "why_tests_cant": "unbounded chains", "anchors": ["src/cache/internal.rs:garbage_collection", "src/cache/internal.rs:known_leaf_builder"]}
{"id": "C21", "title": "Garbage collection never panics", "statement": "`garbage_collection` returns normally in every reachable state.", "quantifier": "every history of API calls", "why_tests_cant": "needs the right history: purge or invalidate of an unknown builder, then collect", "anchors": ["src/cache/internal.rs:garbage_collection", "src/cache/internal.rs:purge", "src/cache/internal.rs:invalidate_dependents"]}
{"id": "C22", "title": "Mutable artifact access invalidates the dependents", "statement": "`lookup_mut`/`get_mut` return the artifact, and all artifacts transitively depending on it are invalidated, without panicking.", "quantifier": "every reachable state, promise", "why_tests_cant": "needs an accessed artifact that has dependents", "anchors": ["src/cache/internal.rs:lookup_mut", "src/cache/internal.rs:get_mut", "src/cache/internal.rs:invalidate_dependents"]}
{"id": "C23", "title": "No type confusion", "statement": "No downcast of a cached artifact or dynamic state ever fails (`... is of invalid type` is never raised), although builders, artifacts and states of different types share one map keyed by address and addresses are reused.", "quantifier": "every history including allocation, dropping and address reuse, all well-typed builders", "why_tests_cant": "address reuse is up to the allocator", "anchors": ["src/cache/internal.rs:lookup", "src/cache/internal.rs:dyn_state_cast_mut", "src/cache/internal.rs:ensure_dyn_state", "src/lib.rs:BuilderId"]}
{"id": "C24", "title": "No mixed-up builders under address reuse", "statement": "The artifact and the dynamic state returned for a promise were produced by that promise's own builder, never by an earlier builder that lived at the same address.", "quantifier": "every history including dropping builders and address reuse", "why_tests_cant": "ABA needs an allocator schedule", "anchors": ["src/lib.rs:BuilderId", "src/cache/internal.rs:known_builders", "src/cache/internal.rs:purge", "src/cache/internal.rs:garbage_collection"]}
{"id": "C25", "title": "Internal assertions hold", "statement": "None of the internal debug assertions and expects about cache consistency (other than those refuted under C21, C22) can fire; so programs compiled with and without debug assertions behave exactly alike.", "quantifier": "every history, debug and release builds", "why_tests_cant": "all histories", "anchors": ["src/cache/internal.rs:debug_assert"]}
{"id": "C26", "title": "DAGs resolve in bounded depth", "statement": "If builders form a DAG, `get` terminates, with nesting depth at most the height of the DAG, from every reachable state.", "quantifier": "every DAG, every state, every builder code over it", "why_tests_cant": "unbounded DAG sizes", "anchors": ["src/cache/internal.rs:build", "src/cache.rs:resolve"]}
{"id": "C27", "title": "No redundant builds", "statement": "A builder's build method is called only when no artifact of it is cached; in a DAG an artifact is inserted only where none was cached, so in one `get` every builder succeeds at most once however many paths lead to it.", "quantifier": "every history, every builder code", "why_tests_cant": "diamonds of any size", "anchors": ["src/cache/internal.rs:get", "src/cache/internal.rs:build"]}
{"id": "C28", "title": "Caching is transparent for pure builders", "statement": "For builders whose build is a function of their dynamic state and resolved artifacts, `get(p)` after any history returns exactly what recomputing everything from scratch with the current dynamic states would return.", "quantifier": "every history (without mutable artifact access; doctors, Debug and Clone may panic anywhere), every system of pure builders, every graph", "why_tests_cant": "incremental-build correctness over all histories", "anchors": ["src/cache/internal.rs:track_dependency", "src/cache/internal.rs:invalidate_by_id", "src/cache/internal.rs:build"]}
{"id": "C29", "title": "History independence", "statement": "For pure builders, two caches with equal dynamic states that both return from `get(p)` return equal results, whatever their histories.", "quantifier": "all pairs of histories", "why_tests_cant": "all pairs of histories", "anchors": ["src/cache/internal.rs:get"]}
{"id": "C30", "title": "Builder panics leave the cache consistent", "statement": "A panic in a builder's build or init_dyn_state leaves a cache on which all the other properties still hold: cached artifacts are untouched, p is not cached by the panicked build, and a retry works as if p had never been built.", "quantifier": "every reachable state, every panic point in every builder", "why_tests_cant": "every panic point", "anchors": ["src/cache/internal.rs:build", "src/cache/internal.rs:ensure_dyn_state"]}
{"id": "C31", "title": "Access variants agree", "statement": "get, get_ref and get_cloned (and resolve, resolve_ref, resolve_cloned; lookup, lookup_ref, lookup_cloned) have the same effect on the cache and return the same artifact (cloned for the latter).", "quantifier": "every reachable state, promise", "why_tests_cant": "all states", "anchors": ["src/cache/internal.rs:get_ref", "src/cache/internal.rs:get_cloned", "src/cache.rs:resolve_ref"]}
{"id": "C32", "title": "Cyclic pure dependencies never return", "statement": "If a builder unconditionally resolves itself through a cycle of builders, none of which has a cached artifact, then `get` never returns a value or error at any stack depth (the stack overflows).", "quantifier": "every cycle length, every stack depth", "why_tests_cant": "non-termination cannot be observed by a test", "anchors": ["src/cache/internal.rs:build"]}
{"id": "C33", "title": "RedeemingBuilder", "statement": "A RedeemingBuilder returns the inner artifact if the inner build succeeds, otherwise the artifact of the last inner success it saw (initially its default), and panics iff there is neither; invalidating the inner builder invalidates it.", "quantifier": "every history (doctors, Debug and Clone may panic, except a doctor when told that this very builder was built), inner builder, default", "why_tests_cant": "sequences of successes and failures", "anchors": ["src/utils.rs:RedeemingBuilder"]}
{"id": "C34", "title": "Wrapper builders are transparent", "statement": "ForwardingBuilder and FeigningBuilder return exactly the inner artifact (same Bin), ClonedBuilder a re-binned clone, each passes on the inner error, and each is invalidated with its inner builder.", "quantifier": "every reachable state, inner builder", "why_tests_cant": "all states", "anchors": ["src/utils.rs:ForwardingBuilder", "src/utils.rs:FeigningBuilder", "src/utils.rs:ClonedBuilder"]}
{"id": "C35", "title": "Leaf utility builders", "statement": "ConstBuilder always yields the given Bin; ConfigurableBuilder yields the current dynamic state (so what was last written through dyn_state_mut); FunctionalBuilder yields the closure's result on the current state and stores the new state; none depends on another builder.", "quantifier": "every history", "why_tests_cant": "histories", "anchors": ["src/utils.rs:ConstBuilder", "src/utils.rs:ConfigurableBuilder", "src/utils.rs:FunctionalBuilder"]}
{"id": "C36", "title": "Blueprint identity", "statement": "Cloning a blueprint or converting it (BlueprintDyn::from_bp, BlueprintUnsized::new_binned/into_unsized/from_sized, From impls) keeps its id, its builder and the can the cache keeps, and equality of blueprints is equality of ids; so all of them address the same artifact.", "quantifier": "all blueprints, all conversion chains", "why_tests_cant": "arbitrary chains", "anchors": ["src/blueprint.rs:Blueprint", "src/blueprint.rs:BlueprintDyn", "src/blueprint.rs:BlueprintUnsized"]}
{"id": "C37", "title": "Canning laws", "statement": "from_bin then downcast_can at the same type gives back the same Bin; at another type it fails; downcast_can_ref/mut succeed iff downcast_can does; a Bin and its Can have the same pointer; upgrade of a downgraded can succeeds iff a strong reference is left.", "quantifier": "all values and types", "why_tests_cant": "all types", "anchors": ["src/canning.rs:CanSized", "src/canning.rs:CanRef", "src/canning.rs:CanStrong"]}
{"id": "C38", "title": "Live builders have distinct ids", "statement": "Two builders alive (or weakly kept) at the same time have different ids, even zero-sized ones.", "quantifier": "all disjoint allocations, sizes, alignments", "why_tests_cant": "allocator layouts", "anchors": ["src/lib.rs:BuilderId", "src/canning.rs:can_as_ptr"]}
{"id": "C39", "title": "init_dyn_state runs once", "statement": "init_dyn_state of a builder is called only when the cache has no dynamic state for it.", "quantifier": "every history", "why_tests_cant": "all histories", "anchors": ["src/cache/internal.rs:ensure_dyn_state"]}
{"id": "C40", "title": "Doctor sees the real thing", "statement": "Every dependency and every fresh artifact is reported to the doctor exactly when it happens; the artifacts cached and dependencies are a function of the reported events plus the clearing calls.", "quantifier": "every history", "why_tests_cant": "all histories", "anchors": ["src/diagnostics/mod.rs:Doctor", "src/cache/internal.rs:doctor"]}
{"id": "C41", "title": "Doctors number artifacts uniquely", "statement": "The (generation, instance) labels TextualDoc and VisgraphDoc give to built artifacts never repeat (as long as the doctor has seen fewer than 2^64 events: its counters are u64).", "quantifier": "every event sequence", "why_tests_cant": "unbounded sequences", "anchors": ["src/diagnostics/textual.rs:TextualDoc", "src/diagnostics/visgraph.rs:VisgraphDoc"]}
{"id": "C42", "title": "VisgraphDoc output is framed", "statement": "The graph text starts with the header and, once the doctor is dismantled or dropped, ends with exactly one closing line.", "quantifier": "every event sequence, either way of ending", "why_tests_cant": "unbounded sequences", "anchors": ["src/diagnostics/visgraph.rs:VisgraphDoc"]}
{"id": "C43", "title": "TextualDoc writes one line per event", "statement": "Every reported event starts on a new line in TextualDoc's output.", "quantifier": "every event sequence", "why_tests_cant": "unbounded sequences", "anchors": ["src/diagnostics/textual.rs:TextualDoc"]}
{"id": "C44", "title": "Diagnostics do not influence the cache", "statement": "The doctor's observations never influence the results of the cache.", "quantifier": "every history", "why_tests_cant": "all histories", "anchors": ["src/cache/internal.rs:doctor"]}
{"id": "C45", "title": "VisgraphDoc names and labels are quoted", "statement": "In the graph text every node name and every label is one quoted string, so that the text is a DOT graph whatever the builders' and artifacts' debug texts are. (False for artifacts whose debug text contains quotation marks.)", "quantifier": "every event, all debug texts", "why_tests_cant": "arbitrary texts", "anchors": ["src/diagnostics/visgraph.rs:VisgraphDoc"]}
{"id": "C46", "title": "Garbage collection cannot be noticed", "statement": "After a garbage collection every later operation of every later history answers exactly what it would have answered without the collection; only number_of_known_builders may be smaller. A doctor, Debug and Clone implementations, whatever they do, do not notice it either.", "quantifier": "every reachable state, every later history, all hash orders, all hooks", "why_tests_cant": "all later histories", "anchors": ["src/cache/internal.rs:garbage_collection"]}
{"id": "C47", "title": "Only the sets of invalidated and purged builders matter", "statement": "Two sequences of invalidate and purge calls which cover the same builders and purge the same builders cannot be told apart by any later history: order and repetition are irrelevant, and purge includes invalidate. With a doctor that is told about the calls and may panic, the same holds if it ends up in the same state.", "quantifier": "every reachable state, all pairs of sequences, every later history", "why_tests_cant": "all later histories", "anchors": ["src/cache/internal.rs:invalidate", "src/cache/internal.rs:purge"]}
{"id": "C48", "title": "Contracts between builders compose", "statement": "Take any contract that says what may be the artifacts, errors and dynamic states of each builder and the state of the outside world. If every builder's code (and init_dyn_state) keeps it whenever everything it resolves and reads is according to contract, and the program's own mutations (get_mut, lookup_mut, dyn_state_mut) keep it, too, then every artifact, error and dynamic state any operation of any history hands out is according to contract. In particular artifacts (if nobody mutates them in place) are always results of the builder's own code.", "quantifier": "every contract, every reachable state, every operation, all builder codes, all nestings and failures", "why_tests_cant": "contracts, builder graphs and histories are arbitrary", "anchors": ["src/cache/internal.rs:get", "src/cache/internal.rs:build", "src/cache.rs:Resolver", "src/cache.rs:get_dyn_state_cast_mut"]}
{"id": "C49", "title": "Infallible builders never fail", "statement": "A builder whose error type is Never (a SimpleBuilder, or any builder that only forwards errors of infallible ones) never makes any operation answer with an error, so unpacking its results is safe, even if other builders in the same cache fail.", "quantifier": "every reachable state, every set of infallible builders, every operation", "why_tests_cant": "histories with failing builders in between", "anchors": ["src/rc.rs:SimpleBuilder", "src/arc.rs:SimpleBuilder", "src/boxed.rs:SimpleBuilder", "src/lib.rs:Unpacking"]}
{"id": "C50", "title": "Dynamic states behave like variables", "statement": "Two dyn_state_mut writes to one builder are one write of the composed function, writes to different builders commute, and a write that changes nothing is an invalidation: no later history of operations can tell the difference. This holds with any doctor, Debug, Clone and destructors, too, if they leave the same outside world behind; a write that the doctor interrupts by a panic is an invalidation.", "quantifier": "every reachable state, all builders and write functions, every later history", "why_tests_cant": "all later histories", "anchors": ["src/cache.rs:dyn_state_mut", "src/cache/internal.rs:get_dyn_state_cast_mut", "src/cache/internal.rs:invalidate"]}
{"id": "C51", "title": "Independent components do not influence each other", "statement": "If the builders of one component of a program do not interact with the other builders (neither resolve, create, drop, nor communicate through the world), then in any history of a shared cache the component gets exactly the answers it would get from a cache of its own in the history without the operations on other builders; only number_of_known_builders may count fewer. Builds, errors, panics, invalidations, purges and garbage of other builders have no influence.", "quantifier": "every separate component, every interleaving of operations, all hash orders", "why_tests_cant": "all interleavings with arbitrary other builders", "anchors": ["src/cache/internal.rs:get", "src/cache/internal.rs:build", "src/cache/internal.rs:invalidate", "src/cache/internal.rs:garbage_collection"]}
{"id": "C52", "title": "The graph VisgraphDoc writes is the graph of what happened", "statement": "Reading the DOT text back gives exactly: an edge user -> used for every reported dependency, an edge builder -> artifact for every reported build, a labelled node for every builder and artifact mentioned, and nothing else. So after any history every dependency the cache knows and every artifact it holds has its edge, and every edge between builders was a use that happened. (For artifacts whose debug text contains neither quotation marks nor backslashes, see C45.)", "quantifier": "every event sequence, every history of a cache with that doctor, all options", "why_tests_cant": "unbounded event sequences and texts", "anchors": ["src/diagnostics/visgraph.rs:VisgraphDoc", "src/cache/internal.rs:doctor"]}
{"id": "C53", "title": "TextualDoc tells what happened", "statement": "TextualDoc's text is the concatenation, in order, of one text per event that names who used whom, who was built to which numbered artifact, which builder was invalidated or that everything was cleared; what was in the output before stays.", "quantifier": "every event sequence, all options", "why_tests_cant": "unbounded event sequences", "anchors": ["src/diagnostics/textual.rs:TextualDoc"]}
{"id": "C54", "title": "Handles given to doctors identify builders and artifacts", "statement": "BuilderHandles that exist at the same time are equal (and hash alike) iff they are handles of the same builder; a handle's id is the id of exactly the blueprints of its builder; a kept handle keeps its builder alive (so that garbage collection regards it as in use) and nothing else does besides blueprints. ArtifactHandles of Rc/Arc artifacts that are equal are handles of the same artifact, and clones are equal; a handle gives the very artifact back at its type, and a copy keeps the artifact alive just as the original does. (Not so for boxed artifacts without size.)", "quantifier": "all programs, allocators, sequences of creating, cloning and dropping of blueprints and handles", "why_tests_cant": "all interleavings and allocator choices", "anchors": ["src/diagnostics/mod.rs:BuilderHandle", "src/diagnostics/mod.rs:ArtifactHandle"]}
{"id": "C55", "title": "Caches that share builders do not influence each other", "statement": "In a program with any number of caches that share builders, each cache gives the answers, and holds what it would hold, if the same operations on it, in the same order, were done in a program without other caches, where the others' activity shows only as changes of the outside world and as creating and dropping builders. In particular invalidations, dynamic states, clearing and panics (even one that corrupts the cache) of one cache do not affect another; and a cache is as good as new after clear_all, whatever happened to it. All this whatever the doctors, Debug, Clone and destructors of the caches do.", "quantifier": "all programs with any number of caches, all interleavings, all allocators respecting weak references", "why_tests_cant": "all interleavings of several caches", "anchors": ["src/cache.rs:CacheOwned", "src/cache/internal.rs:RawCache", "src/cache/internal.rs:clear_all"]}
{"id": "C56", "title": "The cache behaves like an ideal cache", "statement": "There is a specification of the whole interface that mentions only what is remembered (artifacts, dynamic states, who used whom, which builders are known, which unknown ones were invalidated) and defines each operation by its effect on that, without hash tables' orders, reverse indices, worklists, type tags or assertions. On every history a cache gives operation by operation the answers of the ideal cache, and remembers the same after it; nothing else about a cache can be observed. The same holds with any doctor, Debug, Clone and destructors: each is called exactly when the specification says, and whatever it does or panics, the two agree.", "quantifier": "every history of operations, all builder codes, hash orders and stack sizes", "why_tests_cant": "whole histories against a specification", "anchors": ["src/cache/internal.rs:RawCache", "src/cache/internal.rs:get", "src/cache/internal.rs:invalidate", "src/cache/internal.rs:purge_builder", "src/cache/internal.rs:garbage_collection", "src/cache/internal.rs:get_mut", "src/cache.rs:Cache"]}
{"id": "C57", "title": "For a cache, a builder is its address", "statement": "Whatever blueprints and handles a program creates, clones, converts and drops, and whatever the allocator does: a new builder's id is different from the ids of all builders that are alive or known to the cache; a builder counts as alive for the cache exactly as long as somebody holds a blueprint or handle of it, which is also exactly when the weak reference in the cache's entry can be upgraded; so everything a program does in memory is one of creating a builder at an unused id, dropping one, making a live one known, forgetting one, or nothing the cache could notice.", "quantifier": "all programs, all sequences of memory actions, all allocators, all layouts", "why_tests_cant": "all interleavings and allocator choices", "anchors": ["src/blueprint.rs:Blueprint", "src/canning.rs:CanBase", "src/cache/internal.rs:make_builder_known", "src/diagnostics/mod.rs:BuilderHandle"]}
{"id": "C58", "title": "A doctor can keep a copy of the cache", "statement": "Somebody who only sees the events reported to the doctor, and keeps the handles, knows after each operation exactly which artifacts the cache holds and which uses it has on record: a reported use adds a use, a reported build sets an artifact, a reported invalidation drops the builder and all its transitive users, clearing drops everything. (Except after clear_artifacts, lookup_mut and get_mut, which change artifacts without a report, and a garbage collection of builders the doctor did not keep.)", "quantifier": "every history of operations, all builder codes, nestings, failures and panics", "why_tests_cant": "unbounded histories and event sequences", "anchors": ["src/diagnostics/mod.rs:Doctor", "src/cache/internal.rs:track_dependency", "src/cache/internal.rs:build", "src/cache/internal.rs:invalidate", "src/cache/internal.rs:clear_all", "src/cache/internal.rs:clear_artifacts"]}
{"id": "C59", "title": "Misbehaving doctors and Debug or Clone implementations", "statement": "The doctor, the Debug implementations it relies on, the Clone implementations of artifacts and the destructors of artifacts that a re-entrant build replaces may have their own state and may panic in any call (and the value of a clone may depend on anything outside of the cache). If their state is private to them, every operation either panics with their panic or answers and does exactly what it would without them. A cache in which such a panic was caught is still a good one: everything the other properties say holds of it; a get that panicked this way keeps all artifacts, dynamic states and uses and only adds artifacts that were built and reported; an invalidate, purge or clear_all that panicked this way has had its full effect.", "quantifier": "every doctor, every call of it (every crash point), every history before and after, all builder codes", "why_tests_cant": "panics at every possible point of every history", "anchors": ["src/diagnostics/mod.rs:Doctor", "src/cache/internal.rs:track_dependency", "src/cache/internal.rs:build", "src/cache/internal.rs:invalidate", "src/cache/internal.rs:clear_all", "src/cache/internal.rs:get_cloned", "src/cache/internal.rs:lookup_cloned", "src/cache/internal.rs:get_dyn_state_cast_mut"]}
{"id": "C60", "title": "Panicking destructors", "statement": "If the destructor of an artifact or dynamic state panics while the cache drops it (in invalidate, purge, clear_artifacts, clear_all, garbage_collection, dyn_state_mut, lookup_mut or get_mut) and the panic is caught, the cache stays consistent: it holds no stale artifacts, and later operations do what they should. (False: the operation breaks off, and uses are forgotten whose artifacts stay. True: if no destructor panics, whatever they do (also creating and dropping builders) is as if done directly after, or before, the operation; otherwise the cache holds something between what it held before and what it would hold after the complete operation; clear_all repairs it.)", "quantifier": "every reachable state, every removing operation or mutable access, all destructors (all crash points), all hash orders", "why_tests_cant": "panics at every possible point of every operation", "anchors": ["src/cache/internal.rs:invalidate_by_id", "src/cache/internal.rs:purge", "src/cache/internal.rs:clear_artifacts", "src/cache/internal.rs:clear_all", "src/cache/internal.rs:garbage_collection"]}
{"id": "C61", "title": "Doctors whose output fails", "statement": "TextualDoc and VisgraphDoc on a Write that may fail at any time, also after caught panics: a call that returns has written exactly the text of its event, a call that panics a beginning of it; the doctor panics exactly when the Write reports an error; failed calls do not count for the labels, so artifacts whose reports succeeded have different labels. As long as there was no error the text is exactly the text of the events the cache reported. A VisgraphDoc exists only if the header was written; into_inner returns the Write iff the end of the graph was written, once. (But: a call that panicked on flushing has written its whole line, with the label of the next one; into_inner aborts the process if the Write stays broken; dropping panics then.)", "quantifier": "every Write (all crash points), every sequence of events, every history of a cache with such a doctor, panics being caught or not", "why_tests_cant": "write errors at every possible point of every history", "anchors": ["src/diagnostics/textual.rs:TextualDoc", "src/diagnostics/visgraph.rs:VisgraphDoc", "src/diagnostics/mod.rs:Doctor", "src/cache/internal.rs:track_dependency", "src/cache/internal.rs:build"]}
{"id": "C62", "title": "Builders as artifacts, caches in levels", "statement": "The artifacts of a cache may be blueprints of builders for a further cache (or for the same one), in any number of levels: cN.get(&..c1.get(&q).unpack()..). Once computed, such a value is found again at once, with no builder run and nothing changed in memory, the world or any cache, and is the same, however much the levels' caches read, built, failed or collected garbage in between and whatever was done to other caches. A builder made while one cache was at work is new to every other cache (not known, no artifact, no dynamic state), whatever lived at its address before.", "quantifier": "any number of caches and levels, all programs, histories, stack sizes, hash orders and allocators", "why_tests_cant": "all interleavings over any number of nested caches", "anchors": ["src/canning.rs:BuilderArtifact", "src/cache.rs:get", "src/blueprint.rs:Blueprint", "src/cache/internal.rs:get"]}
{"id": "C63", "title": "Garbage collection while other threads drop builders", "statement": "While a thread collects garbage in its cache, other threads may drop blueprints at any moment, also between two checks of the collection. The collection does exactly what it would do if it were done at once at a moment when some builders are dropped, of which all are dropped when it ends: a builder somebody still has when it ends keeps its artifact, dynamic state and uses; what was garbage when it began is collected; what a known builder uses is kept; and whether it panics does not depend on the others.", "quantifier": "all programs with any number of threads, all schedules, all hash orders", "why_tests_cant": "all interleavings of the checks with drops in other threads", "anchors": ["src/cache/internal.rs:garbage_collection", "src/canning.rs:upgrade_from_weak", "src/arc.rs:Blueprint"]}
{"id": "C64", "title": "Caches in several threads at the same time", "statement": "Threads that have a cache each may share builders, and their builders' code may use the same outside world, at the same time, step by step in any order; also builder code may itself use another cache. Whenever a cache is not in use, it holds and has answered what the same operations, in the same order, give in a program without other threads and caches, in which the world changes, and builders are created and dropped, while builders work. So everything proved of a single cache holds for it: a completed get has stored what it answered, nothing is built twice without an invalidation in the same cache, a hit takes no step that others could come between, no thread waits for another. With builders that do not use the outside world the schedule does not matter at all.", "quantifier": "all programs with any number of threads, all schedules (every point between two actions of builder code), all builder codes", "why_tests_cant": "all interleavings of threads", "anchors": ["src/cache.rs:Cache", "src/cache/internal.rs:get", "src/cache/internal.rs:build", "src/cache.rs:Resolver", "src/arc.rs:Blueprint"]}
{"id": "C65", "title": "Whatever panics are caught, nothing wrong is handed out", "statement": "A program may catch every panic, of builders, doctors, destructors and of the cache's own assertions (also those of the known defects), and go on with the same cache. Then artifacts may be outdated, but: each artifact and dynamic state handed out has the type of, and was made by or for, the very builder asked for, not one that lived at its address before; hits are free, lookups and reads change nothing, successful gets are memoized; reading and building keeps all artifacts; dynamic states survive as usual; removals only remove; an invalidate that returns has dropped all recorded users, and what is built later is recorded properly; no downcast fails and everything except building ends; clear_all repairs the cache completely. (Excluded: a purge whose artifact's destructor panics, see C60.)", "quantifier": "every history in which any panics at any points are caught, all builder codes, doctors, destructors, hash orders", "why_tests_cant": "panics at every possible point of every history", "anchors": ["src/cache/internal.rs:invalidate_dependents", "src/cache/internal.rs:invalidate_by_id", "src/cache/internal.rs:purge", "src/cache/internal.rs:clear_all", "src/cache/internal.rs:get", "src/cache/internal.rs:lookup"]}
{"id": "C66", "title": "What a cache keeps is bounded by the builders it knows", "statement": "Whatever was got, failed, panicked, invalidated, purged, collected and cleared before: a cache with k known builders (number_of_known_builders) keeps at most k artifacts, k dynamic states and k*k recorded uses, and in all its tables no more than a number of entries that depends on k alone; with k = 0 it keeps nothing. (False for one table: each builder that is purged, or invalidated while unknown, leaves an entry until it becomes known again or clear_all is called, which no garbage collection removes, so that a cache without known builders may keep any number of entries. True for everything else, and for everything as long as garbage_collection would return.)", "quantifier": "every reachable state, all histories", "why_tests_cant": "histories of unbounded length", "anchors": ["src/cache/internal.rs:RawCache", "src/cache/internal.rs:make_builder_known", "src/cache/internal.rs:track_dependency", "src/cache/internal.rs:invalidate_by_id", "src/cache/internal.rs:purge", "src/cache/internal.rs:garbage_collection"]}
{"id": "C67", "title": "What leaves the cache is dropped exactly once", "statement": "Each artifact and each dynamic state that invalidate, purge, clear_artifacts, clear_all, garbage_collection, lookup_mut, get_mut or dyn_state_mut takes out of the cache is dropped by it exactly once (so an Rc or Arc that only the cache held is freed), and nothing that stays in the cache is dropped; nothing else is done to the program's memory. This holds also if a destructor panics in the middle, except that clear_artifacts and clear_all then leak the artifacts or states not yet dropped. (get_mut and dyn_state_mut: as far as nothing is built or initialized afterwards.)", "quantifier": "every state (reachable or not), every removing operation or mutable access, all destructors (all crash points), all hash orders", "why_tests_cant": "panics at every possible point, all sets of removed artifacts", "anchors": ["src/cache/internal.rs:invalidate_by_id", "src/cache/internal.rs:purge", "src/cache/internal.rs:clear_artifacts", "src/cache/internal.rs:clear_all", "src/cache/internal.rs:garbage_collection", "src/cache/internal.rs:invalidate_dependents", "src/cache/internal.rs:dyn_state_mut"]}
{"id": "C68", "title": "Artifacts in the cache fit together", "statement": "If no builder uses itself, directly or through others (otherwise their code may do anything: look at and change the outside world, fail, panic, change its dynamic state, create and drop builders), then after any history each artifact in the cache is what its builder's code made of exactly the artifacts that are in the cache now, and its builder's dynamic state is the one that run left; unless a caller of get_mut or lookup_mut has since written something else in its place. So two artifacts that were made from a third one have seen the same. The recorded uses form no cycle. An artifact whose builder looks at nothing but what it resolves is reproduced if it is invalidated and got again, whatever the other builders look at and however much time passed. (With builders that use each other in turn, even if no build recurses forever, this is false: an artifact may have been made from one that was replaced afterwards.)", "quantifier": "every acyclic system of builders with arbitrary code, every history, all caught panics, hooks, hash orders and stack sizes", "why_tests_cant": "unbounded histories and builder graphs, every failure point", "anchors": ["src/cache/internal.rs:build", "src/cache/internal.rs:get", "src/cache/internal.rs:track_dependency", "src/cache/internal.rs:invalidate_by_id", "src/cache.rs:Resolver"]}
{"id": "C69", "title": "The graph of the builders is preserved among their artifacts", "statement": "Builders that contain blueprints of others, form no cycle, and fill the fields of the artifacts they make with what resolve of these blueprints answered (their code may otherwise do anything), get a faithful image among the artifacts: after any history, including failures, caught panics, invalidations, purges and garbage collections, following any fields from an artifact in the cache leads to the artifact, in the cache, of the builder that the same fields lead to. So fields that lead to the same builder, on different ways or from different builders, lead to the very same artifact (the same Rc), also in what successive gets return as long as nothing is removed in between; and each part of an artifact is on record as a use. (Without mutable access to artifacts, which Rc and Arc do not have; for a single artifact: unless it was overwritten itself.)", "quantifier": "every acyclic system of such builders, every history, all failures, caught panics, hash orders and stack sizes", "why_tests_cant": "unbounded graphs and histories", "anchors": ["src/lib.rs:Builder", "src/cache.rs:Cache", "src/cache.rs:Resolver", "src/cache/internal.rs:get", "src/cache/internal.rs:build", "src/cache/internal.rs:track_dependency", "src/cache/internal.rs:invalidate_by_id"]}
{"id": "C70", "title": "The work of invalidation and garbage collection", "statement": "garbage_collection takes O(n) with n the number of known builders, as documented; the other operations of the cache itself (not the builders it runs) work in proportion to what they do. (False for garbage_collection: for every constant C there are acyclic builders and a history after which a collection that returns executes its loop bodies more than C*(n+1) times. True is: at most 4n+1 plus three times the number of recorded uses it removes, and not less than these; at most 4n+1+3n^2. invalidate and purge: at most 1 plus three times the recorded uses they remove, and not less than these. A whole history: at most once per invalidation, 4n+1 per collection, n per clear_artifacts and three times per resolve; get, lookup and reads have no loops.)", "quantifier": "every reachable state, every history, all hash orders, debug and release builds", "why_tests_cant": "complexity is a statement about all sizes; unbounded graphs and histories", "anchors": ["src/cache.rs:garbage_collection", "src/cache/internal.rs:garbage_collection", "src/cache/internal.rs:invalidate_by_id", "src/cache/internal.rs:invalidate_dependents", "src/cache/internal.rs:clear_artifacts"]}
{"id": "C71", "title": "Builders that artifacts and dynamic states refer to: several garbage collections", "statement": "Artifacts, dynamic states and builders may contain blueprints, so that builders live as long as these do, and a garbage collection that drops artifacts may make further builders unreachable. If one collection returns, any number of collections does. After as many collections as there were known builders, exactly those builders are left that are kept (are used by, or referred to by the artifact or dynamic state of, directly or through other builders) by something the program refers to or by a cycle of entries of the cache that keep each other; these have their artifacts, dynamic states and uses as before. If the program refers to none any more and there are no such cycles, the cache is empty then and no builder alive. That many collections may be needed, for every number of builders (each collects one); and builders whose artifacts refer to each other in a ring are never collected.", "quantifier": "every reachable state, all programs, all relations of what refers to what, all hash orders, any number of collections", "why_tests_cant": "unbounded chains and rings of references, all interleavings of what refers to what", "anchors": ["src/cache.rs:garbage_collection", "src/cache/internal.rs:garbage_collection", "src/canning.rs:upgrade_from_weak", "src/blueprint.rs:Blueprint"]}
{"id": "C72", "title": "After a change only what it affects is rebuilt", "statement": "After a batch of changes (dyn_state_mut, invalidate or purge of some builders) exactly the artifacts of these builders and of those that used them, directly or through others, are gone. While artifacts are then got, in any order and number, and whatever fails or panics: Builder::build is only called of builders so affected or that had no artifact before; every other artifact stays as it was; an affected artifact that is there again was built after the changes; a get calls only builders that the wanted one then uses, directly or through others; and, if the builders form no cycle, no artifact is built twice.", "quantifier": "every reachable state, every batch of changes, every sequence of reads, any doctor, Debug and Clone, all caught panics, hash orders and stack sizes", "why_tests_cant": "unbounded graphs, batches and histories", "anchors": ["src/cache.rs:dyn_state_mut", "src/cache.rs:invalidate", "src/cache.rs:purge", "src/cache.rs:get", "src/cache/internal.rs:invalidate_by_id", "src/cache/internal.rs:build", "src/cache/internal.rs:get", "src/cache/internal.rs:track_dependency"]}
{"id": "C73", "title": "In one get every builder is called at most once", "statement": "During one get every builder's build method is called at most once, on however many paths it is resolved; likewise during all gets until the next invalidation. (This is false of the code if builders fail, since errors are not cached: then builders that try again, or that go on without what failed, lead to a number of calls exponential in the number of builders, without any cycle. It holds, if the builders form no cycle, for those that can not fail; and, always, after a builder has succeeded it is not called again.)", "quantifier": "every reachable state, every acyclic set of builders, any doctor, Debug and Clone, all hash orders and stack sizes", "why_tests_cant": "unbounded graphs with any number of paths; failing subtrees", "anchors": ["src/cache.rs:get", "src/cache.rs:resolve", "src/cache/internal.rs:build", "src/cache/internal.rs:get"]}
