{
 "C08": {
  "status": "partial",
  "note": "The full statement is false of the code (C08_refuted): uses recorded by a failed build survive. The _partial theorems prove it for all histories in which no failed build is retried."
 },
 "C21": {
  "status": "partial",
  "note": "The full statement is false of the code (C21_gc_panics_after_purge). C21_gc_panics_iff_partial characterises exactly, for all reachable states, when garbage_collection panics."
 },
 "C22": {
  "status": "partial",
  "note": "The full statement is false of the code. Proved: mutable access panics iff another builder is recorded to use the builder; otherwise the full claim holds; after the panic artifacts may be stale, clearing repairs the cache."
 },
 "C43": {
  "status": "partial",
  "note": "The full statement is false of the code for invalidate events (no newline). Proved for all event sequences without invalidate."
 },
 "C45": {
  "status": "partial",
  "note": "False of the code: artifact texts are written into labels unescaped. C45_build_iff_partial is the exact condition (iff), C45_strings_unquoted a whole class of artifacts for which it fails (any String), C45_unquoted a concrete output; resolve lines are always fine (C45_resolve)."
 },
 "C60": {
  "status": "partial",
  "note": "The full statement is false of the code (C60_stale, C60_foreign_state). Destructors may act on the outside world and create and drop builders. Proved: destructors that do not panic amount to steps of the program directly after (for mutable accesses, before) the operation; after a panic the contents are between those before and those after the complete operation; an invalidate that broke off drops only artifacts of transitive users; clear_all repairs; mutable accesses likewise (a dyn_state_mut that broke off leaves what an invalidate that broke off leaves). The destructor of an artifact replaced in a re-entrant build is a hook (C59)."
 },
 "C65": {
  "note": "States Anyhow: every panic may be caught. Excluded is only the purge of C60_foreign_state. Outdated artifacts remain possible (C60_stale, C22_stale_after_panic)."
 },
 "C66": {
  "status": "partial",
  "note": "The full statement is false of the code (C66_leak, C66_leak_unbounded: known_leaf_builder keeps ids of purged builders). Proved: all other tables are bounded, and the whole cache is bounded by the known builders plus these strays; without strays (equivalently, as long as a garbage collection would return) the full statement holds."
 },
 "C70": {
  "status": "partial",
  "note": "The documented O(n) of garbage_collection is false of the code (C70_gc_not_linear: for every constant). Proved: linear in known builders plus removed uses, from above and below; at most quadratic; invalidation linear in what it removes; whole histories amortized over the resolves of builders."
 },
 "C73": {
  "status": "partial",
  "note": "False of the code if builders fail: C73_exponential (k + 1 acyclic builders, 2^k calls of one of them in one get), C73_called_twice. Proved: in a DAG each builder that can not fail is called at most once, in one get and in all reads that return until the next change, with any hooks; no builder is called after it succeeded."
 }
}