{
 "claims": [
  {
   "property": "C01",
   "status": "proved",
   "theorems": [
    "Daab.C01_hit_is_free",
    "Daab.C01_any_hooks"
   ],
   "note": ""
  },
  {
   "property": "C02",
   "status": "proved",
   "theorems": [
    "Daab.C02_get_memoizes",
    "Daab.C02_get_memoizes_all",
    "Daab.C02_any_hooks"
   ],
   "note": ""
  },
  {
   "property": "C03",
   "status": "proved",
   "theorems": [
    "Daab.C03_err_only_uncached",
    "Daab.C03_error_is_own",
    "Daab.C03_err_not_cached",
    "Daab.C03_any_hooks_only_uncached",
    "Daab.C03_any_hooks",
    "Daab.C03_retry"
   ],
   "note": ""
  },
  {
   "property": "C04",
   "status": "proved",
   "theorems": [
    "Daab.C04_artifacts_kept",
    "Daab.C04_only_adds"
   ],
   "note": ""
  },
  {
   "property": "C05",
   "status": "proved",
   "theorems": [
    "Daab.C05_invalidate_exact",
    "Daab.C05_invalidate_uses",
    "Daab.C05_any_hooks"
   ],
   "note": ""
  },
  {
   "property": "C06",
   "status": "proved",
   "theorems": [
    "Daab.C06_invalidate_keeps"
   ],
   "note": ""
  },
  {
   "property": "C07",
   "status": "proved",
   "theorems": [
    "Daab.C07_use_on_record",
    "Daab.C07_no_stale",
    "Daab.C07_unavoidable_use_on_record",
    "Daab.C07_unavoidable_invalidated"
   ],
   "note": ""
  },
  {
   "property": "C08",
   "status": "partial",
   "theorems": [
    "Daab.C08_refuted",
    "Daab.C08_invalidate_precise_partial",
    "Daab.C08_uses_of_last_build_partial"
   ],
   "note": "The full statement is false of the code (C08_refuted): uses recorded by a failed build survive. The _partial theorems prove it for all histories in which no failed build is retried."
  },
  {
   "property": "C09",
   "status": "proved",
   "theorems": [
    "Daab.C09_order_irrelevant",
    "Daab.C09_order_irrelevant_history",
    "Daab.C09_any_hooks",
    "Daab.C09_any_hooks_history"
   ],
   "note": ""
  },
  {
   "property": "C10",
   "status": "proved",
   "theorems": [
    "Daab.C10_invalidation_total",
    "Daab.C10_any_hooks"
   ],
   "note": ""
  },
  {
   "property": "C11",
   "status": "proved",
   "theorems": [
    "Daab.C11_dyn_state_mut",
    "Daab.C11_any_hooks"
   ],
   "note": ""
  },
  {
   "property": "C12",
   "status": "proved",
   "theorems": [
    "Daab.C12_state_persists",
    "Daab.C12_any_hooks"
   ],
   "note": ""
  },
  {
   "property": "C13",
   "status": "proved",
   "theorems": [
    "Daab.C13_purge",
    "Daab.C13_any_hooks"
   ],
   "note": ""
  },
  {
   "property": "C14",
   "status": "proved",
   "theorems": [
    "Daab.C14_clear_artifacts",
    "Daab.C14_any_hooks"
   ],
   "note": ""
  },
  {
   "property": "C15",
   "status": "proved",
   "theorems": [
    "Daab.C15_clear_all",
    "Daab.C15_clear_all_history",
    "Daab.C15_clear_all_any_hooks"
   ],
   "note": ""
  },
  {
   "property": "C16",
   "status": "proved",
   "theorems": [
    "Daab.C16_unknown_means_nothing",
    "Daab.C16_cached_means_known",
    "Daab.C16_known_means_state",
    "Daab.C16_known_means_state_or_use",
    "Daab.C16_any_hooks"
   ],
   "note": ""
  },
  {
   "property": "C17",
   "status": "proved",
   "theorems": [
    "Daab.C17_number_of_known",
    "Daab.C17_is_known",
    "Daab.C17_changes",
    "Daab.C17_any_hooks"
   ],
   "note": ""
  },
  {
   "property": "C18",
   "status": "proved",
   "theorems": [
    "Daab.C18_lookups_pure",
    "Daab.C18_any_hooks"
   ],
   "note": ""
  },
  {
   "property": "C19",
   "status": "proved",
   "theorems": [
    "Daab.C19_gc_keeps_live",
    "Daab.C19_any_hooks"
   ],
   "note": ""
  },
  {
   "property": "C20",
   "status": "proved",
   "theorems": [
    "Daab.C20_cycles_stay",
    "Daab.C20_gc_limit",
    "Daab.C20_no_leak",
    "Daab.C20_gc_collects",
    "Daab.C20_gc_chain",
    "Daab.C20_any_hooks"
   ],
   "note": ""
  },
  {
   "property": "C21",
   "status": "partial",
   "theorems": [
    "Daab.C21_gc_panics_after_doctor_panic",
    "Daab.C21_gc_panics_after_purge",
    "Daab.C21_gc_panics_iff_partial",
    "Daab.C21_gc_returns_partial"
   ],
   "note": "The full statement is false of the code (C21_gc_panics_after_purge). C21_gc_panics_iff_partial characterises exactly, for all reachable states, when garbage_collection panics."
  },
  {
   "property": "C22",
   "status": "partial",
   "theorems": [
    "Daab.C22_stale_after_panic",
    "Daab.C22_clearing_recovers",
    "Daab.C22_any_hooks",
    "Daab.C22_lookup_mut_any_hooks_partial",
    "Daab.C22_get_mut_any_hooks_partial",
    "Daab.C22_mut_panics_iff",
    "Daab.C22_lookup_mut_partial",
    "Daab.C22_get_mut_partial"
   ],
   "note": "The full statement is false of the code. Proved: mutable access panics iff another builder is recorded to use the builder; otherwise the full claim holds; after the panic artifacts may be stale, clearing repairs the cache."
  },
  {
   "property": "C23",
   "status": "proved",
   "theorems": [
    "Daab.C23_no_bad_cast",
    "Daab.C23_types"
   ],
   "note": ""
  },
  {
   "property": "C24",
   "status": "proved",
   "theorems": [
    "Daab.C24_artifact_is_own",
    "Daab.C24_state_is_own"
   ],
   "note": ""
  },
  {
   "property": "C25",
   "status": "proved",
   "theorems": [
    "Daab.C25_debug_irrelevant",
    "Daab.C25_any_hooks",
    "Daab.C25_panics"
   ],
   "note": ""
  },
  {
   "property": "C26",
   "status": "proved",
   "theorems": [
    "Daab.C26_dag_bounded_depth",
    "Daab.C26_stack_irrelevant",
    "Daab.C26_more_stack",
    "Daab.C26_any_hooks",
    "Daab.C26_any_hooks_more_stack"
   ],
   "note": ""
  },
  {
   "property": "C27",
   "status": "proved",
   "theorems": [
    "Daab.C27_dag_builds_once",
    "Daab.C27_dag_builds_uncached",
    "Daab.C27_any_hooks_builds_once",
    "Daab.C27_any_hooks_builds_uncached",
    "Daab.C27_call_only_uncached",
    "Daab.C27_call_needs_invalidation"
   ],
   "note": ""
  },
  {
   "property": "C28",
   "status": "proved",
   "theorems": [
    "Daab.C28_any_hooks_as_without",
    "Daab.C28_get_is_from_scratch",
    "Daab.C28_any_hooks_get_is_from_scratch",
    "Daab.C28_lookup_is_from_scratch",
    "Daab.C28_from_scratch_is_get",
    "Daab.C28_clear_artifacts_transparent"
   ],
   "note": ""
  },
  {
   "property": "C29",
   "status": "proved",
   "theorems": [
    "Daab.C29_any_hooks",
    "Daab.C29_history_independence",
    "Daab.C29_same_result"
   ],
   "note": ""
  },
  {
   "property": "C30",
   "status": "proved",
   "theorems": [
    "Daab.C30_any_hooks",
    "Daab.C30_panic_is_reachable",
    "Daab.C30_panic_get"
   ],
   "note": ""
  },
  {
   "property": "C31",
   "status": "proved",
   "theorems": [
    "Daab.C31_any_hooks",
    "Daab.C31_variants_agree",
    "Daab.C31_resolve_variants"
   ],
   "note": ""
  },
  {
   "property": "C32",
   "status": "proved",
   "theorems": [
    "Daab.C32_cycle_never_returns",
    "Daab.C32_any_hooks"
   ],
   "note": ""
  },
  {
   "property": "C33",
   "status": "proved",
   "theorems": [
    "Daab.C33_any_hooks",
    "Daab.C33_redeeming",
    "Daab.C33_invalidated_with_inner"
   ],
   "note": ""
  },
  {
   "property": "C34",
   "status": "proved",
   "theorems": [
    "Daab.C34_any_hooks",
    "Daab.C34_any_hooks_cloned",
    "Daab.C34_forwarding",
    "Daab.C34_feigning",
    "Daab.C34_same_bin",
    "Daab.C34_cloned",
    "Daab.C34_invalidated_with_inner"
   ],
   "note": ""
  },
  {
   "property": "C35",
   "status": "proved",
   "theorems": [
    "Daab.C35_uses_possible",
    "Daab.C35_leaf_uses_nothing",
    "Daab.C35_const",
    "Daab.C35_configurable",
    "Daab.C35_configurable_set",
    "Daab.C35_functional"
   ],
   "note": ""
  },
  {
   "property": "C36",
   "status": "proved",
   "theorems": [
    "Daab.Mem.C36_identity",
    "Daab.Mem.C36_convert",
    "Daab.Mem.C36_weak"
   ],
   "note": ""
  },
  {
   "property": "C37",
   "status": "proved",
   "theorems": [
    "Daab.Mem.C37_round_trip",
    "Daab.Mem.C37_downcast",
    "Daab.Mem.C37_value_kept",
    "Daab.Mem.C37_upgrade",
    "Daab.Mem.C37_lifetime",
    "Daab.Mem.C37_box",
    "Daab.Mem.C37_builder_artifact"
   ],
   "note": ""
  },
  {
   "property": "C38",
   "status": "proved",
   "theorems": [
    "Daab.Mem.C38_layout",
    "Daab.Mem.C38_distinct_ids"
   ],
   "note": ""
  },
  {
   "property": "C39",
   "status": "proved",
   "theorems": [
    "Daab.C39_init_only_without_state",
    "Daab.C39_init_once"
   ],
   "note": ""
  },
  {
   "property": "C40",
   "status": "proved",
   "theorems": [
    "Daab.C40_doctor_is_called",
    "Daab.C40_notebook",
    "Daab.C40_log_determines_cache",
    "Daab.C40_get_mut_reports",
    "Daab.C40_get_reports",
    "Daab.C40_other_reports"
   ],
   "note": ""
  },
  {
   "property": "C41",
   "status": "proved",
   "theorems": [
    "Daab.Doc.C41_unique",
    "Daab.Doc.C41_textual",
    "Daab.Doc.C41_visgraph",
    "Daab.Doc.C41_counters_suffice",
    "Daab.Doc.C41_counters_end"
   ],
   "note": ""
  },
  {
   "property": "C42",
   "status": "proved",
   "theorems": [
    "Daab.Doc.C42_framed"
   ],
   "note": ""
  },
  {
   "property": "C43",
   "status": "partial",
   "theorems": [
    "Daab.Doc.C43_lines_partial",
    "Daab.Doc.C43_not_a_line"
   ],
   "note": "The full statement is false of the code for invalidate events (no newline). Proved for all event sequences without invalidate."
  },
  {
   "property": "C44",
   "status": "proved",
   "theorems": [
    "Daab.C44_doctor_no_influence"
   ],
   "note": ""
  },
  {
   "property": "C45",
   "status": "partial",
   "theorems": [
    "Daab.Doc.C45_resolve",
    "Daab.Doc.C45_build_partial",
    "Daab.Doc.C45_unquoted",
    "Daab.Doc.C45_build_iff_partial",
    "Daab.Doc.C45_strings_unquoted"
   ],
   "note": "False of the code: artifact texts are written into labels unescaped. C45_build_iff_partial is the exact condition (iff), C45_strings_unquoted a whole class of artifacts for which it fails (any String), C45_unquoted a concrete output; resolve lines are always fine (C45_resolve)."
  },
  {
   "property": "C46",
   "status": "proved",
   "theorems": [
    "Daab.C46_gc_unnoticed",
    "Daab.C46_gc_same_answers",
    "Daab.C46_any_hooks",
    "Daab.C46_any_hooks_same_answers"
   ],
   "note": ""
  },
  {
   "property": "C47",
   "status": "proved",
   "theorems": [
    "Daab.C47_only_the_sets_matter",
    "Daab.C47_invalidations_commute",
    "Daab.C47_invalidation_idempotent",
    "Daab.C47_any_hooks",
    "Daab.C47_any_hooks_return"
   ],
   "note": ""
  },
  {
   "property": "C48",
   "status": "proved",
   "theorems": [
    "Daab.C48_contracts",
    "Daab.C48_artifact_is_own",
    "Daab.C48_any_hooks"
   ],
   "note": ""
  },
  {
   "property": "C49",
   "status": "proved",
   "theorems": [
    "Daab.C49_infallible",
    "Daab.C49_simple",
    "Daab.C49_any_hooks"
   ],
   "note": ""
  },
  {
   "property": "C50",
   "status": "proved",
   "theorems": [
    "Daab.C50_two_writes",
    "Daab.C50_writes_commute",
    "Daab.C50_no_write",
    "Daab.C50_two_writes_any_hooks",
    "Daab.C50_writes_commute_any_hooks",
    "Daab.C50_no_write_any_hooks"
   ],
   "note": ""
  },
  {
   "property": "C51",
   "status": "proved",
   "theorems": [
    "Daab.C51_separation",
    "Daab.C51_same_answers"
   ],
   "note": ""
  },
  {
   "property": "C52",
   "status": "proved",
   "theorems": [
    "Daab.Doc.C52_edges",
    "Daab.Doc.C52_dependencies",
    "Daab.Doc.C52_labels",
    "Daab.Doc.C52_builder_texts",
    "Daab.Doc.C52_cache"
   ],
   "note": ""
  },
  {
   "property": "C53",
   "status": "proved",
   "theorems": [
    "Daab.Doc.C53_told",
    "Daab.Doc.C53_whole"
   ],
   "note": ""
  },
  {
   "property": "C54",
   "status": "proved",
   "theorems": [
    "Daab.Mem.C54_handles",
    "Daab.Mem.C54_new",
    "Daab.Mem.C54_keeps_alive",
    "Daab.Mem.C54_artifacts",
    "Daab.Mem.C54_artifact_kept",
    "Daab.Mem.C54_box_counterexample"
   ],
   "note": ""
  },
  {
   "property": "C55",
   "status": "proved",
   "theorems": [
    "Daab.C55_as_if_alone",
    "Daab.C55_sound_on_its_own",
    "Daab.C55_others_untouched",
    "Daab.C55_cleared_is_as_new",
    "Daab.C55_as_if_alone_any_hooks",
    "Daab.C55_sound_on_its_own_any_hooks",
    "Daab.C55_others_untouched_any_hooks",
    "Daab.C55_cleared_is_as_new_any_hooks"
   ],
   "note": ""
  },
  {
   "property": "C56",
   "status": "proved",
   "theorems": [
    "Daab.C56_operation",
    "Daab.C56_history",
    "Daab.C56_only_this_matters",
    "Daab.C56_any_hooks_operation",
    "Daab.C56_any_hooks_history",
    "Daab.C56_any_hooks_only_this_matters"
   ],
   "note": ""
  },
  {
   "property": "C57",
   "status": "proved",
   "theorems": [
    "Daab.Mem.C57_memory_step",
    "Daab.Mem.C57_memory",
    "Daab.Mem.C57_alive"
   ],
   "note": ""
  },
  {
   "property": "C58",
   "status": "proved",
   "theorems": [
    "Daab.C58_replay",
    "Daab.C58_unreported"
   ],
   "note": ""
  },
  {
   "property": "C59",
   "status": "proved",
   "theorems": [
    "Daab.C59_any_clone",
    "Daab.C59_any_clone_reachable",
    "Daab.C59_any_clone_hit",
    "Daab.C59_panics",
    "Daab.C59_hooks_crash_or_nothing",
    "Daab.C59_hooks_unnoticed",
    "Daab.C59_quiet_hooks",
    "Daab.C59_crash_is_reachable",
    "Daab.C59_get_crash",
    "Daab.C59_invalidation_complete",
    "Daab.C59_invalidation_panics_iff",
    "Daab.C59_dyn_state_mut_crash"
   ],
   "note": ""
  },
  {
   "property": "C60",
   "status": "partial",
   "theorems": [
    "Daab.C60_quiet_drops_partial",
    "Daab.C60_between_partial",
    "Daab.C60_invalidate_partial",
    "Daab.C60_stale",
    "Daab.C60_clear_all_recovers_partial",
    "Daab.C60_quiet_mutations_partial",
    "Daab.C60_mutations_between_partial",
    "Daab.C60_state_mut_is_invalidate",
    "Daab.C60_with_hooks_partial",
    "Daab.C60_panics_before_hooks_partial",
    "Daab.C60_foreign_state"
   ],
   "note": "The full statement is false of the code (C60_stale, C60_foreign_state). Destructors may act on the outside world and create and drop builders. Proved: destructors that do not panic amount to steps of the program directly after (for mutable accesses, before) the operation; after a panic the contents are between those before and those after the complete operation; an invalidate that broke off drops only artifacts of transitive users; clear_all repairs; mutable accesses likewise (a dyn_state_mut that broke off leaves what an invalidate that broke off leaves). The destructor of an artifact replaced in a re-entrant build is a hook (C59)."
  },
  {
   "property": "C61",
   "status": "proved",
   "theorems": [
    "Daab.Doc.C61_textual",
    "Daab.Doc.C61_errors",
    "Daab.Doc.C61_reliable",
    "Daab.Doc.C61_first_error",
    "Daab.Doc.C61_labels",
    "Daab.Doc.C61_label_twice",
    "Daab.Doc.C61_visgraph",
    "Daab.Doc.C61_drop",
    "Daab.Doc.C61_into_inner",
    "Daab.Doc.C61_broken_pipe",
    "Daab.Doc.C61_cache_textual",
    "Daab.Doc.C61_cache_told",
    "Daab.Doc.C61_cache_visgraph",
    "Daab.Doc.C61_cache_graph"
   ],
   "note": ""
  },
  {
   "property": "C62",
   "status": "proved",
   "theorems": [
    "Daab.C62_same",
    "Daab.C62_new_builder"
   ],
   "note": ""
  },
  {
   "property": "C63",
   "status": "proved",
   "theorems": [
    "Daab.C63_gc_at_once",
    "Daab.C63_live_kept",
    "Daab.C63_garbage_collected",
    "Daab.C63_used_kept",
    "Daab.C63_same_result"
   ],
   "note": ""
  },
  {
   "property": "C64",
   "status": "proved",
   "theorems": [
    "Daab.C64_steps_are_the_operation",
    "Daab.C64_as_if_alone",
    "Daab.C64_sound",
    "Daab.C64_operation",
    "Daab.C64_schedule_does_not_matter",
    "Daab.C64_get_memoizes",
    "Daab.C64_no_redundant_build",
    "Daab.C64_hit_is_atomic",
    "Daab.C64_wait_free"
   ],
   "note": ""
  },
  {
   "property": "C65",
   "status": "proved",
   "theorems": [
    "Daab.C65_reachable",
    "Daab.C65_panics",
    "Daab.C65_hit_is_free",
    "Daab.C65_lookups",
    "Daab.C65_get",
    "Daab.C65_artifacts_kept",
    "Daab.C65_artifact_is_own",
    "Daab.C65_state_is_own",
    "Daab.C65_state_persists",
    "Daab.C65_removals_only_remove",
    "Daab.C65_invalidate_thorough",
    "Daab.C65_new_uses",
    "Daab.C65_fresh_builds_invalidated",
    "Daab.C65_clear_all_recovers"
   ],
   "note": "States Anyhow: every panic may be caught. Excluded is only the purge of C60_foreign_state. Outdated artifacts remain possible (C60_stale, C22_stale_after_panic)."
  },
  {
   "property": "C66",
   "status": "partial",
   "theorems": [
    "Daab.C66_tables_bounded_partial",
    "Daab.C66_entries_bounded_partial",
    "Daab.C66_entries_bounded_calm_partial",
    "Daab.C66_empty_partial",
    "Daab.C66_leak",
    "Daab.Demo.C66_leak_unbounded"
   ],
   "note": "The full statement is false of the code (C66_leak, C66_leak_unbounded: known_leaf_builder keeps ids of purged builders). Proved: all other tables are bounded, and the whole cache is bounded by the known builders plus these strays; without strays (equivalently, as long as a garbage collection would return) the full statement holds."
  },
  {
   "property": "C67",
   "status": "proved",
   "theorems": [
    "Daab.C67_removed_is_dropped",
    "Daab.C67_recorded",
    "Daab.C67_lookup_mut",
    "Daab.C67_get_mut",
    "Daab.C67_dyn_state_mut"
   ],
   "note": ""
  },
  {
   "property": "C68",
   "status": "proved",
   "theorems": [
    "Daab.C68_coherent",
    "Daab.C68_get",
    "Daab.C68_no_cycles",
    "Daab.C68_rebuild_same",
    "Daab.Demo27.C68_cycles_break_coherence"
   ],
   "note": ""
  },
  {
   "property": "C69",
   "status": "proved",
   "theorems": [
    "Daab.C69_parts",
    "Daab.C69_paths",
    "Daab.C69_shared",
    "Daab.C69_gets"
   ],
   "note": ""
  },
  {
   "property": "C70",
   "status": "partial",
   "theorems": [
    "Daab.C70_gc_partial",
    "Daab.C70_uses_partial",
    "Daab.C70_gc_quadratic_partial",
    "Daab.C70_invalidate_partial",
    "Daab.C70_history_partial",
    "Daab.C70_amortized_partial",
    "Daab.C70_gc_not_linear"
   ],
   "note": "The documented O(n) of garbage_collection is false of the code (C70_gc_not_linear: for every constant). Proved: linear in known builders plus removed uses, from above and below; at most quadratic; invalidation linear in what it removes; whole histories amortized over the resolves of builders."
  },
  {
   "property": "C71",
   "status": "proved",
   "theorems": [
    "Daab.C71_rounds",
    "Daab.C71_limit",
    "Daab.C71_no_leak",
    "Daab.C71_cycles_stay",
    "Daab.C71_cycles_needed",
    "Daab.C71_rings_leak"
   ],
   "note": ""
  },
  {
   "property": "C72",
   "status": "proved",
   "theorems": [
    "Daab.C72_changes_exact",
    "Daab.C72_only_affected_rebuilt",
    "Daab.C72_unaffected_kept",
    "Daab.C72_affected_fresh",
    "Daab.C72_only_needed",
    "Daab.C72_each_once"
   ],
   "note": ""
  },
  {
   "property": "C73",
   "status": "partial",
   "theorems": [
    "Daab.C73_not_after_success_partial",
    "Daab.C73_called_once_partial",
    "Daab.C73_called_once_until_change_partial",
    "Daab.C73_exponential",
    "Daab.C73_called_twice"
   ],
   "note": "False of the code if builders fail: C73_exponential (k + 1 acyclic builders, 2^k calls of one of them in one get), C73_called_twice. Proved: in a DAG each builder that can not fail is called at most once, in one get and in all reads that return until the next change, with any hooks; no builder is called after it succeeded."
  }
 ]
}