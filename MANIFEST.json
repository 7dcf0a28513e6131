{
 "claims": [
  {
   "property": "C01",
   "status": "proved",
   "theorems": [
    "Xcore.Cache.C01_get_reflects_latest_set",
    "Xcore.Cache.C01_get_exact_without_eviction",
    "Xcore.Cache.C01_get_exact_unlimited",
    "Xcore.Cache.C01_returned_data_is_latest_set"
   ],
   "note": ""
  },
  {
   "property": "C02",
   "status": "proved",
   "theorems": [
    "Xcore.Cache.C02_invalid_reported_once",
    "Xcore.Cache.C02_invalid_is_reported"
   ],
   "note": ""
  },
  {
   "property": "C03",
   "status": "proved",
   "theorems": [
    "Xcore.Cache.C03_deadlines",
    "Xcore.Cache.C03_set_restarts",
    "Xcore.Cache.C03_setTTL_only_ttl"
   ],
   "note": ""
  },
  {
   "property": "C04",
   "status": "partial",
   "theorems": [
    "Xcore.Cache.C04_capacity_partial",
    "Xcore.Cache.C04_documented_limit_partial",
    "Xcore.Cache.C04_capacity_and_dropped",
    "Xcore.Cache.C04_small_limit_counterexample",
    "Xcore.Cache.C04_unbounded_after_flush",
    "Xcore.Cache.C04_unbounded_with_expire"
   ],
   "note": "False as stated: C04_small_limit_counterexample (Maxitems<9), C04_unbounded_after_flush and C04_unbounded_with_expire (expired keys stay in the recency list, so the cache outgrows any bound). Proved for Maxitems>=9 in histories where no Clean, Verify or automatic clean meets an expired entry and Flush is called on an empty cache only. For all histories C04_capacity_and_dropped bounds Count by the limit plus the number of entries found expired or flushed."
  },
  {
   "property": "C05",
   "status": "partial",
   "theorems": [
    "Xcore.Cache.C05_clean_is_lru_partial",
    "Xcore.Cache.C05_never_dropped_keys_partial",
    "Xcore.Cache.C05_set_never_dropped_keys_partial",
    "Xcore.Cache.C05_clean_with_expired_partial",
    "Xcore.Cache.C05_set_evicts_lru_partial",
    "Xcore.Cache.C05_expire_counterexample"
   ],
   "note": "False once a call has found expired entries (C05_expire_counterexample). Proved after every history in which that did not happen; C05_clean_with_expired_partial says what the first such Clean keeps. In all histories the order holds for keys of which no entry was ever found expired or flushed (C05_never_dropped_keys_partial, C05_set_never_dropped_keys_partial)."
  },
  {
   "property": "C06",
   "status": "proved",
   "theorems": [
    "Xcore.Cache.C06_clean_never_panics",
    "Xcore.Cache.C06_large_percentage_panics"
   ],
   "note": "Proved in unbounded integers; C95 shows that 64-bit arithmetic makes no difference for percentages between -100 and 100, and that a hugely negative percentage can panic."
  },
  {
   "property": "C07",
   "status": "partial",
   "theorems": [
    "Xcore.Cache.C07_clean_count_partial",
    "Xcore.Cache.C07_clean_returns_percentage",
    "Xcore.Cache.C07_expired_not_counted"
   ],
   "note": "False with expired entries (C07_expired_not_counted); proved as long as no call finds any; C07_clean_returns_percentage gives the value returned in all histories."
  },
  {
   "property": "C08",
   "status": "proved",
   "theorems": [
    "Xcore.Cache.C08_clean_removes_expired",
    "Xcore.Cache.C08_clean_zero_keeps"
   ],
   "note": ""
  },
  {
   "property": "C09",
   "status": "partial",
   "theorems": [
    "Xcore.Cache.C09_verify_keeps_exactly_valid",
    "Xcore.Cache.C09_verify_count_partial",
    "Xcore.Cache.C09_verify_counts_refused",
    "Xcore.Cache.C09_expired_not_counted"
   ],
   "note": "Which entries remain: proved in full. The returned number is false with Expire (C09_expired_not_counted); C09_verify_counts_refused gives what is returned in all cases."
  },
  {
   "property": "C10",
   "status": "partial",
   "theorems": [
    "Xcore.Cache.C10_flush_empties",
    "Xcore.Cache.C10_nothing_survives_flush",
    "Xcore.Cache.C10_flush_like_fresh_partial",
    "Xcore.Cache.C10_flush_like_fresh_unlimited_partial",
    "Xcore.Cache.C10_flush_counterexample"
   ],
   "note": "False when later calls evict (C10_flush_counterexample); proved for all answers of every history whose calls evict nothing, with or without limit, plus C10_nothing_survives_flush for all."
  },
  {
   "property": "C11",
   "status": "proved",
   "theorems": [
    "Xcore.Cache.C11_key_isolation",
    "Xcore.Cache.C11_set_never_alters"
   ],
   "note": ""
  },
  {
   "property": "C12",
   "status": "proved",
   "theorems": [
    "Xcore.CacheConc.C12_returned_value_was_set",
    "Xcore.CacheConc.C12_never_panics",
    "Xcore.CacheConc.C12_present_keys_are_tracked",
    "Xcore.CacheConc.C12_nothing_escapes_eviction"
   ],
   "note": ""
  },
  {
   "property": "C13",
   "status": "partial",
   "theorems": [
    "Xcore.CacheConc.C13_set_survives_partial",
    "Xcore.CacheConc.C13_condemned_only_if_invalid",
    "Xcore.CacheConc.C13_completed_set_can_be_lost",
    "Xcore.CacheConc.C13_verify_deletes_what_was_set_after_flush",
    "Xcore.CacheConc.C13_verify_looks_at_keys_of_its_time"
   ],
   "note": "False as stated (C13_completed_set_can_be_lost: a concurrent Get deletes the new entry after judging the old one). Proved when no Get of the key is in progress at the Set. The same can happen to a Set while a Verify of an earlier time goes on over the map that Flush abandoned (C13_verify_deletes_what_was_set_after_flush)."
  },
  {
   "property": "C14",
   "status": "proved",
   "theorems": [
    "Xcore.Lock.C14_locked_calls_are_serializable",
    "Xcore.Lock.C14_sequential_execution_unique",
    "Xcore.Lock.C14_order_respects_real_time",
    "Xcore.Lock.C14_mutual_exclusion",
    "Xcore.Cache.C14_cache_methods_atomic",
    "Xcore.Lock.C14_methods_are_atomic",
    "Xcore.Dataset.C14_xdatasetTS_methods_atomic",
    "Xcore.Dataset.C14_collectionTS_methods_atomic",
    "Xcore.Language.C14_xlanguage_methods_atomic"
   ],
   "note": ""
  },
  {
   "property": "C15",
   "status": "proved",
   "theorems": [
    "Xcore.Dataset.C15_reachable_heaps_are_well_formed",
    "Xcore.Dataset.C15_get_after_set",
    "Xcore.Dataset.C15_get_after_del",
    "Xcore.Dataset.C15_set_del_total"
   ],
   "note": ""
  },
  {
   "property": "C16",
   "status": "proved",
   "theorems": [
    "Xcore.Dataset.C16_get_follows_path",
    "Xcore.Dataset.C16_get_only_follows_path",
    "Xcore.Dataset.C16_get_in_general",
    "Xcore.Dataset.C16_get_composes",
    "Xcore.Dataset.C16_index_notation",
    "Xcore.Dataset.C16_get_element"
   ],
   "note": ""
  },
  {
   "property": "C17",
   "status": "partial",
   "theorems": [
    "Xcore.Dataset.C17_path_key_is_lost",
    "Xcore.Dataset.C17_get_after_set_partial",
    "Xcore.Dataset.C17_path_key_exactly"
   ],
   "note": "False as stated: C17_path_key_is_lost. Proved for keys without '>' and for keys whose first segment is a plain entry; C17_path_key_exactly says for every key with '>' what Get returns after Set."
  },
  {
   "property": "C18",
   "status": "proved",
   "theorems": [
    "Xcore.Dataset.C18_getBool",
    "Xcore.Dataset.C18_getInt",
    "Xcore.Dataset.C18_getFloat",
    "Xcore.Dataset.C18_exact_type_getters",
    "Xcore.Dataset.C18_getString"
   ],
   "note": ""
  },
  {
   "property": "C19",
   "status": "partial",
   "theorems": [
    "Xcore.Dataset.C19_large_unsigned_wraps",
    "Xcore.Dataset.C19_getInt_integer_partial"
   ],
   "note": "False for unsigned values of 2^63 and more: C19_large_unsigned_wraps. Proved for all integer values that fit an int."
  },
  {
   "property": "C20",
   "status": "proved",
   "theorems": [
    "Xcore.Dataset.C20_string_is_deterministic",
    "Xcore.Dataset.C20_string_is_the_text_of_every_order",
    "Xcore.Dataset.C20_lists_every_entry_once_sorted",
    "Xcore.Dataset.C20_lists_every_element_in_order",
    "Xcore.Dataset.C20_string_panics_only_around_nothing",
    "Xcore.Dataset.C20_string_terminates",
    "Xcore.Language.C20_language_printing_order_independent",
    "Xcore.Language.C20_language_string_lists_entries",
    "Xcore.Language.C20_language_goString_lists_entries"
   ],
   "note": ""
  },
  {
   "property": "C21",
   "status": "proved",
   "theorems": [
    "Xcore.Dataset.C21_clone_terminates",
    "Xcore.Dataset.C21_clone_gives_same_answers",
    "Xcore.Dataset.C21_clone_has_same_kind"
   ],
   "note": ""
  },
  {
   "property": "C22",
   "status": "proved",
   "theorems": [
    "Xcore.Dataset.C22_clone_is_not_affected",
    "Xcore.Dataset.C22_original_is_not_affected"
   ],
   "note": "Programs are sequences of all modelled dataset and collection calls. Writing elements of a shared slice or a shared language table is C23."
  },
  {
   "property": "C23",
   "status": "partial",
   "theorems": [
    "Xcore.Dataset.C23_slices_and_languages_are_shared",
    "Xcore.Dataset.C23_no_shared_dataset_or_collection_partial"
   ],
   "note": "False as stated: C23_slices_and_languages_are_shared. Proved that no dataset or collection is shared."
  },
  {
   "property": "C24",
   "status": "proved",
   "theorems": [
    "Xcore.Dataset.C24_new_dataset_mirrors_the_map",
    "Xcore.Dataset.C24_get_finds",
    "Xcore.Dataset.C24_get_finds_by_kind",
    "Xcore.Dataset.C24_get_finds_nothing_else"
   ],
   "note": ""
  },
  {
   "property": "C25",
   "status": "proved",
   "theorems": [
    "Xcore.Dataset.C25_collection_is_a_sequence",
    "Xcore.Dataset.C25_pop_and_shift_panic_exactly_when_empty",
    "Xcore.Dataset.C25_specification_is_deterministic"
   ],
   "note": ""
  },
  {
   "property": "C26",
   "status": "partial",
   "theorems": [
    "Xcore.Dataset.C26_last_dataset_wins",
    "Xcore.Dataset.C26_getData_panics",
    "Xcore.Dataset.C26_typed_lookups",
    "Xcore.Dataset.C26_ts_typed_lookups_partial",
    "Xcore.Dataset.C26_ts_lookups_differ",
    "Xcore.Dataset.C26_ts_typed_lookups_exactly"
   ],
   "note": "XDatasetCollection proved in full. XDatasetCollectionTS differs (C26_ts_lookups_differ: panic on another type, nil printed as <nil>); proved to agree when these cases do not occur, and exactly what it answers in every case."
  },
  {
   "property": "C27",
   "status": "partial",
   "theorems": [
    "Xcore.CollectionConc.C27_lookup_panics",
    "Xcore.CollectionConc.C27_panic_blocks_changes",
    "Xcore.CollectionConc.C27_safe_without_removals_partial",
    "Xcore.CollectionConc.C27_value_comes_from_an_element",
    "Xcore.CollectionConc.C27_append_only_is_sequential_partial"
   ],
   "note": "First half false as stated (C27_lookup_panics, and C27_panic_blocks_changes: the lock is left behind); proved without Pop and Shift. Second half proved for every schedule (C27_value_comes_from_an_element)."
  },
  {
   "property": "C28",
   "status": "partial",
   "theorems": [
    "Xcore.Lock.C28_write_panic_without_defer_wedges",
    "Xcore.Lock.C28_read_panic_without_defer_blocks_writers",
    "Xcore.Lock.C28_no_lock_is_left_behind",
    "Xcore.Dataset.C28_nil_xdatasetTS_wedges",
    "Xcore.Dataset.C28_empty_collectionTS_wedges",
    "Xcore.Dataset.C28_collectionTS_without_pop_partial"
   ],
   "note": "False as stated for methods without deferred unlock: C28_empty_collectionTS_wedges, C28_nil_xdatasetTS_wedges, C28_write_panic_without_defer_wedges, C28_read_panic_without_defer_blocks_writers, C27_panic_blocks_changes. Proved: nothing is left behind if every sequential history is free of such panics (C28_no_lock_is_left_behind), and instances."
  },
  {
   "property": "C29",
   "status": "proved",
   "theorems": [
    "Xcore.Dataset.C29_wrapper_is_transparent",
    "Xcore.Dataset.C29_wrapper_prints_as_wrapped",
    "Xcore.Dataset.C29_new_wrapper_wraps",
    "Xcore.Dataset.C29_clone_of_wrapper"
   ],
   "note": ""
  },
  {
   "property": "C30",
   "status": "proved",
   "theorems": [
    "Xcore.Language.C30_get_is_last_written",
    "Xcore.Language.C30_get_without_write",
    "Xcore.Language.C30_getStatus_is_last_written",
    "Xcore.Language.C30_getStatus_without_write",
    "Xcore.Language.C30_name_and_language",
    "Xcore.Language.C30_name_and_language_unique",
    "Xcore.Language.C30_cases_exhaustive"
   ],
   "note": ""
  },
  {
   "property": "C31",
   "status": "proved",
   "theorems": [
    "Xcore.Language.C31_load_assigns",
    "Xcore.Language.C31_assignment_unique",
    "Xcore.Language.C31_ignored_lines",
    "Xcore.Language.C31_buffering_does_not_matter",
    "Xcore.Language.C31_trimming_is_that_of_strings"
   ],
   "note": ""
  },
  {
   "property": "C32",
   "status": "proved",
   "theorems": [
    "Xcore.Language.C32_text_round_trip"
   ],
   "note": ""
  },
  {
   "property": "C33",
   "status": "proved",
   "theorems": [
    "Xcore.Language.C33_error_iff_long_line",
    "Xcore.Language.C33_lines_before_are_loaded",
    "Xcore.Language.C33_full_buffer_iff_long_line"
   ],
   "note": ""
  },
  {
   "property": "C34",
   "status": "partial",
   "theorems": [
    "Xcore.Language.C34_load_merges",
    "Xcore.Language.C34_load_into_empty_partial"
   ],
   "note": "False as stated: loading merges into the table (C34_load_merges). Proved for loading into an empty table."
  },
  {
   "property": "C35",
   "status": "partial",
   "theorems": [
    "Xcore.Xml.C35_xml_round_trip_partial",
    "Xcore.Xml.C35_export_may_not_load",
    "Xcore.Xml.C35_entity_in_name",
    "Xcore.Xml.C35_carriage_return",
    "Xcore.Xml.C35_value_adds_entries",
    "Xcore.Xml.C35_status_without_entry"
   ],
   "note": "False as stated, as GetXML escapes nothing: C35_export_may_not_load, C35_entity_in_name, C35_carriage_return, C35_value_adds_entries, C35_status_without_entry. Proved for every table whose texts need no escaping. xml.Unmarshal is modelled for the subset described in Model/Xml.lean."
  },
  {
   "property": "C36",
   "status": "proved",
   "theorems": [
    "Xcore.Language.C36_failed_load_changes_nothing",
    "Xcore.Language.C36_load_sets_document"
   ],
   "note": ""
  },
  {
   "property": "C37",
   "status": "proved",
   "theorems": [
    "Xcore.Language.C37_getEntries_equals_table",
    "Xcore.Language.C37_table_not_affected",
    "Xcore.Language.C37_copy_not_affected"
   ],
   "note": ""
  },
  {
   "property": "C38",
   "status": "proved",
   "theorems": [
    "Xcore.Template.C38_text_is_read_uniquely",
    "Xcore.Template.C38_no_meta_in_literals",
    "Xcore.Template.C38_meta_is_unique"
   ],
   "note": ""
  },
  {
   "property": "C39",
   "status": "proved",
   "theorems": [
    "Xcore.Template.C39_plain_text_renders_itself"
   ],
   "note": ""
  },
  {
   "property": "C40",
   "status": "proved",
   "theorems": [
    "Xcore.Template.C40_error_iff_unbalanced",
    "Xcore.Template.C40_new_iff_balanced",
    "Xcore.Template.C40_balanced_iff_document"
   ],
   "note": ""
  },
  {
   "property": "C41",
   "status": "proved",
   "theorems": [
    "Xcore.Template.C41_compile_builds_document",
    "Xcore.Template.C41_load_builds_document",
    "Xcore.Template.C41_box_has_all_its_names"
   ],
   "note": ""
  },
  {
   "property": "C42",
   "status": "proved",
   "theorems": [
    "Xcore.Template.C42_lookup_is_lexical",
    "Xcore.Template.C42_lookup_asks_fathers",
    "Xcore.Template.C42_lookup_needs_no_limit"
   ],
   "note": ""
  },
  {
   "property": "C43",
   "status": "proved",
   "theorems": [
    "Xcore.Template.C43_same_skeleton_compile",
    "Xcore.Template.C43_same_skeleton_render",
    "Xcore.Template.C43_comment_leaves_no_trace",
    "Xcore.Template.C43_stray_comment_start"
   ],
   "note": ""
  },
  {
   "property": "C44",
   "status": "partial",
   "theorems": [
    "Xcore.Template.C44_end_of_line_is_swallowed_partial",
    "Xcore.Template.C44_two_characters"
   ],
   "note": "False for two-byte line ends: C44_two_characters (of \\r\\n only the \\r is swallowed). Proved that exactly one end-of-line byte is swallowed after every element that swallows."
  },
  {
   "property": "C45",
   "status": "proved",
   "theorems": [
    "Xcore.Template.C45_execute_meets_specification",
    "Xcore.Template.C45_execute_starts_with_data",
    "Xcore.Template.C45_execute_nil",
    "Xcore.Template.C45_compiled_templates",
    "Xcore.Template.C45_template_is_rendered_in_order",
    "Xcore.Template.C45_literals_and_comments",
    "Xcore.Template.C45_field_is_injected",
    "Xcore.Template.C45_value_is_unique",
    "Xcore.Template.C45_injected_text_is_verbatim"
   ],
   "note": ""
  },
  {
   "property": "C46",
   "status": "proved",
   "theorems": [
    "Xcore.Template.C46_language_entry_is_injected"
   ],
   "note": ""
  },
  {
   "property": "C47",
   "status": "proved",
   "theorems": [
    "Xcore.Template.C47_reference",
    "Xcore.Template.C47_reference_with_dataset",
    "Xcore.Template.C47_reference_without_dataset",
    "Xcore.Template.C47_reference_by_value",
    "Xcore.Template.C47_reference_of_many_parts"
   ],
   "note": ""
  },
  {
   "property": "C48",
   "status": "proved",
   "theorems": [
    "Xcore.Template.C48_loop_renders_every_element",
    "Xcore.Template.C48_names_by_priority",
    "Xcore.Template.C48_loop_over_nothing",
    "Xcore.Template.C48_loop_without_template"
   ],
   "note": ""
  },
  {
   "property": "C49",
   "status": "partial",
   "theorems": [
    "Xcore.Template.C49_condition_met",
    "Xcore.Template.C49_condition_met_by_dataset",
    "Xcore.Template.C49_condition_not_met",
    "Xcore.Template.C49_unmet_condition_renders_none_partial",
    "Xcore.Template.C49_condition_without_template",
    "Xcore.Template.C49_unmet_condition_renders_positive_branch"
   ],
   "note": "False when no negative branch exists: C49_unmet_condition_renders_positive_branch. Proved for every condition that is met, and for unmet ones with a .none template (or with no template at all)."
  },
  {
   "property": "C50",
   "status": "proved",
   "theorems": [
    "Xcore.Template.C50_only_counters_change",
    "Xcore.Template.C50_scope_stack_is_restored",
    "Xcore.Template.C50_without_loops_nothing_changes"
   ],
   "note": ""
  },
  {
   "property": "C51",
   "status": "partial",
   "theorems": [
    "Xcore.Template.C51_nil_data_panics",
    "Xcore.Template.C51_nil_data_does_not_panic_partial",
    "Xcore.Template.C51_panic_needs_use_of_data",
    "Xcore.Template.C51_use_of_data_never_returns",
    "Xcore.Template.C51_nil_data_panics_exactly"
   ],
   "note": "False: C51_nil_data_panics. Proved for templates without references of two or three parts; C51_nil_data_panics_exactly says for which templates it panics (among those without endless chains of sub-templates)."
  },
  {
   "property": "C52",
   "status": "partial",
   "theorems": [
    "Xcore.Template.C52_recursive_box_diverges",
    "Xcore.Template.C52_never_ends_exactly",
    "Xcore.Template.C52_tree_never_ends",
    "Xcore.Template.C52_execute_ends_partial",
    "Xcore.Template.C52_execute_terminates_partial",
    "Xcore.Template.C52_execute_nil_terminates_partial",
    "Xcore.Template.C52_inward_calls_terminate_partial"
   ],
   "note": "False: C52_recursive_box_diverges, and C52_tree_never_ends (a box that renders the children of a node with itself, on finite trees without cycles). C52_never_ends_exactly says for all templates and data when Execute never ends. Proved to end when there is no endless chain of sub-templates that name each other and the data have no cycle; for example when every name used in a document is declared directly in it."
  },
  {
   "property": "C53",
   "status": "proved",
   "theorems": [
    "Xcore.Template.C53_clone_returns",
    "Xcore.Template.C53_clone_renders_like_original",
    "Xcore.Template.C53_clone_of_compiled"
   ],
   "note": ""
  },
  {
   "property": "C54",
   "status": "partial",
   "theorems": [
    "Xcore.Template.C54_clone_is_not_independent",
    "Xcore.Template.C54_new_text_partial",
    "Xcore.Template.C54_add_unused_name_partial",
    "Xcore.Template.C54_without_sub_templates_partial"
   ],
   "note": "False: C54_clone_is_not_independent (sub-templates are shared through the father link). Proved for reloading text, for added names nobody refers to, and for templates without sub-templates."
  },
  {
   "property": "C55",
   "status": "proved",
   "theorems": [
    "Xcore.Template.C55_equal_data_render_the_same",
    "Xcore.Template.C55_sharing_does_not_matter_without_loops",
    "Xcore.Template.C55_sharing_matters_with_loops",
    "Xcore.Template.C55_bound_is_irrelevant",
    "Xcore.Template.C55_execute_is_deterministic"
   ],
   "note": ""
  },
  {
   "property": "C56",
   "status": "proved",
   "theorems": [
    "Xcore.Template.C56_unused_boxes_do_not_matter"
   ],
   "note": ""
  },
  {
   "property": "C57",
   "status": "proved",
   "theorems": [
    "Xcore.Lock.C57_no_deadlock",
    "Xcore.Lock.C57_lock_released",
    "Xcore.Cache.C57_cache_never_deadlocks",
    "Xcore.Lock.C57_nobody_stuck_while_calm",
    "Xcore.Dataset.C57_xdatasetTS_never_deadlocks",
    "Xcore.Language.C57_xlanguage_never_deadlocks"
   ],
   "note": ""
  },
  {
   "property": "C58",
   "status": "partial",
   "theorems": [
    "Xcore.Template.C58_failed_load_changes_template",
    "Xcore.Template.C58_failed_load_keeps_root_partial",
    "Xcore.Template.C58_failed_load_adds_complete_boxes",
    "Xcore.Template.C58_load_fails_exactly",
    "Xcore.Template.C58_failed_load_without_box_changes_nothing",
    "Xcore.Template.C58_failed_new_changes_nothing"
   ],
   "note": "False: C58_failed_load_changes_template (sub-templates before the error are added). Proved that the text of the template itself is kept, and that a failed constructor changes nothing; C58_failed_load_adds_complete_boxes and C58_load_fails_exactly say which loads fail and what they change."
  },
  {
   "property": "C59",
   "status": "partial",
   "theorems": [
    "Xcore.Template.C59_second_rendering_differs",
    "Xcore.Template.C59_rendering_again_partial",
    "Xcore.Template.C59_rendering_nil_again",
    "Xcore.Template.C59_rendering_with_loops_again_partial",
    "Xcore.Template.C59_old_counters_do_not_matter_partial"
   ],
   "note": "False: C59_second_rendering_differs (.counter stays in the rows). Proved for nil, for templates without loops, and for templates with loops that do not read counters of earlier renderings (Steady), any number of times."
  },
  {
   "property": "C60",
   "status": "proved",
   "theorems": [
    "Xcore.Template.C60_execute_does_not_panic"
   ],
   "note": ""
  },
  {
   "property": "C61",
   "status": "partial",
   "theorems": [
    "Xcore.CollectionConc.C61_unshift_hides_an_element",
    "Xcore.CollectionConc.C61_nothing_is_missed_while_appending_partial"
   ],
   "note": "False as stated: C61_unshift_hides_an_element. Proved for programs that only append."
  },
  {
   "property": "C62",
   "status": "proved",
   "theorems": [
    "Xcore.Language.C62_language_from_string",
    "Xcore.Language.C62_language_from_xml",
    "Xcore.Language.C62_language_file_is_its_text",
    "Xcore.Language.C62_language_unreadable_file",
    "Xcore.Language.C62_exported_file",
    "Xcore.Template.C62_template_file"
   ],
   "note": ""
  },
  {
   "property": "C63",
   "status": "proved",
   "theorems": [
    "Xcore.Template.C63_string_lists_elements",
    "Xcore.Template.C63_goString_lists_elements",
    "Xcore.Template.C63_empty_template",
    "Xcore.Template.C63_clone_prints_alike"
   ],
   "note": ""
  },
  {
   "property": "C64",
   "status": "proved",
   "theorems": [
    "Xcore.Template.C64_clone_is_a_tree",
    "Xcore.Template.C64_clone_renders_the_same",
    "Xcore.Template.C64_clone_renders_the_same_without_loops",
    "Xcore.Template.C64_other_data_are_untouched",
    "Xcore.Template.C64_clone_protects_the_original",
    "Xcore.Template.C64_shared_data_render_differently"
   ],
   "note": ""
  },
  {
   "property": "C65",
   "status": "proved",
   "theorems": [
    "Xcore.V1.Cache.C65_get_reflects_latest_set",
    "Xcore.V1.Cache.C65_get_exact_without_eviction",
    "Xcore.V1.Cache.C65_verify_keeps_exactly_valid",
    "Xcore.V1.Cache.C65_never_panics"
   ],
   "note": ""
  },
  {
   "property": "C66",
   "status": "partial",
   "theorems": [
    "Xcore.V1.Cache.C66_same_answers_without_verify_partial",
    "Xcore.V1.Cache.C66_same_answers_without_eviction_partial",
    "Xcore.V1.Cache.C66_verify_counterexample"
   ],
   "note": "Proved for histories without Verify, and for histories without eviction (Verify included). False in general: C66_verify_counterexample."
  },
  {
   "property": "C67",
   "status": "proved",
   "theorems": [
    "Xcore.V1.CacheConc.C67_returned_value_was_set"
   ],
   "note": ""
  },
  {
   "property": "C68",
   "status": "partial",
   "theorems": [
    "Xcore.V1.CacheConc.C68_present_keys_are_tracked_partial",
    "Xcore.V1.CacheConc.C68_present_key_not_tracked",
    "Xcore.V1.CacheConc.C68_clean_panics",
    "Xcore.V1.CacheConc.C68_blocked_after_panic"
   ],
   "note": "False of the code: one Get and one Set at the same time suffice (C68_present_key_not_tracked), Clean(100) then panics with the mutex locked (C68_clean_panics) and the cache is unusable (C68_blocked_after_panic). Proved for schedules whose unlocked pile updates do not interleave."
  },
  {
   "property": "C69",
   "status": "proved",
   "theorems": [
    "Xcore.V1.Language.C69_get_is_last_written",
    "Xcore.V1.Language.C69_get_without_write",
    "Xcore.V1.Language.C69_same_as_version2",
    "Xcore.V1.Language.C69_loads_as_version2",
    "Xcore.V1.Language.C69_constructors_as_version2",
    "Xcore.V1.Language.C69_without_map"
   ],
   "note": ""
  },
  {
   "property": "C70",
   "status": "proved",
   "theorems": [
    "Xcore.V1.Dataset.C70_get_follows_path",
    "Xcore.V1.Dataset.C70_getBool",
    "Xcore.V1.Dataset.C70_getInt",
    "Xcore.V1.Dataset.C70_getInt_of_large_unsigned",
    "Xcore.V1.Dataset.C70_getFloat",
    "Xcore.V1.Dataset.C70_exact_type_getters",
    "Xcore.V1.Dataset.C70_getString",
    "Xcore.V1.Dataset.C70_printing",
    "Xcore.V1.Dataset.C70_same_reads_as_version2",
    "Xcore.V1.Dataset.C70_conversions_that_differ"
   ],
   "note": ""
  },
  {
   "property": "C71",
   "status": "proved",
   "theorems": [
    "Xcore.V1.Dataset.C71_reachable_heaps_are_well_formed",
    "Xcore.V1.Dataset.C71_get_after_set",
    "Xcore.V1.Dataset.C71_get_after_del",
    "Xcore.V1.Dataset.C71_collection_is_a_sequence",
    "Xcore.V1.Dataset.C71_pop_and_shift_panic_exactly_when_empty",
    "Xcore.V1.Dataset.C71_last_dataset_wins",
    "Xcore.V1.Dataset.C71_typed_lookups",
    "Xcore.V1.Dataset.C71_lookups_as_version2",
    "Xcore.V1.Dataset.C71_same_history_as_version2"
   ],
   "note": ""
  },
  {
   "property": "C72",
   "status": "proved",
   "theorems": [
    "Xcore.V1.Dataset.C72_clone_terminates",
    "Xcore.V1.Dataset.C72_clone_gives_same_answers",
    "Xcore.V1.Dataset.C72_clone_is_not_affected",
    "Xcore.V1.Dataset.C72_original_is_not_affected",
    "Xcore.V1.Dataset.C72_no_shared_dataset_or_collection",
    "Xcore.V1.Dataset.C72_slices_and_languages_are_shared"
   ],
   "note": ""
  },
  {
   "property": "C73",
   "status": "proved",
   "theorems": [
    "Xcore.V1.Template.C73_text_is_read_uniquely",
    "Xcore.V1.Template.C73_no_meta_in_literals",
    "Xcore.V1.Template.C73_error_iff_unbalanced",
    "Xcore.V1.Template.C73_new_iff_balanced",
    "Xcore.V1.Template.C73_compile_builds_document",
    "Xcore.V1.Template.C73_load_builds_document",
    "Xcore.V1.Template.C73_get_template_finds_own_boxes",
    "Xcore.V1.Template.C73_outer_boxes_are_not_seen",
    "Xcore.V1.Template.C73_add_template",
    "Xcore.V1.Template.C73_failed_load",
    "Xcore.V1.Template.C73_files",
    "Xcore.V1.Template.C73_string_lists_elements",
    "Xcore.V1.Template.C73_string_of_new_template_panics"
   ],
   "note": ""
  },
  {
   "property": "C74",
   "status": "proved",
   "theorems": [
    "Xcore.V1.Template.C74_execute_meets_specification",
    "Xcore.V1.Template.C74_execute_is_deterministic",
    "Xcore.V1.Template.C74_plain_text_renders_itself",
    "Xcore.V1.Template.C74_injected_text_is_verbatim"
   ],
   "note": ""
  },
  {
   "property": "C75",
   "status": "proved",
   "theorems": [
    "Xcore.V1.Template.C75_execute_ends",
    "Xcore.V1.Template.C75_recursive_box_ends",
    "Xcore.V1.Template.C75_cyclic_data"
   ],
   "note": ""
  },
  {
   "property": "C76",
   "status": "partial",
   "theorems": [
    "Xcore.V1.Template.C76_execute_panics",
    "Xcore.V1.Template.C76_execute_does_not_panic_partial"
   ],
   "note": "False of the code: C76_execute_panics (loop over a value that is no collection, references with data and nil, nil elements). Proved for data without nil elements whose loop paths lead to collections, and for nil without references with data. When it panics exactly is part of C74."
  },
  {
   "property": "C77",
   "status": "proved",
   "theorems": [
    "Xcore.Language.C77_entries_come_from_calls",
    "Xcore.Language.C77_answers_come_from_calls",
    "Xcore.Language.C77_last_writer_wins",
    "Xcore.Language.C77_undisturbed_entry",
    "Xcore.Language.C77_names_come_from_calls",
    "Xcore.Language.C77_last_name_wins"
   ],
   "note": ""
  },
  {
   "property": "C78",
   "status": "partial",
   "theorems": [
    "Xcore.Language.C78_calls_without_text_loads_are_atomic_partial",
    "Xcore.Language.C78_text_is_seen_in_parts",
    "Xcore.Language.C78_names_of_documents_mix",
    "Xcore.Language.C78_getXML_reads_half_a_document"
   ],
   "note": "False of the code: C78_text_is_seen_in_parts (LoadString takes the lock line by line), C78_names_of_documents_mix and C78_getXML_reads_half_a_document (name and language are set without lock). Proved without LoadString for entries and statuses: calls are atomic."
  },
  {
   "property": "C79",
   "status": "proved",
   "theorems": [
    "Xcore.Template.C79_unloaded_template_says_so"
   ],
   "note": ""
  },
  {
   "property": "C80",
   "status": "proved",
   "theorems": [
    "Xcore.Template.C80_panics_exactly",
    "Xcore.Template.C80_text_or_panic",
    "Xcore.Template.C80_panic_needs_nil_element",
    "Xcore.Template.C80_loop_over_nil_element_gives_no_text",
    "Xcore.Template.C80_path_through_nil_element",
    "Xcore.Template.C80_loop_panics"
   ],
   "note": ""
  },
  {
   "property": "C81",
   "status": "proved",
   "theorems": [
    "Xcore.CacheConc.C81_serial_calls_as_by_one_goroutine",
    "Xcore.CacheConc.C81_same_entries"
   ],
   "note": ""
  },
  {
   "property": "C82",
   "status": "proved",
   "theorems": [
    "Xcore.CollectionConc.C82_calls_in_turns_as_in_sequence",
    "Xcore.CollectionConc.C82_next_call_comes_to_its_end",
    "Xcore.CollectionConc.C82_after_removal_from_empty_nothing_more"
   ],
   "note": ""
  },
  {
   "property": "C83",
   "status": "proved",
   "theorems": [
    "Xcore.V1.CacheConc.C83_serial_calls_as_by_one_goroutine",
    "Xcore.V1.CacheConc.C83_same_entries"
   ],
   "note": ""
  },
  {
   "property": "C84",
   "status": "partial",
   "theorems": [
    "Xcore.Nested.C84_layered_data_never_deadlocks_partial",
    "Xcore.Nested.C84_layered_calls_end_partial",
    "Xcore.Nested.C84_mutual_references_deadlock",
    "Xcore.Nested.C84_no_cycle_at_any_moment_deadlocks",
    "Xcore.Nested.C84_panic_under_lock_deadlocks"
   ],
   "note": "False of the code: C84_mutual_references_deadlock (cyclic references and a waiting writer), C84_no_cycle_at_any_moment_deadlocks (references that move between calls), C84_panic_under_lock_deadlocks. Proved for data whose references go to lower layers, in executions where no panic leaves a lock behind."
  },
  {
   "property": "C85",
   "status": "partial",
   "theorems": [
    "Xcore.Nested.C85_private_data_is_protected",
    "Xcore.Nested.C85_elements_are_protected_partial",
    "Xcore.Nested.C85_two_wrappers_do_not_protect",
    "Xcore.Nested.C85_clone_of_a_collection_is_not_protected"
   ],
   "note": "False of the code for XDatasetCollectionTS.Clone, which takes no lock (C85_clone_of_a_collection_is_not_protected), and for one dataset in two wrappers (C85_two_wrappers_do_not_protect). Proved for private datasets, and for every other method of collections."
  },
  {
   "property": "C86",
   "status": "proved",
   "theorems": [
    "Xcore.Nested.C86_get_undisturbed",
    "Xcore.Nested.C86_getData_undisturbed",
    "Xcore.Nested.C86_set_del_undisturbed",
    "Xcore.Nested.C86_collection_undisturbed"
   ],
   "note": ""
  },
  {
   "property": "C87",
   "status": "partial",
   "theorems": [
    "Xcore.Nested.C87_get_at_one_step_partial",
    "Xcore.Nested.C87_set_del_at_one_step",
    "Xcore.Nested.C87_collection_at_one_step",
    "Xcore.Nested.C87_paths_behind_elements_are_not_atomic"
   ],
   "note": "False of the code for paths that go on behind an element of a collection, because the collection gives its lock back before the element is searched (C87_paths_behind_elements_are_not_atomic). Proved for Get along private datasets up to an element, for Set and Del, and for the methods of collections."
  },
  {
   "property": "C88",
   "status": "proved",
   "theorems": [
    "Xcore.Template.C88_built_templates_are_usable",
    "Xcore.Template.C88_lookup",
    "Xcore.Template.C88_seen",
    "Xcore.Template.C88_execute",
    "Xcore.Template.C88_execute_panics_exactly",
    "Xcore.Template.C88_execute_never_ends_exactly",
    "Xcore.Template.C88_execute_ends",
    "Xcore.Template.C88_not_loaded",
    "Xcore.Template.C88_add",
    "Xcore.Template.C88_added_template_is_a_box",
    "Xcore.Template.C88_added_template_sees_receiver",
    "Xcore.Template.C88_other_templates"
   ],
   "note": ""
  },
  {
   "property": "C89",
   "status": "partial",
   "theorems": [
    "Xcore.Template.C89_adding_elsewhere_changes_rendering",
    "Xcore.Template.C89_self_contained_part_partial"
   ],
   "note": "False of the code: a template has one father, the one it was added to last (C89_adding_elsewhere_changes_rendering). Proved for parts that use no names of the templates around them, and for templates that have nothing to do with the receiver and the part (C88_other_templates)."
  },
  {
   "property": "C90",
   "status": "partial",
   "theorems": [
    "Xcore.Template.C90_lookup_never_returns_exactly",
    "Xcore.Template.C90_cycle_never_returns",
    "Xcore.Template.C90_lookup_returns_partial",
    "Xcore.Template.C90_clone_makes_lookup_endless"
   ],
   "note": "False of the code: after a template was added to itself or to one inside it (C90_cycle_never_returns), or after Clone of a template with shared parts (C90_clone_makes_lookup_endless), the lookup of a missing name never returns. Exactly when is C90_lookup_never_returns_exactly; proved to return for everything made without those calls."
  },
  {
   "property": "C91",
   "status": "proved",
   "theorems": [
    "Xcore.V1.Template.C91_built_templates_are_usable",
    "Xcore.V1.Template.C91_lookup",
    "Xcore.V1.Template.C91_add",
    "Xcore.V1.Template.C91_execute",
    "Xcore.V1.Template.C91_execute_panics_exactly",
    "Xcore.V1.Template.C91_execute_is_deterministic",
    "Xcore.V1.Template.C91_execute_ends",
    "Xcore.V1.Template.C91_not_loaded",
    "Xcore.V1.Template.C91_added_template_is_a_box",
    "Xcore.V1.Template.C91_other_templates",
    "Xcore.V1.Template.C91_self_reference_never_ends"
   ],
   "note": "All conditions are in the statement: that no template was added to itself or to one inside it is needed (C91_self_reference_never_ends)."
  },
  {
   "property": "C92",
   "status": "proved",
   "theorems": [
    "Xcore.Xml.C92_decoder_reads_documents",
    "Xcore.Xml.C92_one_meaning",
    "Xcore.Xml.C92_load_document",
    "Xcore.Xml.C92_load_fails_exactly",
    "Xcore.Xml.C92_v1_load"
   ],
   "note": "Documents with a DOCTYPE, a declaration written otherwise, names with a colon or letters outside of ASCII are outside the modelled part of encoding/xml (Model/Xml.lean); there the model answers an error."
  },
  {
   "property": "C93",
   "status": "proved",
   "theorems": [
    "Xcore.Dataset.C93_integer_is_nearest",
    "Xcore.Dataset.C93_exact",
    "Xcore.Dataset.C93_there_and_back",
    "Xcore.Dataset.C93_order",
    "Xcore.Dataset.C93_same_truth",
    "Xcore.Dataset.C93_float32",
    "Xcore.Dataset.C93_large_integers_are_rounded",
    "Xcore.V1.Dataset.C93_v1"
   ],
   "note": ""
  },
  {
   "property": "C94",
   "status": "proved",
   "theorems": [
    "Xcore.Regexp.C94_expressions_are_valid",
    "Xcore.Regexp.C94_match_is_the_element",
    "Xcore.Regexp.C94_first_pass",
    "Xcore.Regexp.C94_v1_match_is_the_element",
    "Xcore.Regexp.C94_v1_first_pass",
    "Xcore.Regexp.C94_no_unknown_match"
   ],
   "note": "The meaning of the syntax and the order of matches of Go's package regexp are as its documentation says (Model/Regexp.lean); only the part of the syntax the expressions use is modelled."
  },
  {
   "property": "C95",
   "status": "proved",
   "theorems": [
    "Xcore.CacheWords.C95_percentages_do_not_overflow",
    "Xcore.CacheWords.C95_small_products",
    "Xcore.CacheWords.C95_never_panics",
    "Xcore.CacheWords.C95_v1_percentages_do_not_overflow",
    "Xcore.CacheWords.C95_negative_percentage_panics",
    "Xcore.CacheWords.C95_large_percentage_evicts_nothing",
    "Xcore.CacheWords.C95_v1_negative_percentage_panics"
   ],
   "note": ""
  },
  {
   "property": "C96",
   "status": "partial",
   "theorems": [
    "Xcore.Zero.C96_made_tables_return",
    "Xcore.Zero.C96_table_literal_partial",
    "Xcore.Zero.C96_table_literal_read_only_partial",
    "Xcore.Zero.C96_load_into_literal_blocks",
    "Xcore.Zero.C96_made_caches",
    "Xcore.Zero.C96_cache_literal_partial",
    "Xcore.Zero.C96_empty_wrapper",
    "Xcore.Zero.C96_full_wrapper",
    "Xcore.Zero.C96_collection"
   ],
   "note": "Composite literals are not usable as empty objects (documented example included). Proved: exact outcome of every history on the literals, that objects made by the constructors follow the sequential models in all histories, and that histories that write nothing cannot tell a table literal from a new table."
  },
  {
   "property": "C97",
   "status": "partial",
   "theorems": [
    "Xcore.Template.C97_steps_of_one_goroutine_are_execute",
    "Xcore.Template.C97_steps_of_one_goroutine_panic_like_execute",
    "Xcore.Template.C97_goroutines_do_not_disturb_each_other_partial",
    "Xcore.Template.C97_rows_at_two_places_are_disturbed"
   ],
   "note": "False in general: C97_rows_at_two_places_are_disturbed (two lists of the same rows). Proved for all schedules and any number of goroutines when no element depends on counters that other loops may write (Task.Fine): same texts as alone, no panic, no blocking, fixed total number of steps."
  },
  {
   "property": "C98",
   "status": "proved",
   "theorems": [
    "Xcore.CacheValidator.C98_no_call_blocks",
    "Xcore.CacheValidator.C98_only_validators_panic",
    "Xcore.CacheValidator.C98_get_returns_last_set_before",
    "Xcore.CacheValidator.C98_nothing_escapes_eviction",
    "Xcore.CacheValidator.C98_validators_that_only_answer",
    "Xcore.CacheValidator.C98_steps_do_not_matter",
    "Xcore.CacheValidator.C98_refreshed_data_are_not_returned",
    "Xcore.CacheValidator.C98_refreshed_data_are_deleted",
    "Xcore.CacheValidator.C98_get_of_own_key_never_ends",
    "Xcore.CacheValidator.C98_panic_in_get",
    "Xcore.CacheValidator.C98_uninstalled_during_verify"
   ],
   "note": "Validators are arbitrary programs over the API of the cache (Model/CacheValidator), with the mutex explicit. C98_validators_that_only_answer refines this model to the sequential one. Version 1 is C101."
  },
  {
   "property": "C99",
   "status": "partial",
   "theorems": [
    "Xcore.V1.Cache.C99_capacity_and_lost",
    "Xcore.V1.Cache.C99_documented_limit_partial",
    "Xcore.V1.Cache.C99_clean_evicts_lru_partial",
    "Xcore.V1.Cache.C99_set_evicts_lru_partial",
    "Xcore.V1.Cache.C99_unbounded_with_verify",
    "Xcore.V1.Cache.C99_verify_counterexample",
    "Xcore.V1.Cache.C99_small_limit_counterexample"
   ],
   "note": "False of the code: C99_small_limit_counterexample, C99_unbounded_with_verify, C99_verify_counterexample. C99_capacity_and_lost and the two eviction theorems hold in every history."
  },
  {
   "property": "C100",
   "status": "proved",
   "theorems": [
    "Xcore.Page.C100_execute_gives_the_page",
    "Xcore.Page.C100_execute_literal",
    "Xcore.Page.C100_depth",
    "Xcore.Page.C100_the_page_exists",
    "Xcore.Page.C100_execute_ends_with_the_page"
   ],
   "note": "Spec/Page computes the text from trees, without memory; the pages of the documentation (sections 2, 3.3.3, 3.3.4, 3.4) are computed beside the theorems. No dataset is both a row and a field, or a row with two numbers (Holds): for those see C97_rows_at_two_places_are_disturbed. Version 2 only."
  },
  {
   "property": "C101",
   "status": "proved",
   "theorems": [
    "Xcore.V1.CacheValidator.C101_no_call_blocks",
    "Xcore.V1.CacheValidator.C101_after_a_panic_of_clean_all_calls_block",
    "Xcore.V1.CacheValidator.C101_only_validators_panic",
    "Xcore.V1.CacheValidator.C101_get_returns_last_set_before",
    "Xcore.V1.CacheValidator.C101_nothing_escapes_eviction",
    "Xcore.V1.CacheValidator.C101_validators_that_only_answer",
    "Xcore.V1.CacheValidator.C101_steps_do_not_matter",
    "Xcore.V1.CacheValidator.C101_refreshed_data_are_not_returned",
    "Xcore.V1.CacheValidator.C101_refreshed_data_are_deleted",
    "Xcore.V1.CacheValidator.C101_get_of_own_key_never_ends",
    "Xcore.V1.CacheValidator.C101_panic_in_get",
    "Xcore.V1.CacheValidator.C101_uninstalled_during_verify"
   ],
   "note": "As C98, for version 1 (Model/V1/CacheValidator). There Clean unlocks without defer: C101_after_a_panic_of_clean_all_calls_block."
  },
  {
   "property": "C102",
   "status": "proved",
   "theorems": [
    "Xcore.Slices.C102_collections_are_lists",
    "Xcore.Slices.C102_others_do_not_disturb",
    "Xcore.Slices.C102_clone_is_independent",
    "Xcore.Slices.C102_copies_by_assignment_are_disturbed"
   ],
   "note": "C102_copies_by_assignment_are_disturbed is the exact behaviour of copies."
  },
  {
   "property": "C103",
   "status": "proved",
   "theorems": [
    "Xcore.V1.Page.C103_execute_gives_the_page",
    "Xcore.V1.Page.C103_content_exists",
    "Xcore.V1.Page.C103_same_content_same_page",
    "Xcore.V1.Page.C103_printed_form"
   ],
   "note": "The page of the documentation's section 3.4 in Props/V1/Page.lean also shows that the box .none of a condition is never used, although xcore.go:754 says so."
  },
  {
   "property": "C104",
   "status": "proved",
   "theorems": [
    "Xcore.CacheConc.C104_races_exactly",
    "Xcore.CacheConc.C104_what_the_mutex_keeps_apart",
    "Xcore.CacheConc.C104_steps_write_only_their_cells",
    "Xcore.CacheConc.C104_steps_depend_only_on_their_cells",
    "Xcore.CacheConc.C104_count_depends_only_on_its_cells",
    "Xcore.CacheConc.C104_considerate_programs_never_race",
    "Xcore.CacheConc.C104_two_gets_race",
    "Xcore.CacheConc.C104_get_and_setTTL_race",
    "Xcore.CacheConc.C104_verify_races",
    "Xcore.CacheConc.C104_assignments_race"
   ],
   "note": "The documentation calls the cache thread safe; two concurrent Gets of one key are a data race all the same (xcache.go:167 stores the time of reading without the lock). What a Go program does after a race (a crash of the runtime when a map is ranged over and written, torn values) is not modelled."
  },
  {
   "property": "C105",
   "status": "proved",
   "theorems": [
    "Xcore.V1.CacheConc.C105_races_exactly",
    "Xcore.V1.CacheConc.C105_steps_write_only_their_cells",
    "Xcore.V1.CacheConc.C105_steps_depend_only_on_their_cells",
    "Xcore.V1.CacheConc.C105_count_depends_only_on_its_cells",
    "Xcore.V1.CacheConc.C105_considerate_programs_never_race",
    "Xcore.V1.CacheConc.C105_considerate_programs_keep_the_order",
    "Xcore.V1.CacheConc.C105_get_races_with_every_change",
    "Xcore.V1.CacheConc.C105_two_gets_race",
    "Xcore.V1.CacheConc.C105_sets_with_limit_race",
    "Xcore.V1.CacheConc.C105_verify_races",
    "Xcore.V1.CacheConc.C105_assignments_race"
   ],
   "note": "A step that may access a cell is counted as accessing it (removeFromPile writes the pile only if it finds the key, Clean writes the map only if it deletes something). The look of Set at the size of the map and the Clean after it are one step, so a Set that waits for ever for a mutex left locked by a panic is not counted as looking at the size. What a Go program does after a race is not modelled, except for the pile in C68."
  },
  {
   "property": "C106",
   "status": "proved",
   "theorems": [
    "Xcore.LangRace.C106_entries_never_race",
    "Xcore.LangRace.C106_name_races_exactly",
    "Xcore.LangRace.C106_language_races_exactly",
    "Xcore.LangRace.C106_no_race_if_names_are_set_before",
    "Xcore.LangRace.C106_accesses_are_those_of_the_calls",
    "Xcore.LangRace.C106_writes_change_only_their_cell",
    "Xcore.LangRace.C106_one_goroutine_alone",
    "Xcore.LangRace.C106_answers_depend_on_the_cells_read",
    "Xcore.LangRace.C106_version_1_answers_depend_on_the_cells_read",
    "Xcore.LangRace.C106_version_1_races_exactly",
    "Xcore.LangRace.C106_version_1_accesses_are_those_of_the_calls"
   ],
   "note": "An access to a map is an access to the map as a whole, a loop over a map is one access; the mutex is modelled by its contract. Version 1: for tables whose map is not nil."
  },
  {
   "property": "C107",
   "status": "proved",
   "theorems": [
    "Xcore.Nested.C107_histories_are_linearizable",
    "Xcore.Nested.C107_paths_behind_elements_are_not_linearizable"
   ],
   "note": "Refinement to objects whose calls take effect at once (Atomic in Spec/NestedLinear). C107_paths_behind_elements_are_not_linearizable shows why the paths are restricted."
  },
  {
   "property": "C108",
   "status": "proved",
   "theorems": [
    "Xcore.V1.Template.C108_same_skeleton_compile",
    "Xcore.V1.Template.C108_same_skeleton_render",
    "Xcore.V1.Template.C108_comment_leaves_no_trace",
    "Xcore.V1.Template.C108_stray_openers",
    "Xcore.V1.Template.C108_end_of_line_is_swallowed",
    "Xcore.V1.Template.C108_two_characters"
   ],
   "note": "C108_stray_openers shows why opening delimiters in literal text are excluded (also a {{ that is closed in the comment)."
  },
  {
   "property": "C109",
   "status": "proved",
   "theorems": [
    "Xcore.V1.Page.C109_clone_has_the_same_content",
    "Xcore.V1.Page.C109_clone_renders_the_same",
    "Xcore.V1.Page.C109_clone_prints_the_same",
    "Xcore.V1.Page.C109_clone_is_a_snapshot",
    "Xcore.V1.Page.C109_clone_protects_the_data",
    "Xcore.V1.Page.C109_slices_are_shared"
   ],
   "note": "Pointers in datasets are to datasets, collections and language tables (Pointers). C109_slices_are_shared is the exception for slices."
  },
  {
   "property": "C110",
   "status": "proved",
   "theorems": [
    "Xcore.Versions.C110_same_page",
    "Xcore.Versions.C110_same_reading",
    "Xcore.Versions.C110_same_text",
    "Xcore.Versions.C110_differences",
    "Xcore.Versions.C110_differences_of_execute"
   ],
   "note": "C110_differences gives, for each of the conditions on loops, conditions, counters and boxes, data with which the versions differ. Data are trees without addresses (Holds, Content of C100 and C103); names in the data have no `>`."
  },
  {
   "property": "C111",
   "status": "partial",
   "theorems": [
    "Xcore.CacheFiles.C111_never_out_of_date_partial",
    "Xcore.CacheFiles.C111_verified_cache_partial",
    "Xcore.CacheFiles.C111_served_exactly",
    "Xcore.CacheFiles.C111_unchanged_file_is_served",
    "Xcore.CacheFiles.C111_out_of_date",
    "Xcore.CacheFiles.C111_concurrent_never_out_of_date_partial",
    "Xcore.CacheFiles.C111_v1_never_out_of_date_partial",
    "Xcore.CacheFiles.C111_v1_served_exactly"
   ],
   "note": "Partial because the claim needs the conditions on times and on storing: C111_out_of_date shows the three ways in which the cache returns old data for ever. C111_served_exactly gives what is returned without these conditions. Changes of files and steps of calls are interleaved; the check of the validator is one step."
  },
  {
   "property": "C112",
   "status": "partial",
   "theorems": [
    "Xcore.V1.Zero.C112_made_caches",
    "Xcore.V1.Zero.C112_cache_literal_partial",
    "Xcore.V1.Zero.C112_flushed_literal",
    "Xcore.V1.Zero.C112_set_into_literal_blocks",
    "Xcore.V1.Zero.C112_panicking_clean_blocks"
   ],
   "note": "Partial because a literal is not usable as an empty cache; C112_cache_literal_partial gives the exact outcomes of every history on it."
  },
  {
   "property": "C113",
   "status": "proved",
   "theorems": [
    "Xcore.V1.Template.C113_each_gets_its_own_page",
    "Xcore.V1.Template.C113_looks_only_at_its_data",
    "Xcore.V1.Template.C113_changed_data_are_mixed"
   ],
   "note": "Proved. Every access to an object is a step; a type assertion counts as an access."
  },
  {
   "property": "C114",
   "status": "proved",
   "theorems": [
    "Xcore.Template.C114_each_as_if_alone",
    "Xcore.Template.C114_order_does_not_matter",
    "Xcore.Template.C114_while_others_work",
    "Xcore.Template.C114_no_races",
    "Xcore.Template.C114_common_rows_are_mixed"
   ],
   "note": "Proved, for every template. Complements C97, where the data may be shared but templates and data must be of a certain form. Printing a value is one step."
  },
  {
   "property": "C115",
   "status": "proved",
   "theorems": [
    "Xcore.V1.Template.C115_only_named_boxes_matter",
    "Xcore.V1.Template.C115_box_more",
    "Xcore.V1.Template.C115_place_of_boxes",
    "Xcore.V1.Template.C115_names_from_data",
    "Xcore.V1.Template.C115_same_look_same_page",
    "Xcore.V1.Template.C115_every_name_counts"
   ],
   "note": "Proved. The counterpart of C56, sharper because boxes of version 1 do not see those around them."
  },
  {
   "property": "C116",
   "status": "proved",
   "theorems": [
    "Xcore.Template.C116_same_look_same_page",
    "Xcore.Template.C116_same_places_same_page",
    "Xcore.Template.C116_place_of_boxes",
    "Xcore.Template.C116_same_text",
    "Xcore.Template.C116_names_matter",
    "Xcore.Template.C116_every_name_counts"
   ],
   "note": "Proved for all data and templates without conditions. C56 is about unused boxes of texts; this covers templates made in any way and boxes that are used but written elsewhere."
  },
  {
   "property": "C117",
   "status": "proved",
   "theorems": [
    "Xcore.V1.Template.C117_same_data_same_page",
    "Xcore.V1.Template.C117_set_not_looked_up",
    "Xcore.V1.Template.C117_del_not_looked_up",
    "Xcore.V1.Template.C117_printed_data_matter"
   ],
   "note": "Proved. The counterpart of C115 for the data: there the template is changed, here the data. Version 2 writes .counter entries into the rows while it renders, so that data that look the same before need not do so during rendering; C118 is about it."
  },
  {
   "property": "C118",
   "status": "proved",
   "theorems": [
    "Xcore.Template.C118_unseen_entry",
    "Xcore.Template.C118_set_unseen",
    "Xcore.Template.C118_del_unseen",
    "Xcore.Template.C118_set_unseen_panic",
    "Xcore.Template.C118_set_unseen_ends",
    "Xcore.Template.C118_del_unseen_panic",
    "Xcore.Template.C118_del_unseen_ends",
    "Xcore.Template.C118_printed_data_matter",
    "Xcore.Template.C118_cycles_matter",
    "Xcore.Template.C118_every_entry_counts"
   ],
   "note": "Proved. The counterpart for version 2 of the part of C117 about one entry. C118_every_entry_counts shows that the specification of what a path asks for names no entry too many."
  }
 ]
}