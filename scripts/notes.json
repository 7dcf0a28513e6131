{
 "C04": "False as stated: C04_small_limit_counterexample (Maxitems<9), C04_unbounded_after_flush and C04_unbounded_with_expire (expired keys stay in the recency list, so the cache outgrows any bound). Proved for Maxitems>=9 in histories where no Clean, Verify or automatic clean meets an expired entry and Flush is called on an empty cache only. For all histories C04_capacity_and_dropped bounds Count by the limit plus the number of entries found expired or flushed.",
 "C05": "False once a call has found expired entries (C05_expire_counterexample). Proved after every history in which that did not happen; C05_clean_with_expired_partial says what the first such Clean keeps. In all histories the order holds for keys of which no entry was ever found expired or flushed (C05_never_dropped_keys_partial, C05_set_never_dropped_keys_partial).",
 "C07": "False with expired entries (C07_expired_not_counted); proved as long as no call finds any; C07_clean_returns_percentage gives the value returned in all histories.",
 "C09": "Which entries remain: proved in full. The returned number is false with Expire (C09_expired_not_counted); C09_verify_counts_refused gives what is returned in all cases.",
 "C10": "False when later calls evict (C10_flush_counterexample); proved for all answers of every history whose calls evict nothing, with or without limit, plus C10_nothing_survives_flush for all.",
 "C13": "False as stated (C13_completed_set_can_be_lost: a concurrent Get deletes the new entry after judging the old one). Proved when no Get of the key is in progress at the Set. The same can happen to a Set while a Verify of an earlier time goes on over the map that Flush abandoned (C13_verify_deletes_what_was_set_after_flush).",
 "C28": {"status": "partial", "note": "False as stated for methods without deferred unlock: C28_empty_collectionTS_wedges, C28_nil_xdatasetTS_wedges, C28_write_panic_without_defer_wedges, C28_read_panic_without_defer_blocks_writers, C27_panic_blocks_changes. Proved: nothing is left behind if every sequential history is free of such panics (C28_no_lock_is_left_behind), and instances."},
 "C34": "False as stated: loading merges into the table (C34_load_merges). Proved for loading into an empty table.",
 "C17": "False as stated: C17_path_key_is_lost. Proved for keys without '>' and for keys whose first segment is a plain entry; C17_path_key_exactly says for every key with '>' what Get returns after Set.",
 "C19": "False for unsigned values of 2^63 and more: C19_large_unsigned_wraps. Proved for all integer values that fit an int.",
 "C26": "XDatasetCollection proved in full. XDatasetCollectionTS differs (C26_ts_lookups_differ: panic on another type, nil printed as <nil>); proved to agree when these cases do not occur, and exactly what it answers in every case.",
 "C23": "False as stated: C23_slices_and_languages_are_shared. Proved that no dataset or collection is shared.",
 "C22": "Programs are sequences of all modelled dataset and collection calls. Writing elements of a shared slice or a shared language table is C23.",
 "C27": "First half false as stated (C27_lookup_panics, and C27_panic_blocks_changes: the lock is left behind); proved without Pop and Shift. Second half proved for every schedule (C27_value_comes_from_an_element).",
 "C61": "False as stated: C61_unshift_hides_an_element. Proved for programs that only append.",
 "C35": "False as stated, as GetXML escapes nothing: C35_export_may_not_load, C35_entity_in_name, C35_carriage_return, C35_value_adds_entries, C35_status_without_entry. Proved for every table whose texts need no escaping. xml.Unmarshal is modelled for the subset described in Model/Xml.lean.",
 "C44": "False for two-byte line ends: C44_two_characters (of \\r\\n only the \\r is swallowed). Proved that exactly one end-of-line byte is swallowed after every element that swallows.",
 "C49": "False when no negative branch exists: C49_unmet_condition_renders_positive_branch. Proved for every condition that is met, and for unmet ones with a .none template (or with no template at all).",
 "C51": "False: C51_nil_data_panics. Proved for templates without references of two or three parts; C51_nil_data_panics_exactly says for which templates it panics (among those without endless chains of sub-templates).",
 "C52": "False: C52_recursive_box_diverges, and C52_tree_never_ends (a box that renders the children of a node with itself, on finite trees without cycles). C52_never_ends_exactly says for all templates and data when Execute never ends. Proved to end when there is no endless chain of sub-templates that name each other and the data have no cycle; for example when every name used in a document is declared directly in it.",
 "C54": "False: C54_clone_is_not_independent (sub-templates are shared through the father link). Proved for reloading text, for added names nobody refers to, and for templates without sub-templates.",
 "C58": "False: C58_failed_load_changes_template (sub-templates before the error are added). Proved that the text of the template itself is kept, and that a failed constructor changes nothing; C58_failed_load_adds_complete_boxes and C58_load_fails_exactly say which loads fail and what they change.",
 "C59": "False: C59_second_rendering_differs (.counter stays in the rows). Proved for nil, for templates without loops, and for templates with loops that do not read counters of earlier renderings (Steady), any number of times.",
 "C66": "Proved for histories without Verify, and for histories without eviction (Verify included). False in general: C66_verify_counterexample.",
 "C68": "False of the code: one Get and one Set at the same time suffice (C68_present_key_not_tracked), Clean(100) then panics with the mutex locked (C68_clean_panics) and the cache is unusable (C68_blocked_after_panic). Proved for schedules whose unlocked pile updates do not interleave.",
 "C76": "False of the code: C76_execute_panics (loop over a value that is no collection, references with data and nil, nil elements). Proved for data without nil elements whose loop paths lead to collections, and for nil without references with data. When it panics exactly is part of C74.",
 "C78": "False of the code: C78_text_is_seen_in_parts (LoadString takes the lock line by line), C78_names_of_documents_mix and C78_getXML_reads_half_a_document (name and language are set without lock). Proved without LoadString for entries and statuses: calls are atomic.",
 "C84": "False of the code: C84_mutual_references_deadlock (cyclic references and a waiting writer), C84_no_cycle_at_any_moment_deadlocks (references that move between calls), C84_panic_under_lock_deadlocks. Proved for data whose references go to lower layers, in executions where no panic leaves a lock behind.",
 "C85": "False of the code for XDatasetCollectionTS.Clone, which takes no lock (C85_clone_of_a_collection_is_not_protected), and for one dataset in two wrappers (C85_two_wrappers_do_not_protect). Proved for private datasets, and for every other method of collections.",
 "C87": "False of the code for paths that go on behind an element of a collection, because the collection gives its lock back before the element is searched (C87_paths_behind_elements_are_not_atomic). Proved for Get along private datasets up to an element, for Set and Del, and for the methods of collections.",
 "C89": "False of the code: a template has one father, the one it was added to last (C89_adding_elsewhere_changes_rendering). Proved for parts that use no names of the templates around them, and for templates that have nothing to do with the receiver and the part (C88_other_templates).",
 "C90": "False of the code: after a template was added to itself or to one inside it (C90_cycle_never_returns), or after Clone of a template with shared parts (C90_clone_makes_lookup_endless), the lookup of a missing name never returns. Exactly when is C90_lookup_never_returns_exactly; proved to return for everything made without those calls.",
 "C91": "All conditions are in the statement: that no template was added to itself or to one inside it is needed (C91_self_reference_never_ends).",
 "C92": "Documents with a DOCTYPE, a declaration written otherwise, names with a colon or letters outside of ASCII are outside the modelled part of encoding/xml (Model/Xml.lean); there the model answers an error.",
 "C94": "The meaning of the syntax and the order of matches of Go's package regexp are as its documentation says (Model/Regexp.lean); only the part of the syntax the expressions use is modelled.",
 "C06": "Proved in unbounded integers; C95 shows that 64-bit arithmetic makes no difference for percentages between -100 and 100, and that a hugely negative percentage can panic.",
 "C96": "Composite literals are not usable as empty objects (documented example included). Proved: exact outcome of every history on the literals, that objects made by the constructors follow the sequential models in all histories, and that histories that write nothing cannot tell a table literal from a new table.",
 "C97": "False in general: C97_rows_at_two_places_are_disturbed (two lists of the same rows). Proved for all schedules and any number of goroutines when no element depends on counters that other loops may write (Task.Fine): same texts as alone, no panic, no blocking, fixed total number of steps.",
 "C98": "Validators are arbitrary programs over the API of the cache (Model/CacheValidator), with the mutex explicit. C98_validators_that_only_answer refines this model to the sequential one. Version 1 is C101.",
 "C99": "False of the code: C99_small_limit_counterexample, C99_unbounded_with_verify, C99_verify_counterexample. C99_capacity_and_lost and the two eviction theorems hold in every history.",
 "C100": "Spec/Page computes the text from trees, without memory; the pages of the documentation (sections 2, 3.3.3, 3.3.4, 3.4) are computed beside the theorems. No dataset is both a row and a field, or a row with two numbers (Holds): for those see C97_rows_at_two_places_are_disturbed. Version 2 only.",
 "C101": "As C98, for version 1 (Model/V1/CacheValidator). There Clean unlocks without defer: C101_after_a_panic_of_clean_all_calls_block.",
 "C102": "C102_copies_by_assignment_are_disturbed is the exact behaviour of copies.",
 "C103": "The page of the documentation's section 3.4 in Props/V1/Page.lean also shows that the box .none of a condition is never used, although xcore.go:754 says so.",
 "C104": "The documentation calls the cache thread safe; two concurrent Gets of one key are a data race all the same (xcache.go:167 stores the time of reading without the lock). What a Go program does after a race (a crash of the runtime when a map is ranged over and written, torn values) is not modelled.",
 "C105": "A step that may access a cell is counted as accessing it (removeFromPile writes the pile only if it finds the key, Clean writes the map only if it deletes something). The look of Set at the size of the map and the Clean after it are one step, so a Set that waits for ever for a mutex left locked by a panic is not counted as looking at the size. What a Go program does after a race is not modelled, except for the pile in C68.",
 "C106": "An access to a map is an access to the map as a whole, a loop over a map is one access; the mutex is modelled by its contract. Version 1: for tables whose map is not nil.",
 "C107": "Refinement to objects whose calls take effect at once (Atomic in Spec/NestedLinear). C107_paths_behind_elements_are_not_linearizable shows why the paths are restricted.",
 "C108": "C108_stray_openers shows why opening delimiters in literal text are excluded (also a {{ that is closed in the comment).",
 "C109": "Pointers in datasets are to datasets, collections and language tables (Pointers). C109_slices_are_shared is the exception for slices.",
 "C110": "C110_differences gives, for each of the conditions on loops, conditions, counters and boxes, data with which the versions differ. Data are trees without addresses (Holds, Content of C100 and C103); names in the data have no `>`.",
 "C111": "Partial because the claim needs the conditions on times and on storing: C111_out_of_date shows the three ways in which the cache returns old data for ever. C111_served_exactly gives what is returned without these conditions. Changes of files and steps of calls are interleaved; the check of the validator is one step.",
 "C112": "Partial because a literal is not usable as an empty cache; C112_cache_literal_partial gives the exact outcomes of every history on it.",
 "C113": "Proved. Every access to an object is a step; a type assertion counts as an access.",
 "C114": "Proved, for every template. Complements C97, where the data may be shared but templates and data must be of a certain form. Printing a value is one step.",
 "C115": "Proved. The counterpart of C56, sharper because boxes of version 1 do not see those around them.",
 "C116": "Proved for all data and templates without conditions. C56 is about unused boxes of texts; this covers templates made in any way and boxes that are used but written elsewhere.",
 "C117": "Proved. The counterpart of C115 for the data: there the template is changed, here the data. Version 2 writes .counter entries into the rows while it renders, so that data that look the same before need not do so during rendering; C118 is about it.",
 "C118": "Proved. The counterpart for version 2 of the part of C117 about one entry. C118_every_entry_counts shows that the specification of what a path asks for names no entry too many."
}