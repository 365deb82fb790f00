{
 "claims": [
  {
   "property": "C01",
   "status": "proved",
   "theorems": [
    "Treena.C01_conversion",
    "Treena.C01_conversion_back",
    "Treena.C01_order",
    "Treena.C01_default"
   ],
   "note": "for every width k of the ID and w of usize with 0<k<=w"
  },
  {
   "property": "C02",
   "status": "proved",
   "theorems": [
    "Treena.C02_create_root",
    "Treena.C02_create_root_any_state"
   ],
   "note": ""
  },
  {
   "property": "C03",
   "status": "proved",
   "theorems": [
    "Treena.C03_new_ids_are_fresh",
    "Treena.C03_dead_forever",
    "Treena.C03_new_ids_distinct"
   ],
   "note": "every history, including calls that panic half-way"
  },
  {
   "property": "C04",
   "status": "proved",
   "theorems": [
    "Treena.C04_liveness_agrees"
   ],
   "note": "every history, including calls that panic half-way"
  },
  {
   "property": "C05",
   "status": "partial",
   "theorems": [
    "Treena.C05_one_call",
    "Treena.C05_links_consistent_partial",
    "Treena.C05_first_harm",
    "Treena.C05_false"
   ],
   "note": "false of the code: negation proved by a concrete history of calls that all return Ok; proved for every history without harmful calls (in-place re-insert, or remove_hooked whose hook panics before the last call); proved that harmful calls are exactly the calls that destroy consistency"
  },
  {
   "property": "C06",
   "status": "partial",
   "theorems": [
    "Treena.C06_no_cycles_partial",
    "Treena.C06_false"
   ],
   "note": "false of the code: negation proved by a concrete history of calls that all return Ok (parent cycle, ancestors never ends); proved for every history without harmful calls"
  },
  {
   "property": "C07",
   "status": "partial",
   "theorems": [
    "Treena.C07_insert_ok_partial",
    "Treena.C07_insert_moves_partial"
   ],
   "note": "in-place requests excluded: the claim is false there (C08)"
  },
  {
   "property": "C08",
   "status": "partial",
   "theorems": [
    "Treena.C08_insert_only_child_first_partial",
    "Treena.C08_insert_in_place_corrupts",
    "Treena.C08_insert_in_place_details"
   ],
   "note": "false of the code except FirstChildOf of an only child; the failure is proved for every other in-place request"
  },
  {
   "property": "C09",
   "status": "partial",
   "theorems": [
    "Treena.C09_insert_errors_partial",
    "Treena.C09_insert_in_place_result"
   ],
   "note": "false for LastChildOf of an only child (panics); everything else proved"
  },
  {
   "property": "C10",
   "status": "proved",
   "theorems": [
    "Treena.C10_err_leaves_unchanged"
   ],
   "note": "any state, also inconsistent ones"
  },
  {
   "property": "C11",
   "status": "partial",
   "theorems": [
    "Treena.C11_sibling_of_root_unchanged_partial",
    "Treena.C11_sibling_of_root_panics"
   ],
   "note": "forest unchanged is proved; the documented Err is never returned: the code panics, proved"
  },
  {
   "property": "C12",
   "status": "proved",
   "theorems": [
    "Treena.C12_create_insert",
    "Treena.C12_create_insert_failures"
   ],
   "note": ""
  },
  {
   "property": "C13",
   "status": "proved",
   "theorems": [
    "Treena.C13_detach",
    "Treena.C13_detach_root"
   ],
   "note": ""
  },
  {
   "property": "C14",
   "status": "proved",
   "theorems": [
    "Treena.C14_detach_single_child",
    "Treena.C14_detach_single_root",
    "Treena.C14_detach_single_ok_iff"
   ],
   "note": ""
  },
  {
   "property": "C15",
   "status": "proved",
   "theorems": [
    "Treena.C15_remove"
   ],
   "note": ""
  },
  {
   "property": "C16",
   "status": "proved",
   "theorems": [
    "Treena.C16_hook_postorder",
    "Treena.C16_recorded"
   ],
   "note": ""
  },
  {
   "property": "C17",
   "status": "proved",
   "theorems": [
    "Treena.C17_panic_safe"
   ],
   "note": ""
  },
  {
   "property": "C18",
   "status": "proved",
   "theorems": [
    "Treena.C18_removals_agree",
    "Treena.C18_remove_dead_noop"
   ],
   "note": ""
  },
  {
   "property": "C19",
   "status": "proved",
   "theorems": [
    "Treena.C19_depth_first",
    "Treena.C19_dead",
    "Treena.subtree_exists_unique"
   ],
   "note": ""
  },
  {
   "property": "C20",
   "status": "proved",
   "theorems": [
    "Treena.C20_dft_deque",
    "Treena.C21_shallow",
    "Treena.C25_siblings"
   ],
   "note": "for the sibling and shallow iterators the deque statement is part of C21/C25"
  },
  {
   "property": "C21",
   "status": "proved",
   "theorems": [
    "Treena.C21_shallow"
   ],
   "note": ""
  },
  {
   "property": "C22",
   "status": "proved",
   "theorems": [
    "Treena.C22_breadth_first"
   ],
   "note": ""
  },
  {
   "property": "C23",
   "status": "proved",
   "theorems": [
    "Treena.C23_allocating",
    "Treena.C23_size_hint_ends",
    "Treena.C23_agree",
    "Treena.C27_peek_allocating"
   ],
   "note": ""
  },
  {
   "property": "C24",
   "status": "proved",
   "theorems": [
    "Treena.C24_ancestors",
    "Treena.C24_duality"
   ],
   "note": ""
  },
  {
   "property": "C25",
   "status": "proved",
   "theorems": [
    "Treena.C25_siblings"
   ],
   "note": ""
  },
  {
   "property": "C26",
   "status": "proved",
   "theorems": [
    "Treena.C26_fused"
   ],
   "note": "any state, also inconsistent ones"
  },
  {
   "property": "C27",
   "status": "proved",
   "theorems": [
    "Treena.C27_peek",
    "Treena.C27_peek_allocating",
    "Treena.C27_peek_consistent"
   ],
   "note": ""
  },
  {
   "property": "C28",
   "status": "proved",
   "theorems": [
    "Treena.C28_clone_local",
    "Treena.C28_clone_local_overflow"
   ],
   "note": ""
  },
  {
   "property": "C29",
   "status": "proved",
   "theorems": [
    "Treena.C29_clone_foreign",
    "Treena.C29_clone_foreign_overflow"
   ],
   "note": ""
  },
  {
   "property": "C30",
   "status": "proved",
   "theorems": [
    "Treena.C30_mapping_local",
    "Treena.C30_mapping_foreign",
    "Treena.C30_any_callback",
    "Treena.C30_clone_panics"
   ],
   "note": ""
  },
  {
   "property": "C31",
   "status": "proved",
   "theorems": [
    "Treena.C31_nest_builder",
    "Treena.C31_nest_builder_any"
   ],
   "note": ""
  },
  {
   "property": "C32",
   "status": "proved",
   "theorems": [
    "Treena.C32_one_call",
    "Treena.C32_one_call_panics",
    "Treena.C32_chain_builder",
    "Treena.C32_calls_are_forest_calls"
   ],
   "note": ""
  },
  {
   "property": "C33",
   "status": "partial",
   "theorems": [
    "Treena.C33_picture_partial",
    "Treena.C33_single_lines_partial",
    "Treena.C33_never_panics",
    "Treena.C33_dead",
    "Treena.C33_false"
   ],
   "note": "false of the code for data whose text is empty, ends with a newline, has its first newline in its first piece, or is multi-line in a last child below the first level (negations by concrete outputs: C33_false); proved for all other trees, every chunking and every (also failing) sink; never panics: proved without exception"
  },
  {
   "property": "C34",
   "status": "proved",
   "theorems": [
    "Treena.C34_structure_keeps_data",
    "Treena.C34_removal_keeps_surviving_data",
    "Treena.C34_data_mut"
   ],
   "note": "any history state"
  },
  {
   "property": "C35",
   "status": "proved",
   "theorems": [
    "Treena.C35_node_mut",
    "Treena.C35_adopt"
   ],
   "note": "any state"
  },
  {
   "property": "C36",
   "status": "proved",
   "theorems": [
    "Treena.C36_precondition_panics"
   ],
   "note": ""
  },
  {
   "property": "C37",
   "status": "proved",
   "theorems": [
    "Treena.C37_each_node_once"
   ],
   "note": ""
  },
  {
   "property": "C38",
   "status": "partial",
   "theorems": [
    "Treena.C38_calls_return_partial",
    "Treena.C38_reading_returns",
    "Treena.C38_false"
   ],
   "note": "false for insert/try_adopt/adopt with LastChildOf of an only child (proved to panic); everything else proved; accessors and all iterators proved without exception"
  },
  {
   "property": "C39",
   "status": "partial",
   "theorems": [
    "Treena.C39_insert_then_detach_partial",
    "Treena.C39_false",
    "Treena.C39_insert_then_detach_exact_partial"
   ],
   "note": "false for two kinds of in-place requests (witness proved); C84_insert_then_detach_exact shows that it holds for exactly all other inserts that return Ok"
  },
  {
   "property": "C40",
   "status": "proved",
   "theorems": [
    "Treena.C40_remove_drop_panic_corrupts",
    "Treena.C40_remove_hooked_panic_corrupts",
    "Treena.C40_panic_safe_always_consistent"
   ],
   "note": ""
  },
  {
   "property": "C41",
   "status": "proved",
   "theorems": [
    "Treena.C05_one_call",
    "Treena.C05_first_harm",
    "Treena.C08_insert_in_place_corrupts",
    "Treena.C40_remove_hooked_panic_corrupts"
   ],
   "note": "every call of the API, every argument"
  },
  {
   "property": "C42",
   "status": "proved",
   "theorems": [
    "Treena.C42_failure_changes_nothing",
    "Treena.C42_create_insert_failure",
    "Treena.C12_create_insert_failures"
   ],
   "note": ""
  },
  {
   "property": "C43",
   "status": "proved",
   "theorems": [
    "Treena.C43_detach_reinsert"
   ],
   "note": ""
  },
  {
   "property": "C44",
   "status": "proved",
   "theorems": [
    "Treena.C44_detaches_commute"
   ],
   "note": ""
  },
  {
   "property": "C45",
   "status": "proved",
   "theorems": [
    "Treena.C45_last_insert_wins",
    "Treena.C45_move_back"
   ],
   "note": "requests for the place where the node already is are excluded in the statement (C08)"
  },
  {
   "property": "C46",
   "status": "proved",
   "theorems": [
    "Treena.C46_move_then_remove"
   ],
   "note": "every hook, panicking or not"
  },
  {
   "property": "C47",
   "status": "proved",
   "theorems": [
    "Treena.C47_removals_commute"
   ],
   "note": ""
  },
  {
   "property": "C48",
   "status": "proved",
   "theorems": [
    "Treena.C48_clone_then_remove",
    "Treena.C48_clone_remove",
    "Treena.C48_create_remove"
   ],
   "note": ""
  },
  {
   "property": "C49",
   "status": "proved",
   "theorems": [
    "Treena.C49_one_call",
    "Treena.C49_histories",
    "Treena.C49_reading"
   ],
   "note": "any raw state, returning or panicking"
  },
  {
   "property": "C50",
   "status": "proved",
   "theorems": [
    "Treena.C50_proxy_stays_valid",
    "Treena.C50_debug_print"
   ],
   "note": "every state, consistent or not; panicking calls included"
  },
  {
   "property": "C51",
   "status": "proved",
   "theorems": [
    "Treena.C51_clone",
    "Treena.C51_clone_panics",
    "Treena.C51_clone_reads",
    "Treena.C51_clone_equal",
    "Treena.C51_clone_histories"
   ],
   "note": "T::clone assumed not to panic here (derive(Clone) on vectors)"
  },
  {
   "property": "C52",
   "status": "proved",
   "theorems": [
    "Treena.C52_within_capacity"
   ],
   "note": "all histories, including those that corrupt the forest"
  },
  {
   "property": "C53",
   "status": "proved",
   "theorems": [
    "Treena.C53_roots_cover"
   ],
   "note": ""
  },
  {
   "property": "C54",
   "status": "proved",
   "theorems": [
    "Treena.C54_depth_is_generation"
   ],
   "note": ""
  },
  {
   "property": "C57",
   "status": "proved",
   "theorems": [
    "Treena.C57_moves_keep_nodes",
    "Treena.C57_create_adds_one",
    "Treena.C57_copies_add_count",
    "Treena.C57_remove_subtracts"
   ],
   "note": ""
  },
  {
   "property": "C58",
   "status": "proved",
   "theorems": [
    "Treena.C58_traversal_sizes"
   ],
   "note": ""
  },
  {
   "property": "C55",
   "status": "proved",
   "theorems": [
    "Treena.C55_insert",
    "Treena.C55_detach",
    "Treena.C55_remove",
    "Treena.C55_detach_single",
    "Treena.C55_create",
    "Treena.C55_copies"
   ],
   "note": ""
  },
  {
   "property": "C56",
   "status": "proved",
   "theorems": [
    "Treena.C56_copy_looks_alike",
    "Treena.C56_print_depends_on_tree"
   ],
   "note": ""
  },
  {
   "property": "C59",
   "status": "proved",
   "theorems": [
    "Treena.C59_one_result"
   ],
   "note": ""
  },
  {
   "property": "C60",
   "status": "proved",
   "theorems": [
    "Treena.C60_calls",
    "Treena.C60_step",
    "Treena.C60_histories"
   ],
   "note": ""
  },
  {
   "property": "C61",
   "status": "proved",
   "theorems": [
    "Treena.C61_no_hidden_state"
   ],
   "note": ""
  },
  {
   "property": "C62",
   "status": "proved",
   "theorems": [
    "Treena.C62_faithful",
    "Treena.C62_errors_reported"
   ],
   "note": ""
  },
  {
   "property": "C63",
   "status": "proved",
   "theorems": [
    "Treena.C63_any_forest",
    "Treena.C63_consistent_forest",
    "Treena.C63_debug_returns",
    "Treena.C63_histories",
    "Treena.C63_destroyed_forest_differs",
    "Treena.C63_shallow",
    "Treena.C63_breadth_first",
    "Treena.C63_allocating_breadth_first"
   ],
   "note": ""
  },
  {
   "property": "C64",
   "status": "proved",
   "theorems": [
    "Treena.C64_same_iterators",
    "Treena.C64_bft_quadratic",
    "Treena.C64_abft_linear",
    "Treena.C64_bft_worst_case",
    "Treena.C64_bft_not_linear"
   ],
   "note": ""
  },
  {
   "property": "C65",
   "status": "proved",
   "theorems": [
    "Treena.C65_reference",
    "Treena.C65_reference_from",
    "Treena.C65_promised"
   ],
   "note": ""
  },
  {
   "property": "C66",
   "status": "proved",
   "theorems": [
    "Treena.C66_several_forests",
    "Treena.C66_others",
    "Treena.C66_promised"
   ],
   "note": ""
  },
  {
   "property": "C67",
   "status": "proved",
   "theorems": [
    "Treena.C67_local",
    "Treena.C67_foreign",
    "Treena.C67_without_effects",
    "Treena.C67_dead",
    "Treena.C67_log_local",
    "Treena.C67_log_foreign",
    "Treena.C67_forest_clone",
    "Treena.C67_forest_without_effects"
   ],
   "note": ""
  },
  {
   "property": "C68",
   "status": "proved",
   "theorems": [
    "Treena.C68_calls_are_local",
    "Treena.C68_mutations_are_local",
    "Treena.C68_client",
    "Treena.C68_frame",
    "Treena.C68_other_trees"
   ],
   "note": ""
  },
  {
   "property": "C69",
   "status": "proved",
   "theorems": [
    "Treena.C69_the_rest_is_sound",
    "Treena.C69_calls",
    "Treena.C69_client",
    "Treena.C69_one_call",
    "Treena.C69_taint",
    "Treena.C69_copies"
   ],
   "note": ""
  },
  {
   "property": "C70",
   "status": "proved",
   "theorems": [
    "Treena.C70_separate_calls_commute",
    "Treena.C70_separate_mutations_commute",
    "Treena.C70_different_trees_commute"
   ],
   "note": ""
  },
  {
   "property": "C71",
   "status": "proved",
   "theorems": [
    "Treena.C71_exact",
    "Treena.C71_string",
    "Treena.C71_picture_iff"
   ],
   "note": ""
  },
  {
   "property": "C72",
   "status": "proved",
   "theorems": [
    "Treena.C72_shallow",
    "Treena.C72_depth_first",
    "Treena.C72_breadth_first",
    "Treena.C72_ancestors",
    "Treena.C72_siblings"
   ],
   "note": ""
  },
  {
   "property": "C73",
   "status": "proved",
   "theorems": [
    "Treena.C73_rearrange",
    "Treena.C73_reachable_iff"
   ],
   "note": ""
  },
  {
   "property": "C74",
   "status": "proved",
   "theorems": [
    "Treena.C74_same_forest",
    "Treena.C74_ids",
    "Treena.C74_liveness",
    "Treena.C74_data",
    "Treena.C74_data_free",
    "Treena.C74_local",
    "Treena.C74_damage_is_contained"
   ],
   "note": ""
  },
  {
   "property": "C75",
   "status": "proved",
   "theorems": [
    "Treena.C75_dump_shows_links",
    "Treena.C75_dump_shows_structure",
    "Treena.C75_pretty_dump_shows_all",
    "Treena.C75_plain_dump_shows_all",
    "Treena.C75_plain_dump_ambiguous",
    "Treena.C75_ids",
    "Treena.C75_errors"
   ],
   "note": ""
  },
  {
   "property": "C76",
   "status": "proved",
   "theorems": [
    "Treena.C76_calls",
    "Treena.C76_client",
    "Treena.C76_two_types",
    "Treena.C76_clone_foreign",
    "Treena.C76_clone_local",
    "Treena.C76_any_id_type",
    "Treena.C76_macro_lawful",
    "Treena.C76_internal_lawful"
   ],
   "note": ""
  },
  {
   "property": "C77",
   "status": "proved",
   "theorems": [
    "Treena.C77_books",
    "Treena.C77_books_new",
    "Treena.C77_books_release",
    "Treena.C77_handed_over",
    "Treena.C77_watched",
    "Treena.C77_entered",
    "Treena.C77_entered_copies_local",
    "Treena.C77_entered_copies_foreign"
   ],
   "note": ""
  },
  {
   "property": "C78",
   "status": "proved",
   "theorems": [
    "Treena.C78_iterators",
    "Treena.C78_iterators_from",
    "Treena.C78_size_hint",
    "Treena.C78_rest"
   ],
   "note": ""
  },
  {
   "property": "C79",
   "status": "proved",
   "theorems": [
    "Treena.C79_same_functions",
    "Treena.C79_insert",
    "Treena.C79_insert_refused",
    "Treena.C79_create_insert",
    "Treena.C79_detach",
    "Treena.C79_detach_single",
    "Treena.C79_remove",
    "Treena.C79_clone_local",
    "Treena.C79_clone_foreign",
    "Treena.C79_clone_quadratic",
    "Treena.C79_clone_worst_case",
    "Treena.C79_clone_not_linear"
   ],
   "note": ""
  },
  {
   "property": "C80",
   "status": "proved",
   "theorems": [
    "Treena.C80_plain",
    "Treena.C80_calls",
    "Treena.C80_threaded",
    "Treena.C80_never_panics",
    "Treena.C80_dead"
   ],
   "note": ""
  },
  {
   "property": "C81",
   "status": "proved",
   "theorems": [
    "Treena.C81_any_closure",
    "Treena.C81_log",
    "Treena.C81_log_later",
    "Treena.C81_tame",
    "Treena.C81_caught_panic_misplaces",
    "Treena.C81_exchange_reaches_consistency_panic",
    "Treena.C81_exchange_reaches_foreign_nodes"
   ],
   "note": ""
  },
  {
   "property": "C82",
   "status": "proved",
   "theorems": [
    "Treena.C82_call",
    "Treena.C82_builds",
    "Treena.C82_builds_from",
    "Treena.C82_indistinguishable"
   ],
   "note": ""
  },
  {
   "property": "C83",
   "status": "proved",
   "theorems": [
    "Treena.C83_programs",
    "Treena.C83_no_hang"
   ],
   "note": ""
  },
  {
   "property": "C84",
   "status": "proved",
   "theorems": [
    "Treena.C84_damage",
    "Treena.C84_complete",
    "Treena.C84_detach_repairs",
    "Treena.C84_insert_then_detach_exact"
   ],
   "note": ""
  },
  {
   "property": "C85",
   "status": "proved",
   "theorems": [
    "Treena.C85_detach_and_repeat",
    "Treena.C85_mend_last_child",
    "Treena.C85_mend_before_second",
    "Treena.C85_all_kinds"
   ],
   "note": ""
  },
  {
   "property": "C86",
   "status": "proved",
   "theorems": [
    "Treena.C86_next_never_self",
    "Treena.C86_root_has_no_next",
    "Treena.C86_release",
    "Treena.C86_own_prev",
    "Treena.C86_own_parent",
    "Treena.C86_own_first_child",
    "Treena.C86_own_last_child",
    "Treena.C86_next_cycle",
    "Treena.C86_first_child_cycle",
    "Treena.C86_root_with_prev",
    "Treena.C86_dead_next",
    "Treena.C86_dead_first_child",
    "Treena.C86_dead_parent",
    "Treena.C86_traversal_may_never_end"
   ],
   "note": ""
  },
  {
   "property": "C87",
   "status": "proved",
   "theorems": [
    "Treena.C87_exactly_left",
    "Treena.C87_leftover_unremovable"
   ],
   "note": ""
  },
  {
   "property": "C88",
   "status": "proved",
   "theorems": [
    "Treena.C88_loops",
    "Treena.C88_collect"
   ],
   "note": "The provided methods are modelled from std's documented default implementations (Model/StdIter.lean); size_hint-driven reservation in collect is not modelled."
  },
  {
   "property": "C89",
   "status": "proved",
   "theorems": [
    "Treena.C89_copy",
    "Treena.C89_brief",
    "Treena.C89_start",
    "Treena.C89_peek",
    "Treena.C89_next",
    "Treena.C89_consistent",
    "Treena.C89_untainted",
    "Treena.C89_builders",
    "Treena.C89_insert_cause",
    "Treena.C89_create_insert_cause",
    "Treena.C89_insert_can_hang",
    "Treena.C89_create_insert_can_hang",
    "Treena.C89_node_can_hang",
    "Treena.C89_detach_single_can_hang",
    "Treena.C89_remove_can_hang",
    "Treena.C89_print_can_hang",
    "Treena.C89_bft_can_hang",
    "Treena.C89_abft_can_hang",
    "Treena.C89_copy_can_exhaust",
    "Treena.C89_builds_brief",
    "Treena.C89_builds_start_peek",
    "Treena.C89_builds_next",
    "Treena.C89_builds_consistent",
    "Treena.C89_builds_untainted",
    "Treena.C89_builds_builders",
    "Treena.C89_detach_single_cause",
    "Treena.C89_builds_remove_cause",
    "Treena.C89_builds_abft_cause",
    "Treena.C89_builds_print_cause",
    "Treena.C89_bft_cause",
    "Treena.C89_abft_cause",
    "Treena.C89_abft_first",
    "Treena.C89_remove_cause",
    "Treena.C89_drop_cause",
    "Treena.C89_print_cause"
   ],
   "note": "Hanging is exhausted fuel in the model; the fuel lemmas (Proof/Fuel*.lean) show that this means an endless loop. Copying never hangs in any reachable forest (C89_copy, Props/CopyAny.lean)."
  },
  {
   "property": "C90",
   "status": "proved",
   "theorems": [
    "Treena.C90_local",
    "Treena.C90_foreign",
    "Treena.C90_ok",
    "Treena.C90_effects_local",
    "Treena.C90_effects_foreign",
    "Treena.C90_effects_end",
    "Treena.C90_effects_frame",
    "Treena.C90_effects_clone"
   ],
   "note": "The theorems named C90_effects_* are for a T::clone with effects; they refer to the sequence of calls of C67 (replay)."
  },
  {
   "property": "C91",
   "status": "proved",
   "theorems": [
    "Treena.C91_clients_go_on",
    "Treena.C91_calls_are_local",
    "Treena.C91_iterators_are_local",
    "Treena.C91_indistinguishable",
    "Treena.C91_local_copies",
    "Treena.C91_foreign_copies"
   ],
   "note": "The damaged trees are defined by taint in Spec/Local.lean and Spec/LocalRelease.lean; the naive trees are those of C65/C78."
  },
  {
   "property": "C92",
   "status": "proved",
   "theorems": [
    "Treena.C92_look_ups",
    "Treena.C92_start",
    "Treena.C92_next",
    "Treena.C92_next_back",
    "Treena.C92_peek",
    "Treena.C92_clients",
    "Treena.C92_detach",
    "Treena.C92_set_data",
    "Treena.C92_insert",
    "Treena.C92_insert_reachable",
    "Treena.C92_adopt",
    "Treena.C92_create_root",
    "Treena.C92_create_insert",
    "Treena.C92_node_create",
    "Treena.C92_detach_single",
    "Treena.C92_detach_single_simple",
    "Treena.C92_dialogue",
    "Treena.C92_writers",
    "Treena.C92_last_child_needs_two",
    "Treena.C92_allocating_is_not_bounded",
    "Treena.C92_insert_is_not_bounded"
   ],
   "note": "A semantic form of constant time: which nodes are looked at, not the number of machine steps. The removals and copies are not covered (their steps are counted in C79). detach_single is for forests that a history of calls without a damaging one reaches (Models); the others for every forest."
  }
 ]
}