{
 "claims": [
  {
   "property": "C01",
   "status": "proved",
   "theorems": [
    "Verif.Lru.C01_constructor",
    "Verif.Lru.C01_accounting_exact",
    "Verif.Lru.C01_budget_respected",
    "Verif.Lru.C01_max_is_last_set"
   ],
   "note": ""
  },
  {
   "property": "C02",
   "status": "proved",
   "theorems": [
    "Verif.Lru.C02_insert_evicts_shortest_lru_run",
    "Verif.Lru.C02_set_max_evicts_shortest_lru_run",
    "Verif.Lru.C02_no_needless_eviction",
    "Verif.Lru.C02_access_makes_most_recent",
    "Verif.Lru.C02_remove_clear_and_rejected"
   ],
   "note": ""
  },
  {
   "property": "C03",
   "status": "proved",
   "theorems": [
    "Verif.Lru.C03_get_returns_first_write",
    "Verif.Lru.C03_results",
    "Verif.Lru.C03_set_then_present",
    "Verif.Lru.C03_other_keys_unchanged_or_evicted"
   ],
   "note": ""
  },
  {
   "property": "C04",
   "status": "proved",
   "theorems": [
    "Verif.CacheFn.C04_agrees_on_present_arguments",
    "Verif.CacheFn.C04_transparent",
    "Verif.CacheFn.C04_called_exactly_on_misses",
    "Verif.CacheFn.C04_stores_exactly_the_new_results",
    "Verif.CacheFn.C04_nonstrict_counterexample"
   ],
   "note": ""
  },
  {
   "property": "C05",
   "status": "proved",
   "theorems": [
    "Verif.Path.C05_parse_toStr",
    "Verif.Path.C05_toStr_injective"
   ],
   "note": ""
  },
  {
   "property": "C06",
   "status": "proved",
   "theorems": [
    "Verif.Path.C06_accepts_exactly_the_grammar",
    "Verif.Path.C06_unambiguous",
    "Verif.Path.C06_parse_terminates",
    "Verif.Path.C06_parse_stable",
    "Verif.Path.C06_canonical"
   ],
   "note": ""
  },
  {
   "property": "C07",
   "status": "proved",
   "theorems": [
    "Verif.Path.C07_bounded_enumeration_exact",
    "Verif.Path.C07_unbounded_enumeration_exact"
   ],
   "note": ""
  },
  {
   "property": "C08",
   "status": "proved",
   "theorems": [
    "Verif.BagManager.FileNames.C08_string_order_is_numeric_order",
    "Verif.BagManager.FileNames.C08_glob_matches_committed_files_only",
    "Verif.BagManager.FileNames.C08_file_names_injective",
    "Verif.BagManager.C08_undisturbed_add_succeeds",
    "Verif.BagManager.C08_create_needs_empty_directory",
    "Verif.BagManager.C08_open_gives_the_latest_version",
    "Verif.BagManager.C08_reopen_sees_committed_state",
    "Verif.BagManager.C08_each_step_is_all_or_nothing",
    "Verif.BagManager.C08_returned_add_is_committed"
   ],
   "note": ""
  },
  {
   "property": "C09",
   "status": "proved",
   "theorems": [
    "Verif.BagManager.C09_default_file_system_counterexample",
    "Verif.BagManager.C09_commits_form_a_linear_history",
    "Verif.BagManager.C09_one_winner_per_update_number",
    "Verif.BagManager.C09_loser_raises",
    "Verif.BagManager.C09_stale_manager_never_commits"
   ],
   "note": ""
  },
  {
   "property": "C10",
   "status": "proved",
   "theorems": [
    "Verif.BagManager.C10_load_exactly_the_needed_bags",
    "Verif.BagManager.C10_dependencies_first",
    "Verif.BagManager.C10_extract_adds_exactly_the_needed_bags"
   ],
   "note": ""
  },
  {
   "property": "C11",
   "status": "proved",
   "theorems": [
    "Verif.BagManager.C11_branch_needs_known_names_and_empty_directory",
    "Verif.BagManager.C11_branch_faithful_and_isolated"
   ],
   "note": ""
  },
  {
   "property": "C12",
   "status": "proved",
   "theorems": [
    "Verif.BagManager.C12_always_well_formed",
    "Verif.BagManager.C12_versions_only_grow",
    "Verif.BagManager.C12_add_rejected_iff_invalid"
   ],
   "note": ""
  },
  {
   "property": "C13",
   "status": "proved",
   "theorems": [
    "Verif.SliceManager.C13_legal",
    "Verif.SliceManager.C13_append_only",
    "Verif.SliceManager.C13_numbers",
    "Verif.SliceManager.C13_shows",
    "Verif.SliceManager.C13_open",
    "Verif.SliceManager.C13_open_invalid",
    "Verif.SliceManager.C13_copy",
    "Verif.SliceManager.C13_create_taken",
    "Verif.SliceManager.C13_create"
   ],
   "note": ""
  },
  {
   "property": "C14",
   "status": "proved",
   "theorems": [
    "Verif.SliceManager.C14_atomic",
    "Verif.SliceManager.C14_update",
    "Verif.SliceManager.C14_resume",
    "Verif.SliceManager.C14_raised_but_committed_finding"
   ],
   "note": ""
  },
  {
   "property": "C15",
   "status": "proved",
   "theorems": [
    "Verif.SliceManager.C15_commits_on_seen",
    "Verif.SliceManager.C15_stale_never_commits",
    "Verif.SliceManager.C15_stale_raises",
    "Verif.SliceManager.C15_rejected",
    "Verif.SliceManager.C15_read_only",
    "Verif.SliceManager.C15_set_read_only",
    "Verif.SliceManager.C15_blocked_finding"
   ],
   "note": ""
  },
  {
   "property": "C16",
   "status": "proved",
   "theorems": [
    "Verif.SliceManager.C16_branch_invalid",
    "Verif.SliceManager.C16_branch",
    "Verif.SliceManager.C16_branch_returns",
    "Verif.SliceManager.C16_isolated",
    "Verif.SliceManager.C16_own_directory"
   ],
   "note": ""
  },
  {
   "property": "C17",
   "status": "proved",
   "theorems": [
    "Verif.SchemaHelper.C17_construct",
    "Verif.SchemaHelper.C17_path",
    "Verif.SchemaHelper.C17_subschema",
    "Verif.SchemaHelper.C17_all_names",
    "Verif.SchemaHelper.C17_leaves",
    "Verif.SchemaHelper.C17_children",
    "Verif.SchemaHelper.C17_parents",
    "Verif.SchemaHelper.C17_descendants",
    "Verif.SchemaHelper.C17_ancestors",
    "Verif.SchemaHelper.C17_invalid_name",
    "Verif.SchemaHelper.C17_needed",
    "Verif.SchemaHelper.C17_needed_invalid",
    "Verif.SchemaHelper.C17_needed_monotone"
   ],
   "note": ""
  },
  {
   "property": "C18",
   "status": "proved",
   "theorems": [
    "Verif.SchemaHelper.C18_names_identify",
    "Verif.SchemaHelper.C18_named",
    "Verif.SchemaHelper.C18_shape"
   ],
   "note": ""
  },
  {
   "property": "C19",
   "status": "proved",
   "theorems": [
    "Verif.View.C19_map_pointwise",
    "Verif.View.C19_map_raises_on_incompatible_shapes",
    "Verif.View.C19_map_needs_an_argument",
    "Verif.View.C19_calls_in_order",
    "Verif.View.C19_expand_to",
    "Verif.View.C19_align",
    "Verif.View.C19_map_ndim",
    "Verif.View.C19_map_rejects_bad_ndim"
   ],
   "note": ""
  },
  {
   "property": "C20",
   "status": "proved",
   "theorems": [
    "Verif.View.C20_implode",
    "Verif.View.C20_explode_undoes_implode",
    "Verif.View.C20_explode",
    "Verif.View.C20_explode_steps",
    "Verif.View.C20_flatten"
   ],
   "note": ""
  },
  {
   "property": "C21",
   "status": "proved",
   "theorems": [
    "Verif.View.C21_inverse_select",
    "Verif.View.C21_inverse_select_rejects",
    "Verif.View.C21_inverse_select_rejects_shapes",
    "Verif.View.C21_inverse_select_undoes_select",
    "Verif.View.C21_select",
    "Verif.View.C21_select_rejects_other_filter_items",
    "Verif.View.C21_select_rejects_different_shapes",
    "Verif.View.C21_select_checks_depths"
   ],
   "note": ""
  },
  {
   "property": "C22",
   "status": "proved",
   "theorems": [
    "Verif.View.C22_group_by",
    "Verif.View.C22_group_by_checks_shapes"
   ],
   "note": ""
  },
  {
   "property": "C23",
   "status": "proved",
   "theorems": [
    "Verif.View.C23_collapse",
    "Verif.View.C23_collapse_checks_ndim",
    "Verif.View.C23_collapse_ignores_order"
   ],
   "note": ""
  },
  {
   "property": "C24",
   "status": "proved",
   "theorems": [
    "Verif.DataList.C24_lists_are_sequences",
    "Verif.DataList.C24_storage_is_invisible",
    "Verif.DataList.C24_read_into_slice"
   ],
   "note": ""
  },
  {
   "property": "C25",
   "status": "proved",
   "theorems": [
    "Verif.BagFork.C25_forks_are_copies",
    "Verif.BagFork.C25_results",
    "Verif.BagFork.C25_only_own_changes",
    "Verif.BagFork.C25_storage_is_invisible",
    "Verif.BagFork.C25_first_present"
   ],
   "note": ""
  },
  {
   "property": "C26",
   "status": "proved",
   "theorems": [
    "Verif.Dict.C26_lookup",
    "Verif.Dict.C26_keys_and_values",
    "Verif.Dict.C26_sorted",
    "Verif.Dict.C26_present_keys"
   ],
   "note": ""
  },
  {
   "property": "C27",
   "status": "proved",
   "theorems": [
    "Verif.Dict.C27_histories",
    "Verif.Dict.C27_clear",
    "Verif.Dict.C27_get_or_assign",
    "Verif.Dict.C27_size",
    "Verif.Dict.C27_modified_keys"
   ],
   "note": ""
  },
  {
   "property": "C28",
   "status": "proved",
   "theorems": [
    "Verif.Schema.C28_all_missing",
    "Verif.Schema.C28_common_schema_is_supremum",
    "Verif.Schema.C28_error",
    "Verif.Schema.C28_supremum_exists",
    "Verif.Schema.C28_order_independent",
    "Verif.Schema.C28_not_schema",
    "Verif.Schema.C28_slice"
   ],
   "note": ""
  },
  {
   "property": "C29",
   "status": "proved",
   "theorems": [
    "Verif.Schema.C29_castable_iff_path",
    "Verif.Schema.C29_partial_order",
    "Verif.Schema.C29_castable_iff_common"
   ],
   "note": ""
  },
  {
   "property": "C30",
   "status": "proved",
   "theorems": [
    "Verif.Base62.C30_positional",
    "Verif.Base62.C30_decode",
    "Verif.Base62.C30_decode_other",
    "Verif.Base62.C30_round_trip",
    "Verif.Base62.C30_onto",
    "Verif.Base62.C30_order",
    "Verif.Base62.C30_item_round_trip",
    "Verif.Base62.C30_item_errors",
    "Verif.Base62.C30_slices",
    "Verif.Base62.C30_item_onto",
    "Verif.Base62.C30_shown_ids",
    "Verif.Base62.C30_shown_ids_differ"
   ],
   "note": ""
  },
  {
   "property": "C31",
   "status": "proved",
   "theorems": [
    "Verif.ObjectId.C31_allocations_are_disjoint",
    "Verif.ObjectId.C31_disjoint_across_reseeds",
    "Verif.ObjectId.C31_calls_succeed",
    "Verif.ObjectId.C31_huge_size_counterexample"
   ],
   "note": ""
  },
  {
   "property": "C32",
   "status": "proved",
   "theorems": [
    "Verif.ObjectId.C32_allocation_size",
    "Verif.ObjectId.C32_id_is_allocation_and_offset",
    "Verif.ObjectId.C32_members",
    "Verif.ObjectId.C32_offset_of_member",
    "Verif.ObjectId.C32_same_allocation",
    "Verif.ObjectId.C32_allocation_keeps_flags",
    "Verif.ObjectId.C32_words_round_trip",
    "Verif.ObjectId.C32_eq_iff",
    "Verif.ObjectId.C32_order"
   ],
   "note": ""
  },
  {
   "property": "C33",
   "status": "proved",
   "theorems": [
    "Verif.ObjectId.C33_members",
    "Verif.ObjectId.C33_insert_reports_new",
    "Verif.ObjectId.C33_equal_iff_same_members"
   ],
   "note": ""
  },
  {
   "property": "C34",
   "status": "proved",
   "theorems": [
    "Verif.Schema.C34_nofollow_success",
    "Verif.Schema.C34_get_nofollowed_of_nofollow",
    "Verif.Schema.C34_reserved_id",
    "Verif.Schema.C34_nofollow_injective",
    "Verif.Schema.C34_nofollow_of_get_nofollowed"
   ],
   "note": ""
  },
  {
   "property": "C35",
   "status": "proved",
   "theorems": [
    "Verif.Uuid.C35_agg_op_is_hash",
    "Verif.Uuid.C35_agg_op_inputs_differ",
    "Verif.Uuid.C35_agg_missing_collides",
    "Verif.Uuid.C35_uuid_is_hash_of_inputs",
    "Verif.Uuid.C35_field_inputs_differ",
    "Verif.Uuid.C35_list_inputs_differ",
    "Verif.Uuid.C35_dict_inputs_differ",
    "Verif.Uuid.C35_agg_inputs_differ",
    "Verif.Uuid.C35_uuids_are_hashes",
    "Verif.Uuid.C35_kinds_of_inputs_are_separate",
    "Verif.Uuid.C35_main_object_inputs_not_separate",
    "Verif.Uuid.C35_field_order",
    "Verif.Uuid.C35_dict_order",
    "Verif.Uuid.C35_slice_is_pointwise",
    "Verif.Uuid.C35_agg_ignores_missing",
    "Verif.Uuid.C35_agg_of_empty_group"
   ],
   "note": ""
  },
  {
   "property": "C36",
   "status": "proved",
   "theorems": [
    "Verif.Uuid.C36_keeps_place",
    "Verif.Uuid.C36_keeps_allocations",
    "Verif.Uuid.C36_is_hash_of_inputs",
    "Verif.Uuid.C36_inputs_differ",
    "Verif.Uuid.C36_slice_is_pointwise",
    "Verif.Uuid.C36_other_slices"
   ],
   "note": ""
  },
  {
   "property": "C37",
   "status": "proved",
   "theorems": [
    "Verif.Stream.C37_read",
    "Verif.Stream.C37_prefix",
    "Verif.Stream.C37_makeReader",
    "Verif.Stream.C37_tryWrite",
    "Verif.Stream.C37_write",
    "Verif.Stream.C37_close",
    "Verif.Stream.C37_finish",
    "Verif.Stream.C37_orphaned",
    "Verif.Stream.C37_capacity"
   ],
   "note": ""
  },
  {
   "property": "C38",
   "status": "proved",
   "theorems": [
    "Verif.Stream.C38_exactly_once",
    "Verif.Stream.C38_at_most",
    "Verif.Stream.C38_subscribe"
   ],
   "note": ""
  },
  {
   "property": "C39",
   "status": "proved",
   "theorems": [
    "Verif.StreamMap.C39_safe",
    "Verif.StreamMap.C39_complete",
    "Verif.StreamMap.C39_terminates",
    "Verif.StreamMap.C39_stable",
    "Verif.StreamMap.C39_cancel"
   ],
   "note": ""
  },
  {
   "property": "C40",
   "status": "proved",
   "theorems": [
    "Verif.StreamMapUnordered.C40_safe",
    "Verif.StreamMapUnordered.C40_complete",
    "Verif.StreamMapUnordered.C40_terminates",
    "Verif.StreamMapUnordered.C40_not_fatal",
    "Verif.StreamMapUnordered.C40_stable",
    "Verif.StreamMapUnordered.C40_cancel"
   ],
   "note": ""
  },
  {
   "property": "C41",
   "status": "proved",
   "theorems": [
    "Verif.StreamChain.C41_chain_safe",
    "Verif.StreamChain.C41_chain_flow",
    "Verif.StreamChain.C41_chain_inputs",
    "Verif.StreamChain.C41_chain_complete",
    "Verif.StreamChain.C41_chain_terminates",
    "Verif.StreamChain.C41_chain_not_fatal",
    "Verif.StreamChain.C41_chain_stable",
    "Verif.StreamChain.C41_chain_add",
    "Verif.StreamInterleave.C41_interleave_safe",
    "Verif.StreamInterleave.C41_interleave_flow",
    "Verif.StreamInterleave.C41_interleave_complete",
    "Verif.StreamInterleave.C41_interleave_inputs",
    "Verif.StreamInterleave.C41_interleave_terminates",
    "Verif.StreamInterleave.C41_interleave_not_fatal",
    "Verif.StreamInterleave.C41_interleave_stable"
   ],
   "note": ""
  },
  {
   "property": "C42",
   "status": "proved",
   "theorems": [
    "Verif.StreamLoop.C42_loop_start",
    "Verif.StreamLoop.C42_loop_items",
    "Verif.StreamLoop.C42_loop_closed",
    "Verif.StreamLoop.C42_loop_complete",
    "Verif.StreamLoop.C42_loop_waits",
    "Verif.StreamLoop.C42_loop_terminates",
    "Verif.StreamLoop.C42_loop_stops",
    "Verif.StreamLoop.C42_loop_cancel",
    "Verif.StreamLoop.C42_loop_stable",
    "Verif.StreamLoop.C42_loop_deterministic",
    "Verif.StreamLoop.C42_reduce_items",
    "Verif.StreamLoop.C42_reduce_closed",
    "Verif.StreamLoop.C42_reduce_complete",
    "Verif.StreamLoop.C42_reduce_waits",
    "Verif.StreamLoop.C42_reduce_terminates",
    "Verif.StreamLoop.C42_reduce_stops",
    "Verif.StreamLoop.C42_reduce_cancel",
    "Verif.StreamLoop.C42_reduce_stable",
    "Verif.StreamLoop.C42_not_resumed"
   ],
   "note": ""
  },
  {
   "property": "C43",
   "status": "proved",
   "theorems": [
    "Verif.Binding.C43_signatures",
    "Verif.Binding.C43_signature_errors",
    "Verif.Binding.C43_bind",
    "Verif.Binding.C43_errors",
    "Verif.Binding.C43_calls",
    "Verif.Binding.C43_default_signature"
   ],
   "note": ""
  },
  {
   "property": "C44",
   "status": "proved",
   "theorems": [
    "Verif.Future.C44_peek",
    "Verif.Future.C44_immutable",
    "Verif.Future.C44_set",
    "Verif.Future.C44_destroy",
    "Verif.Future.C44_no_loss",
    "Verif.Future.C44_exactly_once",
    "Verif.Future.C44_add",
    "Verif.Future.C44_read",
    "Verif.Future.C44_makeReader",
    "Verif.Future.C44_overwritten"
   ],
   "note": ""
  },
  {
   "property": "C45",
   "status": "proved",
   "theorems": [
    "Verif.View.C45_and",
    "Verif.View.C45_and_rejects",
    "Verif.View.C45_or",
    "Verif.View.C45_compare",
    "Verif.View.C45_operators_reject_different_shapes",
    "Verif.View.C45_take"
   ],
   "note": ""
  },
  {
   "property": "C46",
   "status": "proved",
   "theorems": [
    "Verif.ObjectId.C46_ids_show_their_kind",
    "Verif.ObjectId.C46_kinds_are_exclusive",
    "Verif.ObjectId.C46_unspecified_has_no_kind",
    "Verif.ObjectId.C46_like_of_implicit_schema"
   ],
   "note": ""
  },
  {
   "property": "C47",
   "status": "proved",
   "theorems": [
    "Verif.Uuid.C47_fingerprint_is_hash_of_inputs",
    "Verif.Uuid.C47_item_inputs_differ",
    "Verif.Uuid.C47_ambiguous_expression"
   ],
   "note": ""
  },
  {
   "property": "C48",
   "status": "proved",
   "theorems": [
    "Verif.Uuid.C48_one_allocation",
    "Verif.Uuid.C48_inputs_differ",
    "Verif.Uuid.C48_is_hash_of_inputs"
   ],
   "note": ""
  },
  {
   "property": "C49",
   "status": "proved",
   "theorems": [
    "Verif.Binding.C49_stored_signatures",
    "Verif.Binding.C49_read_signatures",
    "Verif.Binding.C49_errors"
   ],
   "note": ""
  },
  {
   "property": "C50",
   "status": "proved",
   "theorems": [
    "Verif.SchemaHelper.C50_schema_bag",
    "Verif.SchemaHelper.C50_paths",
    "Verif.SchemaHelper.C50_request",
    "Verif.SchemaHelper.C50_relationship"
   ],
   "note": ""
  },
  {
   "property": "C51",
   "status": "proved",
   "theorems": [
    "Verif.SchemaHelper.C51_affected",
    "Verif.SchemaHelper.C51_rejected"
   ],
   "note": ""
  },
  {
   "property": "C52",
   "status": "proved",
   "theorems": [
    "Verif.BagAttr.C52_set",
    "Verif.BagAttr.C52_set_other",
    "Verif.BagAttr.C52_get",
    "Verif.BagAttr.C52_set_slice",
    "Verif.BagAttr.C52_set_slice_get",
    "Verif.BagAttr.C52_set_slice_other",
    "Verif.BagAttr.C52_assign",
    "Verif.BagAttr.C52_assign_other",
    "Verif.BagAttr.C52_set_full",
    "Verif.BagAttr.C52_create",
    "Verif.BagAttr.C52_create_other",
    "Verif.BagAttr.C52_create_one",
    "Verif.BagAttr.C52_create_one_frozen",
    "Verif.BagAttr.C52_empty",
    "Verif.BagAttr.C52_fork",
    "Verif.BagAttr.C52_assign_missing_ignored",
    "Verif.BagAttr.C52_assign_missing_witness",
    "Verif.BagAttr.C52_duplicates_witness"
   ],
   "note": ""
  },
  {
   "property": "C53",
   "status": "proved",
   "theorems": [
    "Verif.BagAttr.C53_slice",
    "Verif.BagAttr.C53_with_removed",
    "Verif.BagAttr.C53_full_alloc",
    "Verif.BagAttr.C53_other"
   ],
   "note": ""
  },
  {
   "property": "C54",
   "status": "proved",
   "theorems": [
    "Verif.BagAttr.C54_merge",
    "Verif.BagAttr.C54_error",
    "Verif.BagAttr.C54_succeeds",
    "Verif.BagAttr.C54_overwrite",
    "Verif.BagAttr.C54_keep",
    "Verif.BagAttr.C54_raise",
    "Verif.BagAttr.C54_frozen",
    "Verif.BagAttr.C54_all_removed_witness",
    "Verif.BagAttr.C54_overrun_witness"
   ],
   "note": ""
  },
  {
   "property": "C55",
   "status": "proved",
   "theorems": [
    "Verif.BagAttr.C55_update",
    "Verif.BagAttr.C55_succeeds",
    "Verif.BagAttr.C55_apply"
   ],
   "note": ""
  },
  {
   "property": "C56",
   "status": "proved",
   "theorems": [
    "Verif.BagWorld.C56_isolated",
    "Verif.BagWorld.C56_immutable",
    "Verif.BagWorld.C56_mutable",
    "Verif.BagWorld.C56_failed",
    "Verif.BagWorld.C56_write",
    "Verif.BagWorld.C56_set",
    "Verif.BagWorld.C56_set_slice",
    "Verif.BagWorld.C56_assign",
    "Verif.BagWorld.C56_assign_other",
    "Verif.BagWorld.C56_create",
    "Verif.BagWorld.C56_create_one",
    "Verif.BagWorld.C56_write_immutable"
   ],
   "note": ""
  },
  {
   "property": "C57",
   "status": "proved",
   "theorems": [
    "Verif.BagWorld.C57_new",
    "Verif.BagWorld.C57_fork",
    "Verif.BagWorld.C57_fork_fallbacks",
    "Verif.BagWorld.C57_freeze",
    "Verif.BagWorld.C57_make_immutable",
    "Verif.BagWorld.C57_fallbacks",
    "Verif.BagWorld.C57_fallbacks_mutable",
    "Verif.BagWorld.C57_read",
    "Verif.BagWorld.C57_slice",
    "Verif.BagWorld.C57_merge_fallbacks",
    "Verif.BagWorld.C57_merge_fallbacks_succeeds",
    "Verif.BagWorld.C57_merge_fallbacks_witness"
   ],
   "note": ""
  },
  {
   "property": "C58",
   "status": "proved",
   "theorems": [
    "Verif.BagWorld.C58_merge",
    "Verif.BagWorld.C58_flags",
    "Verif.BagWorld.C58_error",
    "Verif.BagWorld.C58_update",
    "Verif.BagWorld.C58_update_succeeds"
   ],
   "note": ""
  },
  {
   "property": "C59",
   "status": "proved",
   "theorems": [
    "Verif.JsonSalvage.C59_salvage",
    "Verif.JsonSalvage.C59_salvage_no_empty_items",
    "Verif.JsonSalvage.C59_salvage_prefix",
    "Verif.JsonStream.C59_chunks",
    "Verif.JsonStream.C59_no_empty_items",
    "Verif.JsonStream.C59_prefix"
   ],
   "note": ""
  },
  {
   "property": "C60",
   "status": "proved",
   "theorems": [
    "Verif.JsonSalvage.C60_salvage",
    "Verif.JsonStream.C60_input_error",
    "Verif.JsonStream.C60_not_string"
   ],
   "note": ""
  },
  {
   "property": "C61",
   "status": "proved",
   "theorems": [
    "Verif.JsonStream.C61_chunk_row",
    "Verif.JsonStream.C61_chunk_values",
    "Verif.JsonStream.C61_compact_doc",
    "Verif.JsonStream.C61_prettify",
    "Verif.JsonStream.C61_prettify_leading",
    "Verif.JsonStream.C61_pretty_doc"
   ],
   "note": ""
  },
  {
   "property": "C62",
   "status": "proved",
   "theorems": [
    "Verif.JsonStream.C62_head",
    "Verif.JsonStream.C62_head_ends",
    "Verif.JsonStream.C62_select_objects",
    "Verif.JsonStream.C62_select_arrays",
    "Verif.JsonStream.C62_select_nonnull"
   ],
   "note": ""
  },
  {
   "property": "C63",
   "status": "proved",
   "theorems": [
    "Verif.JsonStream.C63_implode",
    "Verif.JsonStream.C63_explode",
    "Verif.JsonStream.C63_round_trip",
    "Verif.JsonStream.C63_nth",
    "Verif.JsonStream.C63_nth_containers",
    "Verif.JsonStream.C63_nth_negative",
    "Verif.JsonStream.C63_nth_scalars"
   ],
   "note": ""
  },
  {
   "property": "C64",
   "status": "proved",
   "theorems": [
    "Verif.JsonStream.C64_quote",
    "Verif.JsonStream.C64_unquote",
    "Verif.JsonStream.C64_round_trip",
    "Verif.JsonStream.C64_lone_surrogate"
   ],
   "note": ""
  },
  {
   "property": "C65",
   "status": "proved",
   "theorems": [
    "Verif.JsonStream.C65_key_values",
    "Verif.JsonStream.C65_key_value",
    "Verif.JsonStream.C65_empty_object",
    "Verif.JsonStream.C65_extract",
    "Verif.JsonStream.C65_path_parts"
   ],
   "note": ""
  },
  {
   "property": "C66",
   "status": "proved",
   "theorems": [
    "Verif.JsonSalvage.C66_valid",
    "Verif.JsonSalvage.C66_json",
    "Verif.JsonSalvage.C66_ascii",
    "Verif.JsonSalvage.C66_number_key_witness"
   ],
   "note": ""
  },
  {
   "property": "C67",
   "status": "proved",
   "theorems": [
    "Verif.JsonSalvage.C67_values"
   ],
   "note": ""
  },
  {
   "property": "C68",
   "status": "proved",
   "theorems": [
    "Verif.JsonSalvage.C68_json_kept"
   ],
   "note": ""
  },
  {
   "property": "C69",
   "status": "proved",
   "theorems": [
    "Verif.JsonSalvage.C69_cut_off"
   ],
   "note": ""
  },
  {
   "property": "C70",
   "status": "proved",
   "theorems": [
    "Verif.JsonSalvage.C70_replaced",
    "Verif.JsonSalvage.C70_total",
    "Verif.JsonSalvage.C70_utf8"
   ],
   "note": ""
  },
  {
   "property": "C71",
   "status": "proved",
   "theorems": [
    "Verif.Traverse.C71_visits",
    "Verif.Traverse.C71_ends",
    "Verif.Traverse.C71_only_visits_fail"
   ],
   "note": ""
  },
  {
   "property": "C72",
   "status": "proved",
   "theorems": [
    "Verif.Traverse.C72_deep_uuid",
    "Verif.Traverse.C72_same_content",
    "Verif.Traverse.C72_value_unique",
    "Verif.Traverse.C72_seed_type",
    "Verif.Traverse.C72_no_clash"
   ],
   "note": ""
  },
  {
   "property": "C73",
   "status": "proved",
   "theorems": [
    "Verif.Traverse.C73_succeeds",
    "Verif.Traverse.C73_cycle_fails",
    "Verif.Traverse.C73_itemid_clash",
    "Verif.Traverse.C73_dict_with_equal_keys"
   ],
   "note": ""
  },
  {
   "property": "C74",
   "status": "proved",
   "theorems": [
    "Verif.Compare.C74_sizes",
    "Verif.Compare.C74_differences",
    "Verif.Compare.C74_equivalent",
    "Verif.Compare.C74_errors",
    "Verif.Compare.C74_ends",
    "Verif.Compare.C74_result",
    "Verif.Compare.C74_self",
    "Verif.Compare.C74_symmetric",
    "Verif.Compare.C74_transitive",
    "Verif.Compare.C74_not_symmetric",
    "Verif.Compare.C74_dict_keys"
   ],
   "note": ""
  },
  {
   "property": "C75",
   "status": "proved",
   "theorems": [
    "Verif.Compare.C75_compatible",
    "Verif.Compare.C75_ends",
    "Verif.Compare.C75_assert",
    "Verif.Compare.C75_result",
    "Verif.Compare.C75_castable",
    "Verif.Compare.C75_object"
   ],
   "note": ""
  },
  {
   "property": "C76",
   "status": "proved",
   "theorems": [
    "Verif.SliceOps.C76_select",
    "Verif.SliceOps.C76_select_expand",
    "Verif.SliceOps.C76_errors"
   ],
   "note": ""
  },
  {
   "property": "C77",
   "status": "proved",
   "theorems": [
    "Verif.SliceOps.C77_inverse_select",
    "Verif.SliceOps.C77_errors",
    "Verif.SliceOps.C77_select_inverse",
    "Verif.SliceOps.C77_inverse_of_select"
   ],
   "note": ""
  },
  {
   "property": "C78",
   "status": "proved",
   "theorems": [
    "Verif.SliceOps.C78_view_determines",
    "Verif.SliceOps.C78_broadcast",
    "Verif.SliceOps.C78_align"
   ],
   "note": ""
  },
  {
   "property": "C79",
   "status": "proved",
   "theorems": [
    "Verif.SliceOps.C79_reverse",
    "Verif.SliceOps.C79_reverse_reverse"
   ],
   "note": ""
  },
  {
   "property": "C80",
   "status": "proved",
   "theorems": [
    "Verif.SliceOps.C80_unique",
    "Verif.SliceOps.C80_unique_sorted",
    "Verif.SliceOps.C80_item",
    "Verif.SliceOps.C80_mixed_nan"
   ],
   "note": ""
  },
  {
   "property": "C81",
   "status": "proved",
   "theorems": [
    "Verif.SliceOps.C81_subslice",
    "Verif.SliceOps.C81_errors",
    "Verif.SliceOps.C81_operator",
    "Verif.SliceOps.C81_take"
   ],
   "note": ""
  },
  {
   "property": "C82",
   "status": "proved",
   "theorems": [
    "Verif.SliceOps.C82_groups",
    "Verif.SliceOps.C82_sorted",
    "Verif.SliceOps.C82_determined",
    "Verif.SliceOps.C82_errors"
   ],
   "note": ""
  },
  {
   "property": "C83",
   "status": "proved",
   "theorems": [
    "Verif.AsyncEval.C83_right",
    "Verif.AsyncEval.C83_value",
    "Verif.AsyncEval.C83_stays",
    "Verif.AsyncEval.C83_same",
    "Verif.AsyncEval.C83_set",
    "Verif.AsyncEval.C83_all",
    "Verif.AsyncEval.C83_ends"
   ],
   "note": ""
  },
  {
   "property": "C84",
   "status": "proved",
   "theorems": [
    "Verif.Clone.C84_clone",
    "Verif.Clone.C84_schemas",
    "Verif.Clone.C84_ends",
    "Verif.Clone.C84_succeeds"
   ],
   "note": ""
  },
  {
   "property": "C85",
   "status": "proved",
   "theorems": [
    "Verif.Functor.C85_order",
    "Verif.Functor.C85_not_functor",
    "Verif.Functor.C85_variables",
    "Verif.Functor.C85_call",
    "Verif.Functor.C85_errors",
    "Verif.Functor.C85_invalid"
   ],
   "note": ""
  },
  {
   "property": "C86",
   "status": "proved",
   "theorems": [
    "Verif.Functor.C86_create",
    "Verif.Functor.C86_errors",
    "Verif.Functor.C86_calls"
   ],
   "note": ""
  },
  {
   "property": "C87",
   "status": "proved",
   "theorems": [
    "Verif.Functor.C87_cache",
    "Verif.Functor.C87_same",
    "Verif.Functor.C87_call",
    "Verif.Functor.C87_immutable",
    "Verif.Functor.C87_bags",
    "Verif.Functor.C87_mutable",
    "Verif.Functor.C87_set"
   ],
   "note": ""
  },
  {
   "property": "C88",
   "status": "proved",
   "theorems": [
    "Verif.While.C88_result",
    "Verif.While.C88_errors",
    "Verif.While.C88_stable",
    "Verif.While.C88_forever",
    "Verif.While.C88_invalid",
    "Verif.While.C88_returns",
    "Verif.While.C88_yields"
   ],
   "note": ""
  },
  {
   "property": "C89",
   "status": "proved",
   "theorems": [
    "Verif.Trampoline.C89_run",
    "Verif.Trampoline.C89_stable",
    "Verif.Trampoline.C89_once",
    "Verif.Trampoline.C89_errors"
   ],
   "note": ""
  },
  {
   "property": "C90",
   "status": "proved",
   "theorems": [
    "Verif.MapFn.C90_map",
    "Verif.MapFn.C90_update",
    "Verif.MapFn.C90_firsts",
    "Verif.MapFn.C90_determined"
   ],
   "note": ""
  },
  {
   "property": "C91",
   "status": "proved",
   "theorems": [
    "Verif.S11n.C91_decode",
    "Verif.S11n.C91_encode",
    "Verif.S11n.C91_roundtrip",
    "Verif.S11n.C91_blocks"
   ],
   "note": ""
  },
  {
   "property": "C92",
   "status": "proved",
   "theorems": [
    "Verif.BagSave.C92_roundtrip",
    "Verif.BagSave.C92_get",
    "Verif.BagSave.C92_get_fallbacks",
    "Verif.BagSave.C92_checked",
    "Verif.BagSave.C92_fails",
    "Verif.BagSave.C92_removals_lost"
   ],
   "note": ""
  },
  {
   "property": "C93",
   "status": "proved",
   "theorems": [
    "Verif.SigCompat.C93_passes",
    "Verif.SigCompat.C93_rejects",
    "Verif.SigCompat.C93_compatible",
    "Verif.SigCompat.C93_missed"
   ],
   "note": ""
  },
  {
   "property": "C94",
   "status": "proved",
   "theorems": [
    "Verif.Visitor.C94_visits",
    "Verif.Visitor.C94_fails",
    "Verif.Visitor.C94_value",
    "Verif.Visitor.C94_sub",
    "Verif.Visitor.C94_sub_fails",
    "Verif.Visitor.C94_sub_by_name",
    "Verif.Visitor.C94_sub_by_name_fails"
   ],
   "note": ""
  },
  {
   "property": "C95",
   "status": "proved",
   "theorems": [
    "Verif.Sanitize.C95_renames",
    "Verif.Sanitize.C95_sanitize_name",
    "Verif.Sanitize.C95_agree",
    "Verif.Sanitize.C95_order",
    "Verif.Sanitize.C95_late"
   ],
   "note": ""
  },
  {
   "property": "C96",
   "status": "proved",
   "theorems": [
    "Verif.Flatten.C96_forest",
    "Verif.Flatten.C96_limit",
    "Verif.Flatten.C96_all",
    "Verif.Flatten.C96_succeeds",
    "Verif.Flatten.C96_follow"
   ],
   "note": ""
  },
  {
   "property": "C97",
   "status": "proved",
   "theorems": [
    "Verif.SliceBuilder.C97_build",
    "Verif.SliceBuilder.C97_codes",
    "Verif.SliceBuilder.C97_arrays"
   ],
   "note": ""
  },
  {
   "property": "C98",
   "status": "proved",
   "theorems": [
    "Verif.TypesBuffer.C98_bitmap",
    "Verif.TypesBuffer.C98_set",
    "Verif.TypesBuffer.C98_types",
    "Verif.TypesBuffer.C98_init"
   ],
   "note": ""
  },
  {
   "property": "C99",
   "status": "proved",
   "theorems": [
    "Verif.Coalesce.C99_coalesce",
    "Verif.Coalesce.C99_disjoint",
    "Verif.Coalesce.C99_sizes",
    "Verif.Coalesce.C99_item",
    "Verif.Coalesce.C99_item_overlap_finding"
   ],
   "note": ""
  },
  {
   "property": "C100",
   "status": "proved",
   "theorems": [
    "Verif.Coalesce.C100_mask",
    "Verif.Coalesce.C100_has",
    "Verif.Coalesce.C100_default",
    "Verif.Coalesce.C100_items"
   ],
   "note": ""
  },
  {
   "property": "C101",
   "status": "proved",
   "theorems": [
    "Verif.EqualOp.C101_equal",
    "Verif.EqualOp.C101_items",
    "Verif.EqualOp.C101_symm"
   ],
   "note": ""
  },
  {
   "property": "C102",
   "status": "proved",
   "theorems": [
    "Verif.NewIds.C102_kinds",
    "Verif.NewIds.C102_distinct",
    "Verif.NewIds.C102_used"
   ],
   "note": ""
  },
  {
   "property": "C103",
   "status": "proved",
   "theorems": [
    "Verif.Reshape.C103_roundtrip",
    "Verif.Reshape.C103_exact",
    "Verif.Reshape.C103_not_identity"
   ],
   "note": ""
  }
 ]
}