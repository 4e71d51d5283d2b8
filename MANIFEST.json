{
 "claims": [
  {
   "property": "C01",
   "status": "proved",
   "theorems": [
    "Vista.C01_open",
    "Vista.C01_closed",
    "Vista.C01_closed_open",
    "Vista.C01_open_closed",
    "Vista.C01_unbounded"
   ],
   "note": ""
  },
  {
   "property": "C02",
   "status": "proved",
   "theorems": [
    "Vista.C02_partial_order",
    "Vista.C02_encloses_contains",
    "Vista.C02_contains_encloses"
   ],
   "note": ""
  },
  {
   "property": "C03",
   "status": "proved",
   "theorems": [
    "Vista.C03_connected_iff",
    "Vista.C03_reflexive_symmetric",
    "Vista.C03_intersects_eq_connected"
   ],
   "note": ""
  },
  {
   "property": "C04",
   "status": "proved",
   "theorems": [
    "Vista.C04_defined_iff",
    "Vista.C04_greatest",
    "Vista.C04_comm_idem_identity",
    "Vista.C04_assoc"
   ],
   "note": ""
  },
  {
   "property": "C05",
   "status": "proved",
   "theorems": [
    "Vista.C05_span_least",
    "Vista.C05_span_laws",
    "Vista.C05_create_spanning"
   ],
   "note": ""
  },
  {
   "property": "C06",
   "status": "proved",
   "theorems": [
    "Vista.C06_eq_consistent",
    "Vista.C06_eq_equivalence",
    "Vista.C06_empty",
    "Vista.C06_bounds",
    "Vista.C06_repr",
    "Vista.C06_repr_counterexample"
   ],
   "note": ""
  },
  {
   "property": "C07",
   "status": "proved",
   "theorems": [
    "Vista.C07_convex"
   ],
   "note": ""
  },
  {
   "property": "C08",
   "status": "proved",
   "theorems": [
    "Vista.C08_normal_form",
    "Vista.C08_remove_raises"
   ],
   "note": ""
  },
  {
   "property": "C09",
   "status": "proved",
   "theorems": [
    "Vista.C09_membership"
   ],
   "note": ""
  },
  {
   "property": "C10",
   "status": "proved",
   "theorems": [
    "Vista.C10_least",
    "Vista.C10_add_minimal",
    "Vista.C10_history_irrelevant",
    "Vista.C10_order_irrelevant"
   ],
   "note": ""
  },
  {
   "property": "C11",
   "status": "proved",
   "theorems": [
    "Vista.C11_encloses",
    "Vista.C11_encloses_all"
   ],
   "note": ""
  },
  {
   "property": "C12",
   "status": "proved",
   "theorems": [
    "Vista.C12_range_containing"
   ],
   "note": ""
  },
  {
   "property": "C13",
   "status": "proved",
   "theorems": [
    "Vista.C13_intersects"
   ],
   "note": ""
  },
  {
   "property": "C14",
   "status": "proved",
   "theorems": [
    "Vista.C14_ranges_overlapping",
    "Vista.C14_overlapping_without_intersecting_counterexample"
   ],
   "note": ""
  },
  {
   "property": "C15",
   "status": "proved",
   "theorems": [
    "Vista.C15_ranges_enclosed_by"
   ],
   "note": ""
  },
  {
   "property": "C16",
   "status": "proved",
   "theorems": [
    "Vista.C16_rightmost"
   ],
   "note": ""
  },
  {
   "property": "C17",
   "status": "proved",
   "theorems": [
    "Vista.C17_leftmost"
   ],
   "note": ""
  },
  {
   "property": "C18",
   "status": "proved",
   "theorems": [
    "Vista.C18_span",
    "Vista.C18_span_empty"
   ],
   "note": ""
  },
  {
   "property": "C19",
   "status": "proved",
   "theorems": [
    "Vista.C19_pickle",
    "Vista.C19_eq_extensional"
   ],
   "note": ""
  },
  {
   "property": "C20",
   "status": "proved",
   "theorems": [
    "Vista.C20_snapshot_frozen",
    "Vista.C20_build_content",
    "Vista.C20_builder_content",
    "Vista.C20_views",
    "Vista.C20_view_counterexample"
   ],
   "note": ""
  },
  {
   "property": "C21",
   "status": "proved",
   "theorems": [
    "Vista.C21_accepts"
   ],
   "note": ""
  },
  {
   "property": "C22",
   "status": "proved",
   "theorems": [
    "Vista.C22_lookup"
   ],
   "note": ""
  },
  {
   "property": "C23",
   "status": "proved",
   "theorems": [
    "Vista.C23_get_enclosed_by",
    "Vista.C23_rightmost",
    "Vista.C23_leftmost",
    "Vista.C23_pickle"
   ],
   "note": ""
  },
  {
   "property": "C24",
   "status": "proved",
   "theorems": [
    "Vista.C24_has_span",
    "Vista.C24_repr",
    "Vista.C24_constructible",
    "Vista.C24_offsets",
    "Vista.C24_predicates",
    "Vista.C24_trichotomy",
    "Vista.C24_len"
   ],
   "note": ""
  },
  {
   "property": "C25",
   "status": "proved",
   "theorems": [
    "Vista.C25_intersection",
    "Vista.C25_clip_to",
    "Vista.C25_agree"
   ],
   "note": ""
  },
  {
   "property": "C26",
   "status": "proved",
   "theorems": [
    "Vista.C26_shift",
    "Vista.C26_compose",
    "Vista.C26_preserves"
   ],
   "note": ""
  },
  {
   "property": "C27",
   "status": "proved",
   "theorems": [
    "Vista.C27_minimal_enclosing_span",
    "Vista.C27_iterator_raises"
   ],
   "note": ""
  },
  {
   "property": "C28",
   "status": "proved",
   "theorems": [
    "Vista.C28_index"
   ],
   "note": ""
  },
  {
   "property": "C29",
   "status": "proved",
   "theorems": [
    "Vista.C29_accepts",
    "Vista.C29_queries",
    "Vista.C29_get_containing",
    "Vista.C29_equal_items_counterexample"
   ],
   "note": ""
  },
  {
   "property": "C30",
   "status": "proved",
   "theorems": [
    "Vista.AnnotatedText.C30_text_preserved",
    "Vista.AnnotatedText.C30_raises",
    "Vista.AnnotatedText.C30_negative_start_counterexample"
   ],
   "note": ""
  },
  {
   "property": "C31",
   "status": "proved",
   "theorems": [
    "Vista.AnnotatedText.C31_well_nested",
    "Vista.AnnotatedText.C31_same_span_counterexample"
   ],
   "note": ""
  },
  {
   "property": "C32",
   "status": "proved",
   "theorems": [
    "Vista.AnnotatedText.C32_tags",
    "Vista.AnnotatedText.C32_text_between",
    "Vista.C32_of_class"
   ],
   "note": ""
  },
  {
   "property": "C33",
   "status": "proved",
   "theorems": [
    "Vista.AnnotatedText.C33_order_irrelevant"
   ],
   "note": ""
  },
  {
   "property": "C34",
   "status": "proved",
   "theorems": [
    "Vista.IterUtils.C34_complete_windows",
    "Vista.IterUtils.C34_tile_with_pairs"
   ],
   "note": ""
  },
  {
   "property": "C35",
   "status": "proved",
   "theorems": [
    "Vista.IterUtils.C35_partial_windows"
   ],
   "note": ""
  },
  {
   "property": "C36",
   "status": "proved",
   "theorems": [
    "Vista.IterUtils.C36_drop"
   ],
   "note": ""
  },
  {
   "property": "C37",
   "status": "proved",
   "theorems": [
    "Vista.IterUtils.C37_only",
    "Vista.IterUtils.C37_only_counterexample",
    "Vista.IterUtils.C37_get_only"
   ],
   "note": ""
  },
  {
   "property": "C38",
   "status": "proved",
   "theorems": [
    "Vista.IterUtils.C38_non_none",
    "Vista.IterUtils.C38_flatten",
    "Vista.IterUtils.C38_strip_extension",
    "Vista.IterUtils.C38_str_list_limited"
   ],
   "note": ""
  },
  {
   "property": "C39",
   "status": "proved",
   "theorems": [
    "Vista.Digraph.C39_linear_extension",
    "Vista.C39_in_degree"
   ],
   "note": ""
  },
  {
   "property": "C40",
   "status": "proved",
   "theorems": [
    "Vista.Digraph.C40_raises_iff_cyclic",
    "Vista.Digraph.C40_yielded",
    "Vista.Digraph.C40_constructor"
   ],
   "note": ""
  },
  {
   "property": "C41",
   "status": "proved",
   "theorems": [
    "Vista.Params.C41_lookup",
    "Vista.Params.C41_default",
    "Vista.Params.C41_in",
    "Vista.Params.C41_namespace"
   ],
   "note": ""
  },
  {
   "property": "C42",
   "status": "proved",
   "theorems": [
    "Vista.Params.C42_roundtrip",
    "Vista.Params.C42_roundtrip_params",
    "Vista.Params.C42_prefix",
    "Vista.Params.C42_leaves"
   ],
   "note": ""
  },
  {
   "property": "C43",
   "status": "proved",
   "theorems": [
    "Vista.Params.C43_items",
    "Vista.Params.C43_each_once"
   ],
   "note": ""
  },
  {
   "property": "C44",
   "status": "proved",
   "theorems": [
    "Vista.Params.C44_result",
    "Vista.Params.C44_failure",
    "Vista.Params.C44_roundtrip",
    "Vista.Params.C44_empty_name_counterexample",
    "Vista.Params.C44_namespaces"
   ],
   "note": ""
  },
  {
   "property": "C45",
   "status": "proved",
   "theorems": [
    "Vista.Params.C45_conflict",
    "Vista.Params.C45_values",
    "Vista.Params.C45_empty_right",
    "Vista.Params.C45_empty_left",
    "Vista.Params.C45_self",
    "Vista.Params.C45_associative",
    "Vista.Params.C45_associative_counterexample",
    "Vista.Params.C45_mapping",
    "Vista.Params.C45_loaded"
   ],
   "note": ""
  },
  {
   "property": "C46",
   "status": "proved",
   "theorems": [
    "Vista.Params.C46_none_never_overrides",
    "Vista.Params.C46_docstring_counterexample"
   ],
   "note": ""
  },
  {
   "property": "C47",
   "status": "proved",
   "theorems": [
    "Vista.Params.that.C47_get",
    "Vista.Params.that.C47_get_types",
    "Vista.Params.that.C47_string",
    "Vista.Params.that.C47_integer",
    "Vista.Params.that.C47_positive_integer",
    "Vista.Params.that.C47_floating_point",
    "Vista.Params.that.C47_boolean_and_list",
    "Vista.Params.that.C47_namespace",
    "Vista.Params.that.C47_enum",
    "Vista.Params.C47_unprintable_counterexample"
   ],
   "note": ""
  },
  {
   "property": "C48",
   "status": "proved",
   "theorems": [
    "Vista.Params.that.C48_string_integer",
    "Vista.Params.that.C48_positive_integer",
    "Vista.Params.that.C48_floating_point",
    "Vista.Params.that.C48_zero_default_counterexample",
    "Vista.Params.that.C48_integer_default_counterexample",
    "Vista.Params.that.C48_get_optional",
    "Vista.Params.that.C48_boolean_with_default",
    "Vista.Params.that.C48_arbitrary_list",
    "Vista.Params.that.C48_bad_list_default",
    "Vista.Params.that.C48_namespaces"
   ],
   "note": ""
  },
  {
   "property": "C49",
   "status": "proved",
   "theorems": [
    "Vista.Params.that.C49_exactly_one"
   ],
   "note": ""
  },
  {
   "property": "C50",
   "status": "proved",
   "theorems": [
    "Vista.Interp.C50_interpolated",
    "Vista.Interp.C50_unique",
    "Vista.Interp.C50_order_counterexample",
    "Vista.Interp.C50_context_prefix_counterexample"
   ],
   "note": ""
  },
  {
   "property": "C51",
   "status": "proved",
   "theorems": [
    "Vista.Interp.C51_cyclic",
    "Vista.Interp.C51_success",
    "Vista.Interp.C51_errors",
    "Vista.Interp.C51_unresolved",
    "Vista.Interp.C51_embedded",
    "Vista.Interp.C51_top_level",
    "Vista.Interp.C51_self_namespace_counterexample",
    "Vista.Interp.C51_falsy_counterexample",
    "Vista.Interp.C51_through_leaf_counterexample",
    "Vista.Interp.C51_stuck"
   ],
   "note": ""
  },
  {
   "property": "C52",
   "status": "proved",
   "theorems": [
    "Vista.Loader.C52_string",
    "Vista.Loader.C52_load",
    "Vista.Loader.C52_failures",
    "Vista.Loader.C52_layers",
    "Vista.Loader.C52_last_wins",
    "Vista.Loader.C52_success",
    "Vista.Loader.C52_depth",
    "Vista.Loader.C52_dotted_variable",
    "Vista.Loader.C52_cycle",
    "Vista.Loader.C52_keys",
    "Vista.Loader.C52_string_relative"
   ],
   "note": ""
  },
  {
   "property": "C53",
   "status": "proved",
   "theorems": [
    "Vista.Params.C53_absent",
    "Vista.Params.C53_string",
    "Vista.Params.C53_namespace",
    "Vista.Params.C53_type",
    "Vista.Params.C53_expected",
    "Vista.Params.C53_special_factory_counterexample",
    "Vista.Params.C53_special_value_counterexample",
    "Vista.Params.`name`.C53_prefix_counterexample",
    "Vista.Params.`name`.C53_error_counterexample",
    "Vista.Params.`name`.C53_unprintable_counterexample"
   ],
   "note": ""
  },
  {
   "property": "C54",
   "status": "proved",
   "theorems": [
    "Vista.Zip.C54_char",
    "Vista.Zip.C54_bytes",
    "Vista.Zip.C54_collision_counterexample",
    "Vista.Zip.C54_reserved_counterexample"
   ],
   "note": ""
  },
  {
   "property": "C55",
   "status": "proved",
   "theorems": [
    "Vista.Zip.C55_char",
    "Vista.Zip.C55_bytes",
    "Vista.Zip.C55_reuse_counterexample"
   ],
   "note": ""
  },
  {
   "property": "C56",
   "status": "proved",
   "theorems": [
    "Vista.Zip.C56_rejected",
    "Vista.Zip.C56_unchanged",
    "Vista.Zip.C56_bad_value_counterexample",
    "Vista.Zip.C56_after_exit_counterexample"
   ],
   "note": ""
  },
  {
   "property": "C57",
   "status": "proved",
   "theorems": [
    "Vista.Zip.C57_keys"
   ],
   "note": ""
  },
  {
   "property": "C58",
   "status": "proved",
   "theorems": [
    "Vista.C58_items",
    "Vista.C58_items_complete",
    "Vista.C58_path_mapping",
    "Vista.C58_zip",
    "Vista.C58_zip_not_entered"
   ],
   "note": ""
  },
  {
   "property": "C59",
   "status": "proved",
   "theorems": [
    "Vista.C59_interpreted",
    "Vista.C59_get",
    "Vista.C59_compose",
    "Vista.C59_linear",
    "Vista.C59_linear_compose",
    "Vista.C59_items"
   ],
   "note": ""
  },
  {
   "property": "C60",
   "status": "proved",
   "theorems": [
    "Vista.C60_items",
    "Vista.C60_not_entered",
    "Vista.C60_text",
    "Vista.C60_text_undecodable"
   ],
   "note": ""
  },
  {
   "property": "C61",
   "status": "proved",
   "theorems": [
    "Vista.C61_read",
    "Vista.C61_roundtrip",
    "Vista.C61_blank_line_counterexample",
    "Vista.C61_space_counterexample"
   ],
   "note": ""
  },
  {
   "property": "C62",
   "status": "proved",
   "theorems": [
    "Vista.C62_bytes",
    "Vista.C62_char",
    "Vista.C62_not_empty",
    "Vista.C62_index_key_counterexample",
    "Vista.C62_carriage_return_counterexample"
   ],
   "note": ""
  },
  {
   "property": "C63",
   "status": "proved",
   "theorems": [
    "Vista.C63_even_split",
    "Vista.C63_no_keys",
    "Vista.C63_errors"
   ],
   "note": ""
  },
  {
   "property": "C64",
   "status": "proved",
   "theorems": [
    "Vista.C64_join_not_empty",
    "Vista.C64_join",
    "Vista.C64_join_after_split",
    "Vista.C64_missing_input",
    "Vista.C64_own_input_counterexample",
    "Vista.C64_errors",
    "Vista.C64_join_directory"
   ],
   "note": ""
  },
  {
   "property": "C65",
   "status": "proved",
   "theorems": [
    "Vista.C65_explicit_split",
    "Vista.C65_missing_key",
    "Vista.C65_success_exhaustive",
    "Vista.C65_main",
    "Vista.C65_bad_namespace",
    "Vista.ExplicitExample.C65_must_be_exhaustive_counterexample"
   ],
   "note": ""
  },
  {
   "property": "C66",
   "status": "proved",
   "theorems": [
    "Vista.C66_downsample",
    "Vista.C66_python311_counterexample",
    "Vista.C66_errors"
   ],
   "note": ""
  },
  {
   "property": "C67",
   "status": "proved",
   "theorems": [
    "Vista.Memory.C67_parse",
    "Vista.Memory.C67_format",
    "Vista.Memory.C67_unit",
    "Vista.Memory.C67_trailing_counterexample"
   ],
   "note": ""
  },
  {
   "property": "C68",
   "status": "proved",
   "theorems": [
    "Vista.Checkpoints.C68_history",
    "Vista.Checkpoints.C68_errors",
    "Vista.Checkpoints.C68_empty_name_counterexample",
    "Vista.Checkpoints.C68_outside_counterexample"
   ],
   "note": ""
  },
  {
   "property": "C69",
   "status": "proved",
   "theorems": [
    "Vista.SinkBlocks.C69_repr",
    "Vista.C69_memory",
    "Vista.C69_memory_write",
    "Vista.C69_memory_closed",
    "Vista.C69_memory_leave",
    "Vista.C69_string_sink",
    "Vista.C69_source",
    "Vista.C69_lines_exist",
    "Vista.C69_string_source",
    "Vista.C69_file_source",
    "Vista.C69_tgz",
    "Vista.C69_is_empty",
    "Vista.C69_tgz_directory_counterexample",
    "Vista.C69_zip_source",
    "Vista.C69_newlines",
    "Vista.C69_newlines_rule",
    "Vista.C69_file_sink",
    "Vista.C69_file_roundtrip",
    "Vista.C69_zip_entry",
    "Vista.C69_file_lines",
    "Vista.C69_readlines_counterexample"
   ],
   "note": ""
  },
  {
   "property": "C70",
   "status": "proved",
   "theorems": [
    "Vista.Pre.C70_not_none",
    "Vista.Pre.C70_arg_state",
    "Vista.Pre.C70_bad_message",
    "Vista.Pre.C70_args_none",
    "Vista.Pre.C70_instance",
    "Vista.Pre.C70_all_instance",
    "Vista.Pre.C70_opt_instance",
    "Vista.Pre.C70_in",
    "Vista.Pre.C70_raising",
    "Vista.Pre.C70_with_id_scored",
    "Vista.Pre.C70_opt_instance_counterexample",
    "Vista.Pre.C70_non_empty_counterexample"
   ],
   "note": ""
  },
  {
   "property": "C71",
   "status": "proved",
   "theorems": [
    "Vista.C71_output_name",
    "Vista.C71_output_differs",
    "Vista.C71_tar_gz_counterexample",
    "Vista.C71_text_at_offsets",
    "Vista.C71_out_of_bounds",
    "Vista.C71_unreadable",
    "Vista.C71_out_of_bounds_counterexample"
   ],
   "note": ""
  },
  {
   "property": "C72",
   "status": "proved",
   "theorems": [
    "Vista.Params.C72_prefixes",
    "Vista.Params.C72_context_untouched",
    "Vista.Params.C72_evaluates",
    "Vista.Params.C72_imports"
   ],
   "note": ""
  },
  {
   "property": "C73",
   "status": "proved",
   "theorems": [
    "Vista.Params.C73_creatable_directory",
    "Vista.Params.C73_creatable_file",
    "Vista.Params.C73_creatable_empty_directory",
    "Vista.Params.C73_existing_file",
    "Vista.Params.C73_existing_directory",
    "Vista.Params.C73_optional",
    "Vista.Params.C73_not_a_path",
    "Vista.Params.C73_resolve",
    "Vista.Params.C73_resolve_dotdot"
   ],
   "note": ""
  },
  {
   "property": "C74",
   "status": "proved",
   "theorems": [
    "Vista.FromParams.C74_document_map",
    "Vista.FromParams.C74_names",
    "Vista.FromParams.C74_context",
    "Vista.FromParams.C74_zip_source",
    "Vista.FromParams.C74_zip_bytes",
    "Vista.FromParams.C74_zip_chars",
    "Vista.FromParams.C74_file_map_counterexample",
    "Vista.FromParams.C74_zip_sink",
    "Vista.FromParams.C74_directory_sink",
    "Vista.FromParams.C74_roundtrip",
    "Vista.FromParams.C74_custom",
    "Vista.FromParams.C74_unknown_type",
    "Vista.FromParams.C74_no_type",
    "Vista.FromParams.C74_kind",
    "Vista.FromParams.C74_value",
    "Vista.FromParams.C74_string",
    "Vista.FromParams.C74_default_counterexample",
    "Vista.FromParams.C74_string_counterexample",
    "Vista.FromParams.C74_directory_counterexample"
   ],
   "note": ""
  },
  {
   "property": "C75",
   "status": "proved",
   "theorems": [
    "Vista.C75_earliest_then_longest",
    "Vista.C75_order_irrelevant"
   ],
   "note": ""
  },
  {
   "property": "C76",
   "status": "proved",
   "theorems": [
    "Vista.Params.that.C76_sub_namespaces"
   ],
   "note": ""
  },
  {
   "property": "C77",
   "status": "proved",
   "theorems": [
    "Vista.Params.C77_namespace",
    "Vista.Params.C77_string",
    "Vista.Params.C77_absent",
    "Vista.Params.C77_optional",
    "Vista.Params.C77_errors",
    "Vista.Params.C77_number_counterexample"
   ],
   "note": ""
  },
  {
   "property": "C78",
   "status": "proved",
   "theorems": [
    "Vista.Params.C78_written",
    "Vista.Params.C78_same",
    "Vista.Params.C78_roundtrip",
    "Vista.Params.C78_none_counterexample"
   ],
   "note": ""
  },
  {
   "property": "C79",
   "status": "proved",
   "theorems": [
    "Vista.C79_line_breaks",
    "Vista.C79_white_space",
    "Vista.Params.C79_path_list_file",
    "Vista.Params.C79_path_list_unreadable",
    "Vista.Params.C79_path_list_inline",
    "Vista.Params.C79_path_list_errors",
    "Vista.Params.C79_path_map",
    "Vista.Params.C79_files",
    "Vista.Params.C79_path_list_lines",
    "Vista.Params.PathListExample.C79_inline_comment_counterexample"
   ],
   "note": ""
  },
  {
   "property": "C80",
   "status": "proved",
   "theorems": [
    "Vista.C80_strip_extension",
    "Vista.C80_flatten",
    "Vista.C80_str_list",
    "Vista.C80_pathify"
   ],
   "note": ""
  },
  {
   "property": "C81",
   "status": "proved",
   "theorems": [
    "Vista.Logging.C81_root_level",
    "Vista.Logging.C81_printed",
    "Vista.Logging.C81_config_file",
    "Vista.Logging.C81_log_params",
    "Vista.Logging.C81_twice_counterexample"
   ],
   "note": ""
  },
  {
   "property": "C82",
   "status": "proved",
   "theorems": [
    "Vista.DirToStore.C82_not_empty",
    "Vista.DirToStore.C82_keys",
    "Vista.DirToStore.C82_zip",
    "Vista.DirToStore.C82_directory",
    "Vista.DirToStore.C82_errors",
    "Vista.DirToStore.C82_lost_file_counterexample",
    "Vista.DirToStore.C82_subdirectory_counterexample"
   ],
   "note": ""
  },
  {
   "property": "C83",
   "status": "proved",
   "theorems": [
    "Vista.Logging.C83_override",
    "Vista.Logging.C83_strings_only",
    "Vista.Logging.C83_runs",
    "Vista.Logging.C83_given_counterexample",
    "Vista.Logging.C83_values"
   ],
   "note": ""
  },
  {
   "property": "C84",
   "status": "proved",
   "theorems": [
    "Vista.TarToZip.C84_places",
    "Vista.TarToZip.C84_stream",
    "Vista.TarToZip.C84_reading",
    "Vista.TarToZip.C84_no_tar",
    "Vista.TarToZip.C84_bad_output",
    "Vista.TarToZip.C84_dont_stream",
    "Vista.TarToZip.C84_no_tar_counterexample",
    "Vista.TarToZip.C84_overwrites_counterexample",
    "Vista.TarToZip.C84_directory_counterexample"
   ],
   "note": ""
  },
  {
   "property": "C85",
   "status": "proved",
   "theorems": [
    "Vista.TarLife.C85_items",
    "Vista.TarLife.C85_open",
    "Vista.TarLife.C85_progress",
    "Vista.TarLife.C85_enter",
    "Vista.TarLife.C85_exit",
    "Vista.TarLife.C85_generator",
    "Vista.TarLife.C85_never_entered",
    "Vista.TarLife.C85_left_unnoticed_counterexample"
   ],
   "note": ""
  },
  {
   "property": "C86",
   "status": "proved",
   "theorems": [
    "Vista.AnnotatedText.C86_strip",
    "Vista.AnnotatedText.C86_read_back",
    "Vista.AnnotatedText.C86_attribute_order",
    "Vista.AnnotatedText.C86_no_escaping_counterexample",
    "Vista.AnnotatedText.C86_same_span_counterexample"
   ],
   "note": ""
  },
  {
   "property": "C87",
   "status": "proved",
   "theorems": [
    "Vista.LazyIter.C87_windowed_accepts",
    "Vista.LazyIter.C87_windowed",
    "Vista.LazyIter.C87_windowed_endless",
    "Vista.LazyIter.C87_windowed_calls",
    "Vista.LazyIter.C87_drop",
    "Vista.LazyIter.C87_only",
    "Vista.LazyIter.C87_get_only",
    "Vista.LazyIter.C87_non_none_returns",
    "Vista.LazyIter.C87_non_none_runs",
    "Vista.LazyIter.C87_non_none"
   ],
   "note": ""
  },
  {
   "property": "C88",
   "status": "proved",
   "theorems": [
    "Vista.Pickled.C88_constants",
    "Vista.Pickled.C88_range",
    "Vista.Pickled.C88_encloses",
    "Vista.Pickled.C88_range_set",
    "Vista.Pickled.C88_range_map"
   ],
   "note": ""
  },
  {
   "property": "C89",
   "status": "proved",
   "theorems": [
    "Vista.Attrs.C89_declarations",
    "Vista.Attrs.C89_order",
    "Vista.Attrs.C89_construct",
    "Vista.Attrs.C89_class",
    "Vista.Attrs.C89_builders"
   ],
   "note": ""
  },
  {
   "property": "C90",
   "status": "proved",
   "theorems": [
    "Vista.ClassUtils.C90_name",
    "Vista.ClassUtils.C90_injective",
    "Vista.ClassUtils.C90_collision_counterexample",
    "Vista.ClassUtils.C90_evaluate",
    "Vista.ClassUtils.C90_builtin",
    "Vista.ClassUtils.C90_shadowed",
    "Vista.ClassUtils.C90_nested_counterexample",
    "Vista.ClassUtils.C90_import",
    "Vista.ClassUtils.C90_local_counterexample"
   ],
   "note": ""
  },
  {
   "property": "C91",
   "status": "proved",
   "theorems": [
    "Vista.Checkpoints.C91_history",
    "Vista.Checkpoints.C91_restart",
    "Vista.Checkpoints.C91_reset_counterexample",
    "Vista.Checkpoints.C91_gone_counterexample"
   ],
   "note": ""
  },
  {
   "property": "C92",
   "status": "proved",
   "theorems": [
    "Vista.C92_killed",
    "Vista.C92_no_index",
    "Vista.C92_restart",
    "Vista.C92_wrong_value_counterexample",
    "Vista.C92_lost_key_counterexample"
   ],
   "note": ""
  },
  {
   "property": "C93",
   "status": "proved",
   "theorems": [
    "Vista.C93_killed",
    "Vista.C93_again",
    "Vista.C93_raises",
    "Vista.C93_old_content_counterexample"
   ],
   "note": ""
  },
  {
   "property": "C94",
   "status": "proved",
   "theorems": [
    "Vista.Concurrent.C94_consistent",
    "Vista.Concurrent.C94_files",
    "Vista.Concurrent.C94_finite",
    "Vista.Concurrent.C94_progress",
    "Vista.Concurrent.C94_alone",
    "Vista.Concurrent.C94_killed",
    "Vista.Concurrent.C94_reset_counterexample"
   ],
   "note": ""
  },
  {
   "property": "C95",
   "status": "proved",
   "theorems": [
    "Vista.SinkBlocks.C95_nowhere",
    "Vista.SinkBlocks.C95_nowhere_accepts",
    "Vista.SinkBlocks.C95_string",
    "Vista.SinkBlocks.C95_file",
    "Vista.SinkBlocks.C95_write",
    "Vista.SinkBlocks.C95_iterator_counterexample",
    "Vista.SinkBlocks.C95_closed_counterexample",
    "Vista.SinkBlocks.C95_count_counterexample"
   ],
   "note": ""
  },
  {
   "property": "C96",
   "status": "proved",
   "theorems": [
    "Vista.ZipImage.C96_char",
    "Vista.ZipImage.C96_bytes",
    "Vista.ZipImage.C96_values",
    "Vista.ZipImage.C96_overwrite",
    "Vista.ZipImage.C96_append_counterexample"
   ],
   "note": ""
  },
  {
   "property": "C97",
   "status": "proved",
   "theorems": [
    "Vista.Zip.C97_create",
    "Vista.Zip.C97_life",
    "Vista.Zip.C97_reuse",
    "Vista.Zip.C97_source",
    "Vista.Zip.C97_keys_function",
    "Vista.Zip.C97_keys_function_counterexample",
    "Vista.Zip.C97_reuse_counterexample"
   ],
   "note": ""
  },
  {
   "property": "C98",
   "status": "proved",
   "theorems": [
    "Vista.DirLife.C98_life",
    "Vista.DirLife.C98_determined",
    "Vista.DirLife.C98_once",
    "Vista.DirLife.C98_source",
    "Vista.DirLife.C98_second_block_counterexample",
    "Vista.DirLife.C98_late_put_counterexample",
    "Vista.DirLife.C98_two_sinks_counterexample"
   ],
   "note": ""
  },
  {
   "property": "C99",
   "status": "proved",
   "theorems": [
    "Vista.ParamsHeap.C99_from_mapping",
    "Vista.ParamsHeap.C99_cycle",
    "Vista.ParamsHeap.C99_pairs",
    "Vista.ParamsHeap.C99_nested_dicts",
    "Vista.ParamsHeap.C99_caller_changed_counterexample",
    "Vista.ParamsHeap.C99_set_twice_counterexample"
   ],
   "note": ""
  },
  {
   "property": "C100",
   "status": "proved",
   "theorems": [
    "Vista.ParamsEq.C100_eq",
    "Vista.ParamsEq.C100_equivalence",
    "Vista.ParamsEq.C100_lookup",
    "Vista.ParamsEq.C100_string",
    "Vista.ParamsEq.C100_namespace",
    "Vista.ParamsEq.C100_from_mapping",
    "Vista.ParamsEq.C100_nested_dicts",
    "Vista.ParamsEq.C100_unify",
    "Vista.ParamsEq.C100_hash",
    "Vista.ParamsEq.C100_hashable",
    "Vista.ParamsEq.C100_numbers_counterexample",
    "Vista.ParamsEq.C100_order_counterexample",
    "Vista.ParamsEq.C100_prefix_counterexample"
   ],
   "note": ""
  },
  {
   "property": "C101",
   "status": "proved",
   "theorems": [
    "Vista.C101_even_split",
    "Vista.C101_explicit_split",
    "Vista.C101_errors",
    "Vista.C101_downsample",
    "Vista.C101_split_and_join",
    "Vista.C101_file_map_counterexample",
    "Vista.C101_file_map_sample_counterexample"
   ],
   "note": ""
  },
  {
   "property": "C102",
   "status": "proved",
   "theorems": [
    "Vista.C102_join_directory",
    "Vista.C102_join_gone_counterexample",
    "Vista.C102_even_split",
    "Vista.C102_explicit_split",
    "Vista.C102_downsample",
    "Vista.C102_downsample_script",
    "Vista.C102_join",
    "Vista.C102_torn",
    "Vista.C102_old_output_counterexample",
    "Vista.C102_short_list_counterexample"
   ],
   "note": ""
  },
  {
   "property": "C103",
   "status": "proved",
   "theorems": [
    "Vista.TarToZip.C103_stream",
    "Vista.TarToZip.C103_dont_stream",
    "Vista.DirToStore.C103_zip",
    "Vista.DirToStore.C103_directory",
    "Vista.DirToStore.C103_gone_counterexample",
    "Vista.TarToZip.C103_old_zip_counterexample",
    "Vista.TarToZip.C103_leftover_counterexample"
   ],
   "note": ""
  },
  {
   "property": "C104",
   "status": "proved",
   "theorems": [
    "Vista.ParamsLists.C104_from_mapping",
    "Vista.ParamsLists.C104_nested_dicts",
    "Vista.ParamsLists.C104_items",
    "Vista.ParamsLists.C104_pairs",
    "Vista.ParamsLists.C104_lookup",
    "Vista.ParamsLists.C104_contains",
    "Vista.ParamsLists.C104_unify",
    "Vista.ParamsLists.C104_unify_mapping",
    "Vista.ParamsLists.C104_namespace",
    "Vista.ParamsLists.C104_arbitrary_list",
    "Vista.ParamsLists.C104_not_a_snapshot_counterexample"
   ],
   "note": ""
  },
  {
   "property": "C105",
   "status": "proved",
   "theorems": [
    "Vista.Mixed.C105_make",
    "Vista.Mixed.C105_contains",
    "Vista.Mixed.C105_comparable",
    "Vista.Mixed.C105_incomparable",
    "Vista.Mixed.C105_add",
    "Vista.Mixed.C105_add_all",
    "Vista.Mixed.C105_history",
    "Vista.Mixed.C105_lookup",
    "Vista.Mixed.C105_encloses",
    "Vista.Mixed.C105_map",
    "Vista.Mixed.C105_map_lookup",
    "Vista.Mixed.C105_everything_counterexample",
    "Vista.Mixed.C105_rightmost_counterexample"
   ],
   "note": ""
  },
  {
   "property": "C106",
   "status": "proved",
   "theorems": [
    "Vista.Zip.Keyed.C106_create",
    "Vista.Zip.Keyed.C106_values",
    "Vista.Zip.Keyed.C106_put",
    "Vista.Zip.Keyed.C106_enter",
    "Vista.Zip.Keyed.C106_exit",
    "Vista.Zip.Keyed.C106_while_open",
    "Vista.Zip.Keyed.C106_nothing_lost",
    "Vista.Zip.Keyed.C106_failed_enter",
    "Vista.Zip.Keyed.C106_failed_enter_counterexample",
    "Vista.Zip.Keyed.C106_defaults"
   ],
   "note": ""
  },
  {
   "property": "C107",
   "status": "proved",
   "theorems": [
    "Vista.Numeric.C107_factories",
    "Vista.Numeric.C107_unbounded",
    "Vista.Numeric.C107_nan_in",
    "Vista.Numeric.C107_nan_endpoint",
    "Vista.Numeric.C107_ranges",
    "Vista.Numeric.C107_equality",
    "Vista.Numeric.C107_sets",
    "Vista.Numeric.C107_membership",
    "Vista.Numeric.C107_nan_queries",
    "Vista.Numeric.C107_maps",
    "Vista.Numeric.C107_map_accepts",
    "Vista.Numeric.C107_map_lookup",
    "Vista.Numeric.C107_shrink_counterexample"
   ],
   "note": ""
  },
  {
   "property": "C108",
   "status": "proved",
   "theorems": [
    "Vista.NumParams.C108_numbers",
    "Vista.NumParams.C108_valid_range",
    "Vista.NumParams.C108_no_range",
    "Vista.NumParams.C108_nan",
    "Vista.NumParams.C108_optional",
    "Vista.NumParams.C108_nan_at_most_counterexample"
   ],
   "note": ""
  },
  {
   "property": "C109",
   "status": "proved",
   "theorems": [
    "Vista.DirKeys.C109_bytes",
    "Vista.DirKeys.C109_char",
    "Vista.DirKeys.C109_ok_iff",
    "Vista.DirKeys.C109_once",
    "Vista.DirKeys.C109_escape_counterexample",
    "Vista.DirKeys.C109_index_counterexample"
   ],
   "note": ""
  },
  {
   "property": "C110",
   "status": "proved",
   "theorems": [
    "Vista.ParamsShared.C110_from_mapping",
    "Vista.ParamsShared.C110_from_mapping_now",
    "Vista.ParamsShared.C110_pairs",
    "Vista.ParamsShared.C110_nested_dicts",
    "Vista.ParamsShared.C110_dict_in_list_counterexample"
   ],
   "note": ""
  },
  {
   "property": "C111",
   "status": "proved",
   "theorems": [
    "Vista.Surrogates.C111_encode",
    "Vista.Surrogates.C111_file_all",
    "Vista.Surrogates.C111_file",
    "Vista.Surrogates.C111_string",
    "Vista.Surrogates.C111_directory",
    "Vista.Surrogates.C111_directory_until",
    "Vista.Surrogates.C111_directory_until_all",
    "Vista.Surrogates.C111_directory_occupied",
    "Vista.Surrogates.C111_zip",
    "Vista.Surrogates.C111_lost_counterexample",
    "Vista.Surrogates.C111_silent_counterexample",
    "Vista.Surrogates.C111_zip_counterexample"
   ],
   "note": ""
  },
  {
   "property": "C112",
   "status": "proved",
   "theorems": [
    "Vista.WriteFaults.C112_bytes",
    "Vista.WriteFaults.C112_char",
    "Vista.WriteFaults.C112_kept",
    "Vista.WriteFaults.C112_until",
    "Vista.WriteFaults.C112_occupied",
    "Vista.WriteFaults.C112_part_counterexample"
   ],
   "note": ""
  }
 ]
}