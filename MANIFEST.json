{
 "claims": [
  {
   "property": "C01",
   "status": "proved",
   "theorems": [
    "Oapi.Props.C01_fragment_roundtrip",
    "Oapi.Props.C01_fragment_print_injective"
   ],
   "note": ""
  },
  {
   "property": "C02",
   "status": "proved",
   "theorems": [
    "Oapi.Props.C02_fragment_accepts_iff",
    "Oapi.Props.C02_fragment_rejects_with_error",
    "Oapi.Props.C02_fragment_canonical_iff",
    "Oapi.Props.C02_fragment_printed_canonical"
   ],
   "note": ""
  },
  {
   "property": "C03",
   "status": "proved",
   "theorems": [
    "Oapi.Props.C03_descendant_extends",
    "Oapi.Props.C03_descendant_of_slash",
    "Oapi.Props.C03_descendant_token",
    "Oapi.Props.C03_raw_descendant"
   ],
   "note": ""
  },
  {
   "property": "C04",
   "status": "proved",
   "theorems": [
    "Oapi.Props.C04_replace_in_range",
    "Oapi.Props.C04_replace_out_of_range",
    "Oapi.Props.C04_replace_at_length_panics",
    "Oapi.Props.C04_replace_leaves_original"
   ],
   "note": ""
  },
  {
   "property": "C05",
   "status": "proved",
   "theorems": [
    "Oapi.Props.C05_slices_behave_as_values",
    "Oapi.Props.C05_fragment_never_changes",
    "Oapi.Props.C05_raw_descendant_aliases"
   ],
   "note": ""
  },
  {
   "property": "C06",
   "status": "proved",
   "theorems": [
    "Oapi.Props.C06_go_pointer_roundtrip",
    "Oapi.Props.C06_newGo",
    "Oapi.Props.C06_percent_is_lost"
   ],
   "note": ""
  },
  {
   "property": "C07",
   "status": "proved",
   "theorems": [
    "Oapi.Props.C07_equal_strings_same_target",
    "Oapi.Props.C07_go_string_iff",
    "Oapi.Props.C07_pkgPath",
    "Oapi.Props.C07_authority_ignored",
    "Oapi.Props.C07_port_ignored"
   ],
   "note": ""
  },
  {
   "property": "C08",
   "status": "proved",
   "theorems": [
    "Oapi.Props.C08_local_becomes_absolute",
    "Oapi.Props.C08_local_string",
    "Oapi.Props.C08_other_keeps_target",
    "Oapi.Props.C08_percent_changes_target",
    "Oapi.Props.C08_not_a_url",
    "Oapi.Props.C08_scan_file",
    "Oapi.Props.C08_scan_file_fails_iff",
    "Oapi.Props.C08_scan_files"
   ],
   "note": ""
  },
  {
   "property": "C09",
   "status": "proved",
   "theorems": [
    "Oapi.Props.C09_merge_right_biased",
    "Oapi.Props.C09_merge_order_independent",
    "Oapi.Props.C09_newPointers"
   ],
   "note": ""
  },
  {
   "property": "C10",
   "status": "proved",
   "theorems": [
    "Oapi.Props.C10_dot_path_mangles_dots",
    "Oapi.Props.C10_dot_path_roundtrip_iff"
   ],
   "note": ""
  },
  {
   "property": "C11",
   "status": "proved",
   "theorems": [
    "Oapi.Props.C11_setP_read_back"
   ],
   "note": ""
  },
  {
   "property": "C12",
   "status": "proved",
   "theorems": [
    "Oapi.Props.C12_setP_frame"
   ],
   "note": ""
  },
  {
   "property": "C13",
   "status": "proved",
   "theorems": [
    "Oapi.Props.C13_setP_fails_iff",
    "Oapi.Props.C13_setP_no_panic",
    "Oapi.Props.C13_setP_succeeds"
   ],
   "note": ""
  },
  {
   "property": "C14",
   "status": "proved",
   "theorems": [
    "Oapi.Props.C14_extractKey_entries",
    "Oapi.Props.C14_path_back",
    "Oapi.Props.C14_dots_mislead",
    "Oapi.Props.C14_extractKey_exact",
    "Oapi.Props.C14_extract_refs_exact",
    "Oapi.Props.C14_extractKey_fails_iff"
   ],
   "note": ""
  },
  {
   "property": "C15",
   "status": "proved",
   "theorems": [
    "Oapi.Props.C15_default_fills",
    "Oapi.Props.C15_key_paths_determine",
    "Oapi.Props.C15_fills_unique"
   ],
   "note": ""
  },
  {
   "property": "C16",
   "status": "proved",
   "theorems": [
    "Oapi.Props.C16_override_fills"
   ],
   "note": ""
  },
  {
   "property": "C17",
   "status": "proved",
   "theorems": [
    "Oapi.Props.C17_strict_iff"
   ],
   "note": ""
  },
  {
   "property": "C18",
   "status": "proved",
   "theorems": [
    "Oapi.Props.C18_order_independent"
   ],
   "note": ""
  },
  {
   "property": "C19",
   "status": "proved",
   "theorems": [
    "Oapi.Props.C19_sort_removes_discovery_order",
    "Oapi.Props.C19_strict_list",
    "Oapi.Props.C19_strict_any_order",
    "Oapi.Props.C19_strict_comm"
   ],
   "note": ""
  },
  {
   "property": "C20",
   "status": "proved",
   "theorems": [
    "Oapi.Props.C20_two_specs_never_merge"
   ],
   "note": ""
  },
  {
   "property": "C21",
   "status": "proved",
   "theorems": [
    "Oapi.Props.C21_merge_crashes_iff",
    "Oapi.Props.C21_sections_follow_rules",
    "Oapi.Props.C21_fails_iff_component_collides",
    "Oapi.Props.C21_scalar_section_crashes"
   ],
   "note": ""
  },
  {
   "property": "C22",
   "status": "proved",
   "theorems": [
    "Oapi.Props.C22_lists_are_discarded"
   ],
   "note": ""
  },
  {
   "property": "C23",
   "status": "proved",
   "theorems": [
    "Oapi.Props.C23_defaults_fill_gaps",
    "Oapi.Props.C23_succeeds_iff"
   ],
   "note": ""
  },
  {
   "property": "C24",
   "status": "proved",
   "theorems": [
    "Oapi.Props.C24_order_irrelevant_without_conflict",
    "Oapi.Props.C24_order_matters_with_conflict"
   ],
   "note": ""
  },
  {
   "property": "C25",
   "status": "proved",
   "theorems": [
    "Oapi.Props.C25_dotted_path_duplicated",
    "Oapi.Props.C25_path_level_member_fails"
   ],
   "note": ""
  },
  {
   "property": "C26",
   "status": "proved",
   "theorems": [
    "Oapi.Props.C26_matches_what_it_describes",
    "Oapi.Props.C26_every_pattern_reads",
    "Oapi.Props.C26_tail_is_an_expression"
   ],
   "note": ""
  },
  {
   "property": "C27",
   "status": "proved",
   "theorems": [
    "Oapi.Props.C27_other_method_never_matches",
    "Oapi.Props.C27_same_method_ignores_prefix",
    "Oapi.Props.C27_unprefixed_accepts_all_methods"
   ],
   "note": ""
  },
  {
   "property": "C28",
   "status": "proved",
   "theorems": [
    "Oapi.Props.C28_cache_invisible",
    "Oapi.Props.C28_mutual_exclusion",
    "Oapi.Props.C28_no_deadlock"
   ],
   "note": ""
  },
  {
   "property": "C29",
   "status": "proved",
   "theorems": [
    "Oapi.Props.C29_terminates",
    "Oapi.Props.C29_succeeds",
    "Oapi.Props.C29_more_stack"
   ],
   "note": ""
  },
  {
   "property": "C30",
   "status": "proved",
   "theorems": [
    "Oapi.Props.C30_no_external_reference"
   ],
   "note": ""
  },
  {
   "property": "C31",
   "status": "proved",
   "theorems": [
    "Oapi.Props.C31_result_is_the_expansion",
    "Oapi.Props.C31_order_does_not_matter",
    "Oapi.Props.C31_one_result"
   ],
   "note": ""
  },
  {
   "property": "C32",
   "status": "proved",
   "theorems": [
    "Oapi.Props.C32_rest_unchanged",
    "Oapi.Props.C32_scalars_unchanged",
    "Oapi.Props.C32_local_references_unchanged"
   ],
   "note": ""
  },
  {
   "property": "C33",
   "status": "proved",
   "theorems": [
    "Oapi.Props.C33_no_dangling_reference",
    "Oapi.Props.C33_local_text_denotes_the_component",
    "Oapi.Props.C33_sections"
   ],
   "note": ""
  },
  {
   "property": "C34",
   "status": "proved",
   "theorems": [
    "Oapi.Props.C34_result_depends_on_the_order"
   ],
   "note": ""
  },
  {
   "property": "C35",
   "status": "proved",
   "theorems": [
    "Oapi.Props.C35_bare_reference_is_not_resolved"
   ],
   "note": ""
  },
  {
   "property": "C36",
   "status": "proved",
   "theorems": [
    "Oapi.Props.C36_terminates",
    "Oapi.Props.C36_registers_reachable",
    "Oapi.Props.C36_closed",
    "Oapi.Props.C36_defined_types_by_name",
    "Oapi.Props.C36_simple_paths",
    "Oapi.Props.C36_only_reachable",
    "Oapi.Props.C36_panics_iff_error"
   ],
   "note": ""
  },
  {
   "property": "C37",
   "status": "proved",
   "theorems": [
    "Oapi.Props.C37_registered_denotes",
    "Oapi.Props.C37_one_type",
    "Oapi.Props.C37_find_any_order",
    "Oapi.Props.C37_scans_agree"
   ],
   "note": ""
  },
  {
   "property": "C38",
   "status": "proved",
   "theorems": [
    "Oapi.Props.C38_outcome",
    "Oapi.Props.C38_terminates",
    "Oapi.Props.C38_describes",
    "Oapi.Props.C38_describes_struct"
   ],
   "note": ""
  },
  {
   "property": "C39",
   "status": "proved",
   "theorems": [
    "Oapi.Props.C39_terminates",
    "Oapi.Props.C39_properties",
    "Oapi.Props.C39_from_exported_fields"
   ],
   "note": ""
  },
  {
   "property": "C40",
   "status": "proved",
   "theorems": [
    "Oapi.Props.C40_nullable",
    "Oapi.Props.C40_pointers",
    "Oapi.Props.C40_pointer_to_struct",
    "Oapi.Props.C40_pointer_to_plain"
   ],
   "note": ""
  },
  {
   "property": "C41",
   "status": "proved",
   "theorems": [
    "Oapi.Props.C41_property",
    "Oapi.Props.C41_resolve",
    "Oapi.Props.C41_unsigned",
    "Oapi.Props.C41_constraints"
   ],
   "note": ""
  },
  {
   "property": "C42",
   "status": "proved",
   "theorems": [
    "Oapi.Props.C42_format",
    "Oapi.Props.C42_required",
    "Oapi.Props.C42_required_kept",
    "Oapi.Props.C42_required_dropped"
   ],
   "note": ""
  },
  {
   "property": "C43",
   "status": "proved",
   "theorems": [
    "Oapi.Props.C43_references",
    "Oapi.Props.C43_struct_field",
    "Oapi.Props.C43_slice_field",
    "Oapi.Props.C43_by_name"
   ],
   "note": ""
  },
  {
   "property": "C44",
   "status": "proved",
   "theorems": [
    "Oapi.Props.C44_name",
    "Oapi.Props.C44_inline",
    "Oapi.Props.C44_omitempty",
    "Oapi.Props.C44_empty"
   ],
   "note": ""
  },
  {
   "property": "C45",
   "status": "proved",
   "theorems": [
    "Oapi.Props.C45_ignored_iff",
    "Oapi.Props.C45_dash_hides"
   ],
   "note": ""
  },
  {
   "property": "C46",
   "status": "proved",
   "theorems": [
    "Oapi.Props.C46_fails_iff",
    "Oapi.Props.C46_no_panic",
    "Oapi.Props.C46_flags",
    "Oapi.Props.C46_values",
    "Oapi.Props.C46_mulof"
   ],
   "note": ""
  },
  {
   "property": "C47",
   "status": "proved",
   "theorems": [
    "Oapi.Props.C47_comment",
    "Oapi.Props.C47_accepted_iff",
    "Oapi.Props.C47_rejected",
    "Oapi.Props.C47_name",
    "Oapi.Props.C47_type_name",
    "Oapi.Props.C47_pointer",
    "Oapi.Props.C47_bad_pointer_accepted",
    "Oapi.Props.C47_other_commands",
    "Oapi.Props.C47_package",
    "Oapi.Props.C47_package_fails",
    "Oapi.Props.C47_comments_accepted_iff",
    "Oapi.Props.C47_comments_export"
   ],
   "note": ""
  },
  {
   "property": "C48",
   "status": "proved",
   "theorems": [
    "Oapi.Props.C48_fails_iff",
    "Oapi.Props.C48_one_export_per_command",
    "Oapi.Props.C48_no_panic",
    "Oapi.Props.C48_order_independent",
    "Oapi.Props.C48_root_commands_ignored",
    "Oapi.Props.C48_pointers"
   ],
   "note": ""
  },
  {
   "property": "C49",
   "status": "proved",
   "theorems": [
    "Oapi.Props.C49_terminates",
    "Oapi.Props.C49_scans_reachable",
    "Oapi.Props.C49_scans_once",
    "Oapi.Props.C49_never_std",
    "Oapi.Props.C49_after_imports",
    "Oapi.Props.C49_dependencies_first",
    "Oapi.Props.C49_order_independent"
   ],
   "note": ""
  },
  {
   "property": "C50",
   "status": "proved",
   "theorems": [
    "Oapi.Props.C50_error_iff",
    "Oapi.Props.C50_all_messages",
    "Oapi.Props.C50_goes_on"
   ],
   "note": ""
  },
  {
   "property": "C51",
   "status": "proved",
   "theorems": [
    "Oapi.Props.C51_without_extends",
    "Oapi.Props.C51_extends",
    "Oapi.Props.C51_directory",
    "Oapi.Props.C51_extends_from_anywhere",
    "Oapi.Props.C51_missing_base",
    "Oapi.Props.C51_one_level"
   ],
   "note": ""
  },
  {
   "property": "C52",
   "status": "proved",
   "theorems": [
    "Oapi.Props.C52_format",
    "Oapi.Props.C52_dir",
    "Oapi.Props.C52_flag_wins"
   ],
   "note": ""
  },
  {
   "property": "C53",
   "status": "proved",
   "theorems": [
    "Oapi.Props.C53_never_stderr",
    "Oapi.Props.C53_stdout_flag_ignored",
    "Oapi.Props.C53_flag_has_no_effect",
    "Oapi.Props.C53_after_error"
   ],
   "note": ""
  },
  {
   "property": "C54",
   "status": "proved",
   "theorems": [
    "Oapi.Props.C54_same_members",
    "Oapi.Props.C54_known_in_order",
    "Oapi.Props.C54_others_first"
   ],
   "note": ""
  },
  {
   "property": "C55",
   "status": "proved",
   "theorems": [
    "Oapi.Props.C55_some_output",
    "Oapi.Props.C55_deterministic",
    "Oapi.Props.C55_nondeterministic",
    "Oapi.Props.C55_texts_differ",
    "Oapi.Props.C55_json_differs",
    "Oapi.Props.C55_json_same"
   ],
   "note": ""
  },
  {
   "property": "C56",
   "status": "proved",
   "theorems": [
    "Oapi.Props.C56_exact",
    "Oapi.Props.C56_backquote_breaks",
    "Oapi.Props.C56_iff",
    "Oapi.Props.C56_format",
    "Oapi.Props.C56_encodings",
    "Oapi.Props.C56_unknown_format"
   ],
   "note": ""
  },
  {
   "property": "C57",
   "status": "proved",
   "theorems": [
    "Oapi.Props.C57_never_success",
    "Oapi.Props.C57_document_with_error"
   ],
   "note": ""
  },
  {
   "property": "C58",
   "status": "proved",
   "theorems": [
    "Oapi.Props.C58_unregistered_panics",
    "Oapi.Props.C58_other_scheme_fails",
    "Oapi.Props.C58_no_document",
    "Oapi.Props.C58_scan_panics",
    "Oapi.Props.C58_unknown_panics"
   ],
   "note": ""
  },
  {
   "property": "C59",
   "status": "proved",
   "theorems": [
    "Oapi.Props.C59_removeDuplicates",
    "Oapi.Props.C59_removeDuplicates_set",
    "Oapi.Props.C59_fails_iff",
    "Oapi.Props.C59_newServers",
    "Oapi.Props.C59_newServers_set",
    "Oapi.Props.C59_caller_kept",
    "Oapi.Props.C59_caller_sorted"
   ],
   "note": ""
  },
  {
   "property": "C60",
   "status": "proved",
   "theorems": [
    "Oapi.Props.C60_addHeader",
    "Oapi.Props.C60_addContent",
    "Oapi.Props.C60_addLink",
    "Oapi.Props.C60_nil_removes_header",
    "Oapi.Props.C60_nil_content_stays",
    "Oapi.Props.C60_remove"
   ],
   "note": ""
  },
  {
   "property": "C61",
   "status": "proved",
   "theorems": [
    "Oapi.Props.C61_operations",
    "Oapi.Props.C61_count"
   ],
   "note": ""
  },
  {
   "property": "C62",
   "status": "proved",
   "theorems": [
    "Oapi.Props.C62_encode_decode",
    "Oapi.Props.C62_empty_string",
    "Oapi.Props.C62_decode_encode",
    "Oapi.Props.C62_empty_differs",
    "Oapi.Props.C62_stale_expression"
   ],
   "note": ""
  },
  {
   "property": "C63",
   "status": "proved",
   "theorems": [
    "Oapi.Props.C63_parse_level",
    "Oapi.Props.C63_else_error",
    "Oapi.Props.C63_severity"
   ],
   "note": ""
  },
  {
   "property": "C64",
   "status": "proved",
   "theorems": [
    "Oapi.Props.C64_exact",
    "Oapi.Props.C64_tail_remains",
    "Oapi.Props.C64_failures"
   ],
   "note": ""
  },
  {
   "property": "C65",
   "status": "proved",
   "theorems": [
    "Oapi.Props.C65_one_document",
    "Oapi.Props.C65_no_external_reference",
    "Oapi.Props.C65_rest_unchanged",
    "Oapi.Props.C65_more_stack"
   ],
   "note": ""
  },
  {
   "property": "C66",
   "status": "proved",
   "theorems": [
    "Oapi.Props.C66_oauth2_panics",
    "Oapi.Props.C66_others"
   ],
   "note": ""
  },
  {
   "property": "C67",
   "status": "proved",
   "theorems": [
    "Oapi.Props.C67_head",
    "Oapi.Props.C67_last_and_tail",
    "Oapi.Props.C67_descend"
   ],
   "note": ""
  },
  {
   "property": "C68",
   "status": "proved",
   "theorems": [
    "Oapi.Props.C68_second_descendant_overwrites",
    "Oapi.Props.C68_full_array_is_safe"
   ],
   "note": ""
  },
  {
   "property": "C69",
   "status": "proved",
   "theorems": [
    "Oapi.Props.C69_output_replaced",
    "Oapi.Props.C69_unknown_format_empties",
    "Oapi.Props.C69_crash_keeps_output",
    "Oapi.Props.C69_one_destination"
   ],
   "note": ""
  },
  {
   "property": "C70",
   "status": "proved",
   "theorems": [
    "Oapi.Props.C70_status",
    "Oapi.Props.C70_always_fatal",
    "Oapi.Props.C70_silent",
    "Oapi.Props.C70_indistinguishable"
   ],
   "note": ""
  },
  {
   "property": "C71",
   "status": "proved",
   "theorems": [
    "Oapi.Props.C71_last_option_wins",
    "Oapi.Props.C71_nil_logger_stays_nil"
   ],
   "note": ""
  },
  {
   "property": "C72",
   "status": "proved",
   "theorems": [
    "Oapi.Props.C72_settings_without_effect",
    "Oapi.Props.C72_settings_with_effect",
    "Oapi.Props.C72_logger_without_effect",
    "Oapi.Props.C72_settings_from_the_named_file"
   ],
   "note": ""
  },
  {
   "property": "C73",
   "status": "proved",
   "theorems": [
    "Oapi.Props.C73_document",
    "Oapi.Props.C73_component"
   ],
   "note": ""
  },
  {
   "property": "C74",
   "status": "proved",
   "theorems": [
    "Oapi.Props.C74_members",
    "Oapi.Props.C74_lossless",
    "Oapi.Props.C74_fails_iff"
   ],
   "note": ""
  },
  {
   "property": "C75",
   "status": "proved",
   "theorems": [
    "Oapi.Props.C75_default_values_are_copied",
    "Oapi.Props.C75_default_references_stay"
   ],
   "note": ""
  },
  {
   "property": "C76",
   "status": "proved",
   "theorems": [
    "Oapi.Props.C76_component_iff_met",
    "Oapi.Props.C76_scan_has_exactly_the_components_met"
   ],
   "note": ""
  },
  {
   "property": "C77",
   "status": "proved",
   "theorems": [
    "Oapi.Props.C77_prepared_iff",
    "Oapi.Props.C77_unprepared_no_document",
    "Oapi.Props.C77_exports",
    "Oapi.Props.C77_document",
    "Oapi.Props.C77_types",
    "Oapi.Props.C77_asked_for_is_registered",
    "Oapi.Props.C77_nothing_invented"
   ],
   "note": ""
  },
  {
   "property": "C78",
   "status": "proved",
   "theorems": [
    "Oapi.Props.C78_two_specifications"
   ],
   "note": ""
  },
  {
   "property": "C79",
   "status": "proved",
   "theorems": [
    "Oapi.Props.C79_references_of_paths",
    "Oapi.Props.C79_missing_object"
   ],
   "note": ""
  },
  {
   "property": "C80",
   "status": "proved",
   "theorems": [
    "Oapi.Props.C80_files",
    "Oapi.Props.C80_fails_iff",
    "Oapi.Props.C80_none",
    "Oapi.Props.C80_only_these",
    "Oapi.Props.C80_default"
   ],
   "note": ""
  },
  {
   "property": "C81",
   "status": "proved",
   "theorems": [
    "Oapi.Props.C81_yaml",
    "Oapi.Props.C81_json",
    "Oapi.Props.C81_else_error",
    "Oapi.Props.C81_object_or_error"
   ],
   "note": ""
  },
  {
   "property": "C82",
   "status": "proved",
   "theorems": [
    "Oapi.Props.C82_reads",
    "Oapi.Props.C82_unique",
    "Oapi.Props.C82_order",
    "Oapi.Props.C82_last_wins",
    "Oapi.Props.C82_collision"
   ],
   "note": ""
  },
  {
   "property": "C83",
   "status": "proved",
   "theorems": [
    "Oapi.Props.C83_dir",
    "Oapi.Props.C83_module_without_dir",
    "Oapi.Props.C83_gopath_missing",
    "Oapi.Props.C83_dirs_differ"
   ],
   "note": ""
  },
  {
   "property": "C84",
   "status": "proved",
   "theorems": [
    "Oapi.Props.C84_specifications",
    "Oapi.Props.C84_unreadable_no_document",
    "Oapi.Props.C84_no_dir_no_document",
    "Oapi.Props.C84_two_files_no_document",
    "Oapi.Props.C84_only_these"
   ],
   "note": ""
  },
  {
   "property": "C85",
   "status": "proved",
   "theorems": [
    "Oapi.Props.C85_sets",
    "Oapi.Props.C85_keeps",
    "Oapi.Props.C85_last_call_wins",
    "Oapi.Props.C85_chain_keeps",
    "Oapi.Props.C85_chain_keeps_oneOf_anyOf",
    "Oapi.Props.C85_required_collects",
    "Oapi.Props.C85_constructors",
    "Oapi.Props.C85_data_types"
   ],
   "note": ""
  },
  {
   "property": "C86",
   "status": "proved",
   "theorems": [
    "Oapi.Props.C86_independent",
    "Oapi.Props.C86_new_is_apart",
    "Oapi.Props.C86_shared_map",
    "Oapi.Props.C86_shared_xml",
    "Oapi.Props.C86_shared_docs",
    "Oapi.Props.C86_shared_required",
    "Oapi.Props.C86_shared_allOf",
    "Oapi.Props.C86_decode",
    "Oapi.Props.C86_decode_overwrites_dates"
   ],
   "note": ""
  },
  {
   "property": "C87",
   "status": "proved",
   "theorems": [
    "Oapi.Props.C87_required",
    "Oapi.Props.C87_last_call_wins"
   ],
   "note": ""
  },
  {
   "property": "C88",
   "status": "proved",
   "theorems": [
    "Oapi.Props.C88_go_strings",
    "Oapi.Props.C88_nothing_behind",
    "Oapi.Props.C88_encode",
    "Oapi.Props.C88_decode",
    "Oapi.Props.C88_decode_foreign",
    "Oapi.Props.C88_round_trip",
    "Oapi.Props.C88_go_reference",
    "Oapi.Props.C88_not_a_string"
   ],
   "note": ""
  },
  {
   "property": "C89",
   "status": "proved",
   "theorems": [
    "Oapi.Props.C89_keeps",
    "Oapi.Props.C89_member",
    "Oapi.Props.C89_tidy",
    "Oapi.Props.C89_stable",
    "Oapi.Props.C89_scopes_lost"
   ],
   "note": ""
  },
  {
   "property": "C90",
   "status": "proved",
   "theorems": [
    "Oapi.Props.C90_refused",
    "Oapi.Props.C90_boolean_additional_properties"
   ],
   "note": ""
  },
  {
   "property": "C91",
   "status": "proved",
   "theorems": [
    "Oapi.Props.C91_settings",
    "Oapi.Props.C91_exclude",
    "Oapi.Props.C91_root",
    "Oapi.Props.C91_root_encoded",
    "Oapi.Props.C91_tables"
   ],
   "note": ""
  },
  {
   "property": "C92",
   "status": "proved",
   "theorems": [
    "Oapi.Props.C92_error",
    "Oapi.Props.C92_other_settings",
    "Oapi.Props.C92_unreadable"
   ],
   "note": ""
  },
  {
   "property": "C93",
   "status": "proved",
   "theorems": [
    "Oapi.Props.C93_ok",
    "Oapi.Props.C93_ok_other",
    "Oapi.Props.C93_text",
    "Oapi.Props.C93_always_json",
    "Oapi.Props.C93_outcome"
   ],
   "note": ""
  },
  {
   "property": "C94",
   "status": "proved",
   "theorems": [
    "Oapi.Props.C94_reads",
    "Oapi.Props.C94_json",
    "Oapi.Props.C94_refused",
    "Oapi.Props.C94_functional",
    "Oapi.Props.C94_form",
    "Oapi.Props.C94_unicode"
   ],
   "note": ""
  },
  {
   "property": "C95",
   "status": "proved",
   "theorems": [
    "Oapi.Props.C95_read_back",
    "Oapi.Props.C95_round_trip"
   ],
   "note": ""
  },
  {
   "property": "C96",
   "status": "proved",
   "theorems": [
    "Oapi.Props.C96_go_file",
    "Oapi.Props.C96_one_line"
   ],
   "note": ""
  },
  {
   "property": "C97",
   "status": "proved",
   "theorems": [
    "Oapi.Props.C97_fails",
    "Oapi.Props.C97_copy",
    "Oapi.Props.C97_read_copy",
    "Oapi.Props.C97_unicode"
   ],
   "note": ""
  },
  {
   "property": "C98",
   "status": "proved",
   "theorems": [
    "Oapi.Props.C98_round_trip",
    "Oapi.Props.C98_failed_scan",
    "Oapi.Props.C98_unwritable",
    "Oapi.Props.C98_go",
    "Oapi.Props.C98_truncated",
    "Oapi.Props.C98_leftovers"
   ],
   "note": ""
  },
  {
   "property": "C99",
   "status": "proved",
   "theorems": [
    "Oapi.Props.C99_incomplete_input_is_an_error",
    "Oapi.Props.C99_crashes",
    "Oapi.Props.C99_reasons",
    "Oapi.Props.C99_never_crashes",
    "Oapi.Props.C99_ends"
   ],
   "note": ""
  },
  {
   "property": "C100",
   "status": "proved",
   "theorems": [
    "Oapi.Props.C100_old_output_is_ignored",
    "Oapi.Props.C100_history_does_not_matter",
    "Oapi.Props.C100_other_files",
    "Oapi.Props.C100_directory_in_the_way",
    "Oapi.Props.C100_repeated_runs",
    "Oapi.Props.C100_same_bytes"
   ],
   "note": ""
  },
  {
   "property": "C101",
   "status": "proved",
   "theorems": [
    "Oapi.Props.C101_alternation"
   ],
   "note": ""
  },
  {
   "property": "C102",
   "status": "proved",
   "theorems": [
    "Oapi.Props.C102_response",
    "Oapi.Props.C102_nil_content_stays",
    "Oapi.Props.C102_request_body",
    "Oapi.Props.C102_media_types",
    "Oapi.Props.C102_header",
    "Oapi.Props.C102_xml"
   ],
   "note": ""
  },
  {
   "property": "C103",
   "status": "proved",
   "theorems": [
    "Oapi.Props.C103_result",
    "Oapi.Props.C103_too_late",
    "Oapi.Props.C103_not_stopped",
    "Oapi.Props.C103_goes_on",
    "Oapi.Props.C103_ends",
    "Oapi.Props.C103_finishes",
    "Oapi.Props.C103_null"
   ],
   "note": ""
  },
  {
   "property": "C104",
   "status": "proved",
   "theorems": [
    "Oapi.Props.C104_other_files",
    "Oapi.Props.C104_output",
    "Oapi.Props.C104_reader",
    "Oapi.Props.C104_recovery",
    "Oapi.Props.C104_history_other_files"
   ],
   "note": ""
  },
  {
   "property": "C105",
   "status": "proved",
   "theorems": [
    "Oapi.Props.C105_stays_relative",
    "Oapi.Props.C105_stray_member",
    "Oapi.Props.C105_not_resolved",
    "Oapi.Props.C105_scan_undetermined",
    "Oapi.Props.C105_scan_external"
   ],
   "note": ""
  },
  {
   "property": "C106",
   "status": "proved",
   "theorems": [
    "Oapi.Props.C106_path",
    "Oapi.Props.C106_exists",
    "Oapi.Props.C106_wildcard"
   ],
   "note": ""
  },
  {
   "property": "C107",
   "status": "proved",
   "theorems": [
    "Oapi.Props.C107_values",
    "Oapi.Props.C107_others_keep",
    "Oapi.Props.C107_no_sharing",
    "Oapi.Props.C107_clone_copies"
   ],
   "note": ""
  },
  {
   "property": "C108",
   "status": "proved",
   "theorems": [
    "Oapi.Props.C108_defaults_in_memory",
    "Oapi.Props.C108_defaults_all"
   ],
   "note": ""
  },
  {
   "property": "C109",
   "status": "proved",
   "theorems": [
    "Oapi.Props.C109_view",
    "Oapi.Props.C109_writes_through",
    "Oapi.Props.C109_setP_on_part",
    "Oapi.Props.C109_scalar_copy"
   ],
   "note": ""
  },
  {
   "property": "C110",
   "status": "proved",
   "theorems": [
    "Oapi.Props.C110_resolve_in_memory",
    "Oapi.Props.C110_input_kept"
   ],
   "note": ""
  },
  {
   "property": "C111",
   "status": "proved",
   "theorems": [
    "Oapi.Props.C111_merge_containers",
    "Oapi.Props.C111_merge_with_root"
   ],
   "note": ""
  },
  {
   "property": "C112",
   "status": "proved",
   "theorems": [
    "Oapi.Props.C112_in_memory",
    "Oapi.Props.C112_as_documents",
    "Oapi.Props.C112_one_document",
    "Oapi.Props.C112_never_crashes",
    "Oapi.Props.C112_ends"
   ],
   "note": ""
  },
  {
   "property": "C113",
   "status": "proved",
   "theorems": [
    "Oapi.Props.C113_collect",
    "Oapi.Props.C113_resolve",
    "Oapi.Props.C113_points_stay",
    "Oapi.Props.C113_same_schema",
    "Oapi.Props.C113_deterministic_sort"
   ],
   "note": ""
  },
  {
   "property": "C114",
   "status": "proved",
   "theorems": [
    "Oapi.Props.C114_accumulates",
    "Oapi.Props.C114_twins",
    "Oapi.Props.C114_null_resets",
    "Oapi.Props.C114_null_leaves",
    "Oapi.Props.C114_replaced",
    "Oapi.Props.C114_lists_merge",
    "Oapi.Props.C114_expression_stays"
   ],
   "note": ""
  },
  {
   "property": "C115",
   "status": "proved",
   "theorems": [
    "Oapi.Props.C115_beginning",
    "Oapi.Props.C115_when",
    "Oapi.Props.C115_nothing_lost",
    "Oapi.Props.C115_again",
    "Oapi.Props.C115_order_shows"
   ],
   "note": ""
  },
  {
   "property": "C116",
   "status": "proved",
   "theorems": [
    "Oapi.Props.C116_one_scanner",
    "Oapi.Props.C116_steady_sort",
    "Oapi.Props.C116_one_document",
    "Oapi.Props.C116_never_crashes"
   ],
   "note": ""
  },
  {
   "property": "C117",
   "status": "proved",
   "theorems": [
    "Oapi.Props.C117_settled_document",
    "Oapi.Props.C117_unchanged",
    "Oapi.Props.C117_nothing_to_resolve",
    "Oapi.Props.C117_local_references",
    "Oapi.Props.C117_component_references",
    "Oapi.Props.C117_scanned_again",
    "Oapi.Props.C117_component_of_root"
   ],
   "note": ""
  },
  {
   "property": "C118",
   "status": "proved",
   "theorems": [
    "Oapi.Props.C118_expression_at_the_end",
    "Oapi.Props.C118_bar_opens_the_pattern",
    "Oapi.Props.C118_question_makes_variable_optional",
    "Oapi.Props.C118_alternatives_are_choices",
    "Oapi.Props.C118_brackets"
   ],
   "note": ""
  },
  {
   "property": "C119",
   "status": "proved",
   "theorems": [
    "Oapi.Props.C119_only_commands_and_specifications_matter",
    "Oapi.Props.C119_unvisited_packages",
    "Oapi.Props.C119_comments",
    "Oapi.Props.C119_files"
   ],
   "note": ""
  },
  {
   "property": "C120",
   "status": "proved",
   "theorems": [
    "Oapi.Props.C120_unreferenced_override",
    "Oapi.Props.C120_unmatched_default"
   ],
   "note": ""
  },
  {
   "property": "C121",
   "status": "proved",
   "theorems": [
    "Oapi.Props.C121_flags_iff",
    "Oapi.Props.C121_runs",
    "Oapi.Props.C121_nothing_else",
    "Oapi.Props.C121_no_toolchain",
    "Oapi.Props.C121_order_and_form"
   ],
   "note": ""
  },
  {
   "property": "C122",
   "status": "proved",
   "theorems": [
    "Oapi.Props.C122_at_any_time",
    "Oapi.Props.C122_same_text",
    "Oapi.Props.C122_different_texts",
    "Oapi.Props.C122_one_writer",
    "Oapi.Props.C122_goes_on",
    "Oapi.Props.C122_run",
    "Oapi.Props.C122_mixture",
    "Oapi.Props.C122_reader",
    "Oapi.Props.C122_unreadable"
   ],
   "note": ""
  },
  {
   "property": "C123",
   "status": "proved",
   "theorems": [
    "Oapi.Props.C123_read",
    "Oapi.Props.C123_unambiguous",
    "Oapi.Props.C123_malformed",
    "Oapi.Props.C123_crashes",
    "Oapi.Props.C123_struct_crashes",
    "Oapi.Props.C123_only_two_keys",
    "Oapi.Props.C123_can_write",
    "Oapi.Props.C123_options"
   ],
   "note": ""
  },
  {
   "property": "C124",
   "status": "proved",
   "theorems": [
    "Oapi.Props.C124_properties",
    "Oapi.Props.C124_members_are_properties",
    "Oapi.Props.C124_same_names",
    "Oapi.Props.C124_ambiguous",
    "Oapi.Props.C124_named_embedded",
    "Oapi.Props.C124_unexported_embedded",
    "Oapi.Props.C124_dash"
   ],
   "note": ""
  }
 ]
}