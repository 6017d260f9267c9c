{
 "claims": [
  {
   "property": "C01",
   "status": "proved",
   "theorems": [
    "Flapi.NameGen.C01_fresh",
    "Flapi.NameGen.C01_least",
    "Flapi.NameGen.C01_total",
    "Flapi.NameGen.C01_panics_iff",
    "Flapi.NameGen.C01_sequence"
   ],
   "note": ""
  },
  {
   "property": "C02",
   "status": "proved",
   "theorems": [
    "Flapi.ClassParse.C02_faithful_and_distinct",
    "Flapi.ClassParse.C02_fresh_names",
    "Flapi.ClassParse.C02_accepted_iff",
    "Flapi.ClassParse.C02_accepted_methods",
    "Flapi.ClassParse.C02_methods_in_order",
    "Flapi.ClassParse.C02_call_text",
    "Flapi.ClassParse.C02_finding_second_self"
   ],
   "note": ""
  },
  {
   "property": "C03",
   "status": "proved",
   "theorems": [
    "Flapi.SubstMap.C03_refines_partial_function",
    "Flapi.SubstMap.C03_keys_nodup",
    "Flapi.SubstMap.C03_listed_iff_get",
    "Flapi.SubstMap.C03_list_round_trip"
   ],
   "note": ""
  },
  {
   "property": "C04",
   "status": "proved",
   "theorems": [
    "Flapi.SourceRegistry.C04_ids_stable",
    "Flapi.SourceRegistry.C04_old_ids_stable",
    "Flapi.SourceRegistry.C04_ids_distinct",
    "Flapi.SourceRegistry.C04_duplicates_refused"
   ],
   "note": ""
  },
  {
   "property": "C05",
   "status": "proved",
   "theorems": [
    "Flapi.FileCache.C05_success_content",
    "Flapi.FileCache.C05_no_fault_success",
    "Flapi.FileCache.C05_no_needless_write",
    "Flapi.FileCache.C05_idempotent",
    "Flapi.FileCache.C05_other_files_untouched",
    "Flapi.FileCache.C05_memory_content",
    "Flapi.FileCache.C05_defined_iff",
    "Flapi.FileCache.C05_every_file_registered"
   ],
   "note": ""
  },
  {
   "property": "C06",
   "status": "proved",
   "theorems": [
    "Flapi.FileCache.C06_crash_old_or_prefix",
    "Flapi.FileCache.C06_rerun_repairs",
    "Flapi.FileCache.C06_error_without_write",
    "Flapi.FileCache.C06_not_atomic"
   ],
   "note": ""
  },
  {
   "property": "C07",
   "status": "proved",
   "theorems": [
    "Flapi.Extension.C07_runs_requested_calls",
    "Flapi.Extension.C07_accept_iff",
    "Flapi.Extension.C07_enum",
    "Flapi.Extension.C07_reserved_inert",
    "Flapi.Extension.C07_register",
    "Flapi.Extension.C07_register_plain",
    "Flapi.Extension.C07_java_rejects_plain_class",
    "Flapi.Extension.C07_java_accept_iff"
   ],
   "note": ""
  },
  {
   "property": "C08",
   "status": "proved",
   "theorems": [
    "Flapi.StrReplace.C08_replace_first_and_other",
    "Flapi.StrReplace.C08_split_unique",
    "Flapi.StrReplace.C08_absent",
    "Flapi.StrReplace.C08_same"
   ],
   "note": ""
  },
  {
   "property": "C09",
   "status": "proved",
   "theorems": [
    "Flapi.Template.C09_rule_string",
    "Flapi.Template.C09_sequential_is_simultaneous",
    "Flapi.Template.C09_template_complete",
    "Flapi.Template.C09_generate_code",
    "Flapi.Template.C09_literal_ok",
    "Flapi.Template.C09_temporaries_fresh",
    "Flapi.Template.C09_prefix_temporaries_corrupt",
    "Flapi.Template.C09_out_placeholder_lost",
    "Flapi.Template.C09_temporaries_independent"
   ],
   "note": ""
  },
  {
   "property": "C10",
   "status": "proved",
   "theorems": [
    "Flapi.Graph.C10_sound",
    "Flapi.Graph.C10_shortest",
    "Flapi.Graph.C10_complete",
    "Flapi.Graph.C10_error_iff",
    "Flapi.Graph.C10_length_deterministic"
   ],
   "note": ""
  },
  {
   "property": "C11",
   "status": "proved",
   "theorems": [
    "Flapi.Convert.C11_chain"
   ],
   "note": ""
  },
  {
   "property": "C12",
   "status": "proved",
   "theorems": [
    "Flapi.Convert.C12_at_most_once",
    "Flapi.Convert.C12_at_first_use"
   ],
   "note": ""
  },
  {
   "property": "C13",
   "status": "proved",
   "theorems": [
    "Flapi.TMap.C13_restored",
    "Flapi.TMap.C13_failed_build_unchanged"
   ],
   "note": ""
  },
  {
   "property": "C14",
   "status": "proved",
   "theorems": [
    "Flapi.TMap.C14_identity",
    "Flapi.TMap.C14_reachable_ok",
    "Flapi.TMap.C14_stable",
    "Flapi.TMap.C14_find_or_alloc",
    "Flapi.TMap.C14_merge_overrides"
   ],
   "note": ""
  },
  {
   "property": "C15",
   "status": "proved",
   "theorems": [
    "Flapi.FTypes.C15_lookup_consistent",
    "Flapi.FTypes.C15_add_new",
    "Flapi.FTypes.C15_handles_stable",
    "Flapi.FTypes.C15_find_or_alloc",
    "Flapi.FTypes.C15_merge",
    "Flapi.FTypes.C15_merge_in_force",
    "Flapi.FTypes.C15_merge_overrides",
    "Flapi.FTypes.C15_related"
   ],
   "note": ""
  },
  {
   "property": "C16",
   "status": "proved",
   "theorems": [
    "Flapi.MapType.C16_deep_genuine",
    "Flapi.Select.C16_minimal_first",
    "Flapi.Select.C16_none_iff",
    "Flapi.Select.C16_deterministic",
    "Flapi.Select.C16_cached",
    "Flapi.Select.C16_deep_no_panic",
    "Flapi.Select.C16_deep_minimal_first",
    "Flapi.Select.C16_deep_can_panic"
   ],
   "note": ""
  },
  {
   "property": "C17",
   "status": "proved",
   "theorems": [
    "Flapi.Ast.C17_match_sound",
    "Flapi.Ast.C17_conv_sound",
    "Flapi.Ast.C17_bounds_hold",
    "Flapi.Ast.C17_conv_complete",
    "Flapi.Ast.C17_option_inner",
    "Flapi.Ast.C17_repeated_param_in_tuple_rejected",
    "Flapi.Ast.C17_capture_unsound",
    "Flapi.Ast.C17_array_param_rejected",
    "Flapi.Ast.C17_second_bound_entry_ignored",
    "Flapi.Ast.C17_unbound_param_leaks",
    "Flapi.Ast.C17_where_on_compound_type_panics"
   ],
   "note": ""
  },
  {
   "property": "C18",
   "status": "proved",
   "theorems": [
    "Flapi.Ast.C18_idempotent",
    "Flapi.Ast.C18_norm_iff_same",
    "Flapi.Ast.C18_same_name",
    "Flapi.Ast.C18_name_iff",
    "Flapi.Ast.C18_no_lifetimes",
    "Flapi.Ast.C18_bound_lifetimes_kept",
    "Flapi.Ast.C18_dyn_collides_with_path"
   ],
   "note": ""
  },
  {
   "property": "C19",
   "status": "proved",
   "theorems": [
    "Flapi.FTypes.C19_unique_names",
    "Flapi.FTypes.C19_distinct_types",
    "Flapi.FTypes.C19_printed_name",
    "Flapi.FTypes.C19_foreign_display",
    "Flapi.FTypes.C19_set_prefix"
   ],
   "note": ""
  },
  {
   "property": "C20",
   "status": "proved",
   "theorems": [
    "Flapi.Macro.C20_every_template_readable",
    "Flapi.Macro.C20_expand",
    "Flapi.Macro.C20_no_call_unchanged",
    "Flapi.Macro.C20_no_bang_unchanged",
    "Flapi.Macro.C20_one_call",
    "Flapi.Macro.C20_reading_unique",
    "Flapi.Macro.C20_no_fuel",
    "Flapi.Macro.C20_params",
    "Flapi.Macro.C20_params_blanks",
    "Flapi.Macro.C20_finding_non_ascii_word_panics",
    "Flapi.Macro.C20_finding_non_ascii_param_cut"
   ],
   "note": ""
  },
  {
   "property": "C21",
   "status": "proved",
   "theorems": [
    "Flapi.Config.C21_accepts_iff",
    "Flapi.Config.C21_two_applicable_rejected",
    "Flapi.Config.C21_survivor_unmodified",
    "Flapi.Config.C21_none_applies",
    "Flapi.Config.C21_kept_applies",
    "Flapi.Config.C21_unknown_option",
    "Flapi.Config.C21_cpp_exactly_one",
    "Flapi.Config.C21_cpp_follows_config",
    "Flapi.Config.C21_rule_directions",
    "Flapi.Config.C21_java_exactly_one"
   ],
   "note": ""
  },
  {
   "property": "C22",
   "status": "proved",
   "theorems": [
    "Flapi.Cpp.C22_exactly_needed",
    "Flapi.Cpp.C22_each_once",
    "Flapi.Cpp.C22_in_order",
    "Flapi.Cpp.C22_first_use_order"
   ],
   "note": ""
  },
  {
   "property": "C23",
   "status": "proved",
   "theorems": [
    "Flapi.Enum.C23_too_large_rejected",
    "Flapi.Enum.C23_round_trip",
    "Flapi.Enum.C23_only_positions_accepted",
    "Flapi.Enum.C23_finding_alias_items"
   ],
   "note": ""
  },
  {
   "property": "C24",
   "status": "proved",
   "theorems": [
    "Flapi.Enum.C24_too_large_rejected",
    "Flapi.Enum.C24_round_trip",
    "Flapi.Enum.C24_others_rejected",
    "Flapi.Enum.C24_option_round_trip"
   ],
   "note": ""
  },
  {
   "property": "C25",
   "status": "proved",
   "theorems": [
    "Flapi.ClassParse.C25_accepted_iff",
    "Flapi.ClassParse.C25_kinds",
    "Flapi.ClassParse.C25_recorded_types",
    "Flapi.ClassParse.C25_self_type",
    "Flapi.ClassParse.C25_constructors_agree",
    "Flapi.ClassParse.C25_dummy_constructor",
    "Flapi.ClassParse.C25_code_and_copy",
    "Flapi.ClassParse.C25_foreign_name",
    "Flapi.ClassParse.C25_callback",
    "Flapi.ClassParse.C25_finding_dummy_overrides"
   ],
   "note": ""
  },
  {
   "property": "C26",
   "status": "proved",
   "theorems": [
    "Flapi.CppNames.C26_symbol_determines_function",
    "Flapi.CppNames.C26_same_class",
    "Flapi.CppNames.C26_program_symbols_distinct",
    "Flapi.CppNames.C26_finding_underscore",
    "Flapi.CppNames.C26_finding_access",
    "Flapi.CppNames.C26_finding_delete"
   ],
   "note": ""
  },
  {
   "property": "C27",
   "status": "proved",
   "theorems": [
    "Flapi.RuleParse.C27_parse",
    "Flapi.RuleParse.C27_unconverted",
    "Flapi.RuleParse.C27_converted",
    "Flapi.RuleParse.C27_filed",
    "Flapi.RuleParse.C27_code",
    "Flapi.RuleParse.C27_finding_panic",
    "Flapi.RuleParse.C27_finding_panic_long",
    "Flapi.RuleParse.C27_finding_out_left"
   ],
   "note": ""
  },
  {
   "property": "C28",
   "status": "proved",
   "theorems": [
    "Flapi.Stale.C28_exact",
    "Flapi.Stale.C28_succeeds_iff",
    "Flapi.Stale.C28_failure_safe",
    "Flapi.Stale.C28_cpp",
    "Flapi.Stale.C28_java",
    "Flapi.Stale.C28_disabled"
   ],
   "note": ""
  },
  {
   "property": "C29",
   "status": "proved",
   "theorems": [
    "Flapi.Expand.C29_output_content",
    "Flapi.Expand.C29_all_macros_accepted",
    "Flapi.Expand.C29_error_writes_nothing",
    "Flapi.Expand.C29_success_file",
    "Flapi.Expand.C29_rustfmt_output_only_on_success"
   ],
   "note": ""
  },
  {
   "property": "C30",
   "status": "proved",
   "theorems": [
    "Flapi.JavaNames.C30_symbol_is_what_the_jvm_looks_up",
    "Flapi.JavaNames.C30_finding_digit",
    "Flapi.JavaNames.C30_finding_other_characters",
    "Flapi.JavaNames.C30_symbols_distinct"
   ],
   "note": ""
  },
  {
   "property": "C31",
   "status": "proved",
   "theorems": [
    "Flapi.JavaNames.C31_signature_is_descriptor",
    "Flapi.JavaNames.C31_descriptor_unambiguous",
    "Flapi.JavaNames.C31_finding_boxed",
    "Flapi.JavaNames.C31_finding_object_result",
    "Flapi.JavaNames.C31_finding_unknown_type_panics"
   ],
   "note": ""
  },
  {
   "property": "C32",
   "status": "proved",
   "theorems": [
    "Flapi.FindCache.C32_code_accepted",
    "Flapi.FindCache.C32_code_load",
    "Flapi.FindCache.C32_finding_last_comma",
    "Flapi.FindCache.C32_finding_not_seen",
    "Flapi.FindCache.C32_class_conflict_refused",
    "Flapi.FindCache.C32_member_conflict_refused",
    "Flapi.FindCache.C32_unknown_class_refused",
    "Flapi.FindCache.C32_load",
    "Flapi.FindCache.C32_unload",
    "Flapi.FindCache.C32_finding_spurious_refusal",
    "Flapi.FindCache.C32_finding_same_id"
   ],
   "note": ""
  },
  {
   "property": "C33",
   "status": "proved",
   "theorems": [
    "Flapi.JavaCode.C33_imports_iff_used",
    "Flapi.JavaCode.C33_printed_is_used",
    "Flapi.JavaCode.C33_argument_annotation_printed",
    "Flapi.JavaCode.C33_annotation_choice",
    "Flapi.JavaCode.C33_finding_both_annotations",
    "Flapi.JavaCode.C33_finding_unused_import"
   ],
   "note": ""
  },
  {
   "property": "C34",
   "status": "proved",
   "theorems": [
    "Flapi.JavaConv.C34_argument_code",
    "Flapi.JavaCode.C34_call_arguments",
    "Flapi.JavaCode.C34_static",
    "Flapi.JavaCode.C34_method",
    "Flapi.JavaCode.C34_constructor",
    "Flapi.JavaCode.C34_too_many",
    "Flapi.JavaCode.C34_fence_declarations",
    "Flapi.JavaCode.C34_finding_receiver_not_protected"
   ],
   "note": ""
  },
  {
   "property": "C35",
   "status": "proved",
   "theorems": [
    "Flapi.JavaLife.C35_finding_concurrent_give",
    "Flapi.JavaLife.C35_finding_concurrent_use",
    "Flapi.JavaLife.C35_finding_receiver_collected",
    "Flapi.JavaLife.C35_finding_lend_then_give",
    "Flapi.JavaLife.C35_finding_give_twice",
    "Flapi.JavaLife.C35_finding_leak",
    "Flapi.JavaLife.C35_finding_optional_copy",
    "Flapi.JavaLife.C35_no_leak",
    "Flapi.JavaLife.C35_all_destroyed",
    "Flapi.JavaLife.C35_single_thread_no_leak",
    "Flapi.JavaLife.C35_safe",
    "Flapi.JavaLife.C35_single_thread",
    "Flapi.JavaLife.C35_gc",
    "Flapi.JavaLife.C35_concurrent_delete"
   ],
   "note": ""
  },
  {
   "property": "C36",
   "status": "proved",
   "theorems": [
    "Flapi.JavaCallback.C36_attached_inside",
    "Flapi.JavaCallback.C36_exit_restores",
    "Flapi.JavaCallback.C36_detach_outermost",
    "Flapi.JavaCallback.C36_global_ref",
    "Flapi.JavaCallback.C36_drop",
    "Flapi.JavaCallback.C36_finding_leak",
    "Flapi.JavaCallback.C36_dispatch",
    "Flapi.JavaCallback.C36_variadic"
   ],
   "note": ""
  },
  {
   "property": "C37",
   "status": "proved",
   "theorems": [
    "Flapi.JavaValues.C37_to_java_exact",
    "Flapi.JavaValues.C37_to_java_refused_iff",
    "Flapi.JavaValues.C37_from_java_exact",
    "Flapi.JavaValues.C37_from_java_refused_iff",
    "Flapi.JavaValues.C37_round_trip",
    "Flapi.JavaValues.C37_bool",
    "Flapi.JavaValues.C37_pointer",
    "Flapi.JavaValues.C37_optional_object",
    "Flapi.JavaValues.C37_optional_number",
    "Flapi.JavaValues.C37_time",
    "Flapi.JavaValues.C37_finding_time_wraps",
    "Flapi.JavaValues.C37_same_representation"
   ],
   "note": ""
  },
  {
   "property": "C38",
   "status": "proved",
   "theorems": [
    "Flapi.Jni.C38_utf16_of_every_text",
    "Flapi.Jni.C38_well_formed_iff",
    "Flapi.Jni.C38_send",
    "Flapi.Jni.C38_read",
    "Flapi.Jni.C38_ill_formed",
    "Flapi.Jni.C38_null",
    "Flapi.Jni.C38_rust_java_rust",
    "Flapi.Jni.C38_java_rust_java",
    "Flapi.Jni.C38_finding_long_string_cut",
    "Flapi.Jni.C38_finding_long_string_null"
   ],
   "note": ""
  },
  {
   "property": "C39",
   "status": "proved",
   "theorems": [
    "Flapi.Containers.C39_refines",
    "Flapi.Containers.C39_all_freed"
   ],
   "note": ""
  },
  {
   "property": "C40",
   "status": "proved",
   "theorems": [
    "Flapi.Containers.C40_copy_ok",
    "Flapi.Containers.C40_finding_copy_of_empty"
   ],
   "note": ""
  },
  {
   "property": "C41",
   "status": "proved",
   "theorems": [
    "Flapi.SliceIter.C41_slice",
    "Flapi.SliceIter.C41_moves",
    "Flapi.SliceIter.C41_order",
    "Flapi.SliceIter.C41_difference",
    "Flapi.SliceIter.C41_add_then_difference",
    "Flapi.SliceIter.C41_finding_negative_difference",
    "Flapi.SliceIter.C41_loop",
    "Flapi.SliceIter.C41_finding_zero_sized",
    "Flapi.SliceIter.C41_move"
   ],
   "note": ""
  },
  {
   "property": "C42",
   "status": "proved",
   "theorems": [
    "Flapi.CppClass.C42_destroyed_once",
    "Flapi.CppClass.C42_all_destroyed",
    "Flapi.CppClass.C42_owner_valid",
    "Flapi.CppClass.C42_no_ub",
    "Flapi.CppClass.C42_refs_destroy_nothing",
    "Flapi.CppClass.C42_moved_from",
    "Flapi.CppClass.C42_copy",
    "Flapi.CppClass.C42_finding_assign_own_reference"
   ],
   "note": ""
  },
  {
   "property": "C43",
   "status": "proved",
   "theorems": [
    "Flapi.Abi.C43_rust_to_cpp",
    "Flapi.Abi.C43_cpp_to_rust",
    "Flapi.Abi.C43_round_trip",
    "Flapi.Abi.C43_nothing_confused",
    "Flapi.Abi.C43_optional_reference",
    "Flapi.Abi.C43_finding_tuple_argument",
    "Flapi.Abi.C43_finding_same_alternatives",
    "Flapi.Abi.C43_finding_same_alternatives_reachable",
    "Flapi.Abi.C43_finding_string_view"
   ],
   "note": ""
  },
  {
   "property": "C44",
   "status": "proved",
   "theorems": [
    "Flapi.CppNames.C44_unchanged",
    "Flapi.CppNames.C44_elaborated",
    "Flapi.CppNames.C44_finding_inside_words"
   ],
   "note": ""
  },
  {
   "property": "C45",
   "status": "proved",
   "theorems": [
    "Flapi.CppCallback.C45_layout",
    "Flapi.CppCallback.C45_dispatch",
    "Flapi.CppCallback.C45_deleted_once",
    "Flapi.CppCallback.C45_no_ub",
    "Flapi.CppCallback.C45_conversation",
    "Flapi.CppCallback.C45_finding_clone",
    "Flapi.CppCallback.C45_finding_opaque",
    "Flapi.CppCallback.C45_compiles_iff",
    "Flapi.CppCallback.C45_lent_must_outlive"
   ],
   "note": ""
  },
  {
   "property": "C46",
   "status": "proved",
   "theorems": [
    "Flapi.Py.C46_result_typed",
    "Flapi.Py.C46_result_storage",
    "Flapi.Py.C46_finding_vec_by_reference",
    "Flapi.Py.C46_storage",
    "Flapi.Py.C46_argument_typed",
    "Flapi.Py.C46_mut_needs_lock",
    "Flapi.Py.C46_by_value_needs_clone",
    "Flapi.Py.C46_finding_arc_by_value",
    "Flapi.Py.C46_finding_option_reference",
    "Flapi.Py.C46_finding_enum_order"
   ],
   "note": ""
  },
  {
   "property": "C47",
   "status": "proved",
   "theorems": [
    "Flapi.Py.C47_deadlock_iff",
    "Flapi.Py.C47_distinct_objects",
    "Flapi.Py.C47_finding_self"
   ],
   "note": ""
  },
  {
   "property": "C48",
   "status": "proved",
   "theorems": [
    "Flapi.TMap.C48_complete",
    "Flapi.TMap.C48_found_iff",
    "Flapi.TMap.C48_order_irrelevant",
    "Flapi.TMap.C48_finding_order",
    "Flapi.TMap.C48_built_path_genuine",
    "Flapi.TMap.C48_find_or_build",
    "Flapi.TMap.C48_only_instances"
   ],
   "note": ""
  },
  {
   "property": "C49",
   "status": "proved",
   "theorems": [
    "Flapi.Cpp.C49_c_parameters",
    "Flapi.Cpp.C49_c_parameters_comma",
    "Flapi.Cpp.C49_cpp_parameters",
    "Flapi.Cpp.C49_one_expression_per_argument",
    "Flapi.Cpp.C49_introduced_names_distinct",
    "Flapi.Cpp.C49_plain_argument",
    "Flapi.Cpp.C49_converted_argument"
   ],
   "note": ""
  },
  {
   "property": "C50",
   "status": "proved",
   "theorems": [
    "Flapi.JavaNames.C50_class_symbols_distinct",
    "Flapi.JavaNames.C50_finding_delete",
    "Flapi.JavaNames.C50_finding_do_prefix"
   ],
   "note": ""
  },
  {
   "property": "C51",
   "status": "proved",
   "theorems": [
    "Flapi.FTypes.C51_safe",
    "Flapi.FTypes.C51_simple_rule",
    "Flapi.FTypes.C51_rust_side",
    "Flapi.FTypes.C51_foreign_side",
    "Flapi.FTypes.C51_no_rewrite_in_same_file",
    "Flapi.FTypes.C51_prefix_mismatch",
    "Flapi.FTypes.C51_error_not_atomic"
   ],
   "note": ""
  },
  {
   "property": "C53",
   "status": "proved",
   "theorems": [
    "Flapi.Enum.C53_round_trip",
    "Flapi.Enum.C53_only_items_accepted",
    "Flapi.Enum.C53_small_discriminants",
    "Flapi.Enum.C53_finding_wide_discriminants",
    "Flapi.Enum.C53_finding_differs_from_cpp"
   ],
   "note": ""
  },
  {
   "property": "C54",
   "status": "proved",
   "theorems": [
    "Flapi.JavaValues.C54_result",
    "Flapi.JavaValues.C54_finding_nul"
   ],
   "note": ""
  },
  {
   "property": "C55",
   "status": "proved",
   "theorems": [
    "Flapi.Jni.C55_strings",
    "Flapi.Jni.C55_strings_too_long",
    "Flapi.Jni.C55_objects",
    "Flapi.Jni.C55_objects_too_long",
    "Flapi.Jni.C55_read_objects",
    "Flapi.Jni.C55_objects_round_trip",
    "Flapi.Jni.C55_finding_null_element",
    "Flapi.Jni.C55_consumed_element",
    "Flapi.Jni.C55_slice",
    "Flapi.Jni.C55_slice_too_long",
    "Flapi.Jni.C55_array_argument",
    "Flapi.Jni.C55_null_array"
   ],
   "note": ""
  },
  {
   "property": "C56",
   "status": "proved",
   "theorems": [
    "Flapi.Alias.C56_other_names",
    "Flapi.Alias.C56_not_a_type",
    "Flapi.Alias.C56_foreign_vec_functions",
    "Flapi.Alias.C56_finding_function_pointers",
    "Flapi.Alias.C56_struct_names",
    "Flapi.Alias.C56_union_names",
    "Flapi.Alias.C56_header",
    "Flapi.Alias.C56_fields",
    "Flapi.Alias.C56_characters",
    "Flapi.Alias.C56_finding_user_types",
    "Flapi.Alias.C56_finding_optional_class"
   ],
   "note": ""
  },
  {
   "property": "C57",
   "status": "proved",
   "theorems": [
    "Flapi.Py.C57_arguments",
    "Flapi.Py.C57_invalid_enumerator",
    "Flapi.Py.C57_determined",
    "Flapi.Py.C57_finding_wide_numbers",
    "Flapi.Py.C57_results",
    "Flapi.Py.C57_round_trip",
    "Flapi.Py.C57_finding_nested_option",
    "Flapi.Py.C57_unambiguous"
   ],
   "note": ""
  },
  {
   "property": "C58",
   "status": "proved",
   "theorems": [
    "Flapi.ReadFile.C58_content",
    "Flapi.ReadFile.C58_last_conversion",
    "Flapi.ReadFile.C58_accepts",
    "Flapi.ReadFile.C58_no_panic",
    "Flapi.ReadFile.C58_types",
    "Flapi.ReadFile.C58_one_module",
    "Flapi.ReadFile.C58_width",
    "Flapi.ReadFile.C58_left_out",
    "Flapi.ReadFile.C58_next_file",
    "Flapi.ReadFile.C58_finding_rule_cfg",
    "Flapi.ReadFile.C58_finding_not",
    "Flapi.ReadFile.C58_finding_last_cfg",
    "Flapi.ReadFile.C58_finding_skipped",
    "Flapi.ReadFile.C58_finding_lost",
    "Flapi.ReadFile.C58_last_conversion_used",
    "Flapi.ReadFile.C58_source_attributes",
    "Flapi.ReadFile.C58_source_strip",
    "Flapi.ReadFile.C58_finding_misspelt",
    "Flapi.ReadFile.C58_source_conditions",
    "Flapi.ReadFile.C58_source_width",
    "Flapi.ReadFile.C58_finding_nested_cfg",
    "Flapi.ReadFile.C58_source_types",
    "Flapi.ReadFile.C58_source_items",
    "Flapi.ReadFile.C58_source_conversion",
    "Flapi.ReadFile.C58_finding_qualified_trait",
    "Flapi.ReadFile.C58_source_refused",
    "Flapi.ReadFile.C58_finding_both_hints"
   ],
   "note": ""
  },
  {
   "property": "C59",
   "status": "proved",
   "theorems": [
    "Flapi.Inst.C59_instance_accepted",
    "Flapi.Inst.C59_instance_only_if",
    "Flapi.Inst.C59_type_expression",
    "Flapi.Inst.C59_rust_code",
    "Flapi.Inst.C59_rust_code_accepted",
    "Flapi.Inst.C59_foreign_code",
    "Flapi.Inst.C59_foreign_code_accepted",
    "Flapi.Inst.C59_type_name",
    "Flapi.Inst.C59_type_name_accepted",
    "Flapi.Inst.C59_module_name",
    "Flapi.Inst.C59_types",
    "Flapi.Inst.C59_types_without_macros",
    "Flapi.Inst.C59_finding_type_error_swallowed",
    "Flapi.Inst.C59_aliases",
    "Flapi.Inst.C59_alias_is_identifier",
    "Flapi.Inst.C59_alias_keeps_identifiers",
    "Flapi.Inst.C59_finding_alias_collisions",
    "Flapi.Inst.C59_foreign_rule",
    "Flapi.Inst.C59_instance",
    "Flapi.Inst.C59_only_generic_rules",
    "Flapi.Inst.C59_c_items",
    "Flapi.Inst.C59_finding_code_modules_dropped",
    "Flapi.Inst.C59_finding_user_macro_parameters"
   ],
   "note": ""
  },
  {
   "property": "C52",
   "status": "proved",
   "theorems": [
    "Flapi.Headers.C52_declared_once",
    "Flapi.Headers.C52_rust_counterparts",
    "Flapi.Headers.C52_dependencies_first",
    "Flapi.Headers.C52_extern_blocks",
    "Flapi.Headers.C52_code_once",
    "Flapi.Headers.C52_ids_distinct",
    "Flapi.Headers.C52_append_only",
    "Flapi.Headers.C52_name_conflict",
    "Flapi.Headers.C52_types_known",
    "Flapi.Headers.C52_unmapped_rejected",
    "Flapi.Headers.C52_finding_two_headers",
    "Flapi.Headers.C52_finding_include_in_extern",
    "Flapi.Headers.C52_finding_static_without_include",
    "Flapi.Headers.C52_finding_code_in_extern",
    "Flapi.Headers.C52_finding_self_nested"
   ],
   "note": ""
  },
  {
   "property": "C60",
   "status": "proved",
   "theorems": [
    "Flapi.Comments.C60_cpp_comments_invisible",
    "Flapi.Comments.C60_cpp_enum_header",
    "Flapi.Comments.C60_c_enum_header",
    "Flapi.Comments.C60_java_comments_invisible",
    "Flapi.Comments.C60_java_enum_file",
    "Flapi.Comments.C60_python_docs",
    "Flapi.Comments.C60_finding_second_line_is_code",
    "Flapi.Comments.C60_finding_backslash_hides_next_line",
    "Flapi.Comments.C60_finding_java_comment_closed",
    "Flapi.Comments.C60_finding_java_unicode_escape",
    "Flapi.Comments.C60_finding_python_block"
   ],
   "note": ""
  },
  {
   "property": "C61",
   "status": "proved",
   "theorems": [
    "Flapi.CppClassGen.C61_rust_functions",
    "Flapi.CppClassGen.C61_c_prototypes",
    "Flapi.CppClassGen.C61_one_type_two_names",
    "Flapi.CppClassGen.C61_cpp_members",
    "Flapi.CppClassGen.C61_class_kinds",
    "Flapi.CppClassGen.C61_cpp_frame",
    "Flapi.CppClassGen.C61_values",
    "Flapi.CppClassGen.C61_delete_clone",
    "Flapi.CppClassGen.C61_accepted",
    "Flapi.CppClassGen.C61_symbols",
    "Flapi.CppClassGen.C61_finding_foreign_code_private",
    "Flapi.CppClassGen.C61_finding_copy_wins",
    "Flapi.CppClassGen.C61_finding_keywords"
   ],
   "note": ""
  },
  {
   "property": "C62",
   "status": "proved",
   "theorems": [
    "Flapi.JavaClassGen.C62_rust_functions",
    "Flapi.JavaClassGen.C62_java_class",
    "Flapi.JavaClassGen.C62_one_type_two_names",
    "Flapi.JavaClassGen.C62_values",
    "Flapi.JavaClassGen.C62_delete",
    "Flapi.JavaClassGen.C62_symbols",
    "Flapi.JavaClassGen.C62_class_trait",
    "Flapi.JavaClassGen.C62_accepted",
    "Flapi.JavaClassGen.C62_rust_parameters",
    "Flapi.JavaClassGen.C62_finding_constructor_field",
    "Flapi.JavaConv.C62_result_code"
   ],
   "note": ""
  },
  {
   "property": "C63",
   "status": "proved",
   "theorems": [
    "Flapi.CppRegister.C63_finding_plain_class",
    "Flapi.CppRegister.C63_accepted",
    "Flapi.CppRegister.C63_frame",
    "Flapi.CppRegister.C63_lookup",
    "Flapi.CppRegister.C63_c_types",
    "Flapi.CppRegister.C63_conversions",
    "Flapi.CppRegister.C63_traits",
    "Flapi.CppRegister.C63_finding_known_type_keeps_traits",
    "Flapi.CppRegister.C63_codes",
    "Flapi.CppRegister.C63_pointee",
    "Flapi.CppRegister.C63_names",
    "Flapi.CppRegister.C63_finding_same_type"
   ],
   "note": ""
  },
  {
   "property": "C64",
   "status": "proved",
   "theorems": [
    "Flapi.JavaRegister.C64_accepted",
    "Flapi.JavaRegister.C64_frame",
    "Flapi.JavaRegister.C64_lookup",
    "Flapi.JavaRegister.C64_names",
    "Flapi.JavaRegister.C64_native_types",
    "Flapi.JavaRegister.C64_conversions",
    "Flapi.JavaRegister.C64_traits",
    "Flapi.JavaRegister.C64_finding_known_type_keeps_traits",
    "Flapi.JavaRegister.C64_codes",
    "Flapi.JavaRegister.C64_ownership",
    "Flapi.JavaRegister.C64_finding_copy_of_smart_pointer",
    "Flapi.JavaRegister.C64_finding_same_type"
   ],
   "note": ""
  },
  {
   "property": "C65",
   "status": "proved",
   "theorems": [
    "Flapi.MapType.C65_known_first",
    "Flapi.MapType.C65_remembered",
    "Flapi.MapType.C65_first_generic",
    "Flapi.MapType.C65_fits_sound",
    "Flapi.MapType.C65_instance_fits",
    "Flapi.MapType.C65_result",
    "Flapi.MapType.C65_fuel",
    "Flapi.MapType.C65_no_conversion",
    "Flapi.MapType.C65_stable",
    "Flapi.MapType.C65_finding_endless",
    "Flapi.MapType.C65_finding_history"
   ],
   "note": ""
  },
  {
   "property": "C66",
   "status": "proved",
   "theorems": [
    "Flapi.CppInterface.C66_agree",
    "Flapi.CppInterface.C66_members_distinct",
    "Flapi.CppInterface.C66_accepted",
    "Flapi.CppInterface.C66_names",
    "Flapi.CppInterface.C66_lookup",
    "Flapi.CppInterface.C66_conversions",
    "Flapi.CppInterface.C66_finding_in_out",
    "Flapi.CppInterface.C66_finding_result_placeholder"
   ],
   "note": ""
  },
  {
   "property": "C67",
   "status": "proved",
   "theorems": [
    "Flapi.JavaInterface.C67_agree",
    "Flapi.JavaInterface.C67_dispatch",
    "Flapi.JavaInterface.C67_missing_method",
    "Flapi.JavaInterface.C67_results",
    "Flapi.JavaInterface.C67_accepted",
    "Flapi.JavaInterface.C67_lookup",
    "Flapi.JavaInterface.C67_conversions",
    "Flapi.JavaInterface.C67_finding_one_struct",
    "Flapi.JavaInterface.C67_finding_exception"
   ],
   "note": ""
  },
  {
   "property": "C68",
   "status": "proved",
   "theorems": [
    "Flapi.PyModule.C68_references",
    "Flapi.PyModule.C68_names_distinct",
    "Flapi.PyModule.C68_finding_error",
    "Flapi.PyModule.C68_storage",
    "Flapi.PyModule.C68_by_value",
    "Flapi.PyModule.C68_self",
    "Flapi.PyModule.C68_call",
    "Flapi.PyModule.C68_result",
    "Flapi.PyModule.C68_class_text",
    "Flapi.PyModule.C68_parameters",
    "Flapi.PyModule.C68_finding_two_constructors",
    "Flapi.PyModule.C68_finding_inline_and_access",
    "Flapi.PyModule.C68_finding_fallible_constructor",
    "Flapi.PyModule.C68_finding_enum_declared_later",
    "Flapi.PyModule.C68_finding_interface",
    "Flapi.PyModule.C68_finding_long_comment",
    "Flapi.PyModule.C68_module",
    "Flapi.PyModule.C68_class",
    "Flapi.PyModule.C68_enum",
    "Flapi.PyModule.C68_accepts"
   ],
   "note": ""
  },
  {
   "property": "C69",
   "status": "proved",
   "theorems": [
    "Flapi.Requests.C69_nested_in",
    "Flapi.Requests.C69_boundary",
    "Flapi.Requests.C69_bad_direction",
    "Flapi.Requests.C69_unmapped",
    "Flapi.Requests.C69_java_helper",
    "Flapi.Requests.C69_java_result",
    "Flapi.Requests.C69_finding_java_direction",
    "Flapi.Requests.C69_finding_java_incoming",
    "Flapi.Requests.C69_finding_keyword_in_name",
    "Flapi.Requests.C69_nested_out",
    "Flapi.Requests.C69_pair_out",
    "Flapi.Requests.C69_pair_in",
    "Flapi.Requests.C69_triple_out",
    "Flapi.Requests.C69_triple_in",
    "Flapi.Requests.C69_option_out",
    "Flapi.Requests.C69_option_in",
    "Flapi.Requests.C69_boost_out"
   ],
   "note": ""
  },
  {
   "property": "C70",
   "status": "proved",
   "theorems": [
    "Flapi.Driver.C70_configured",
    "Flapi.Driver.C70_configure_accepted",
    "Flapi.Driver.C70_order_irrelevant",
    "Flapi.Driver.C70_null_annotation",
    "Flapi.Driver.C70_default_optional_package",
    "Flapi.Driver.C70_run",
    "Flapi.Driver.C70_ids_name_files",
    "Flapi.Driver.C70_expand_one",
    "Flapi.Driver.C70_bad_input",
    "Flapi.Driver.C70_nothing_written_early",
    "Flapi.Driver.C70_backend_input"
   ],
   "note": ""
  },
  {
   "property": "C71",
   "status": "proved",
   "theorems": [
    "Flapi.Diag.C71_quotation",
    "Flapi.Diag.C71_marks",
    "Flapi.Diag.C71_one_line",
    "Flapi.Diag.C71_finding_first_line_short",
    "Flapi.Diag.C71_printing_never_fails",
    "Flapi.Diag.C71_every_note_reported",
    "Flapi.Diag.C71_lines"
   ],
   "note": ""
  },
  {
   "property": "C72",
   "status": "proved",
   "theorems": [
    "Flapi.Layout.C72_test_implies_agreement",
    "Flapi.Layout.C72_no_false_alarm",
    "Flapi.Layout.C72_members_disjoint",
    "Flapi.Layout.C72_defined_type_agrees",
    "Flapi.Layout.C72_own_types_tested",
    "Flapi.Layout.C72_finding_hidden_member"
   ],
   "note": ""
  },
  {
   "property": "C73",
   "status": "proved",
   "theorems": [
    "Flapi.EnumCallback.C73_class_name",
    "Flapi.EnumCallback.C73_enum_value",
    "Flapi.EnumCallback.C73_same_as_by_number",
    "Flapi.EnumCallback.C73_accepted",
    "Flapi.EnumCallback.C73_object",
    "Flapi.EnumCallback.C73_class_field",
    "Flapi.EnumCallback.C73_finding_item_case",
    "Flapi.EnumCallback.C73_finding_underscore",
    "Flapi.EnumCallback.C73_finding_class_case"
   ],
   "note": ""
  },
  {
   "property": "C74",
   "status": "proved",
   "theorems": [
    "Flapi.Recursion.C74_questions_simpler",
    "Flapi.Recursion.C74_local",
    "Flapi.Recursion.C74_ends",
    "Flapi.Recursion.C74_unique",
    "Flapi.Recursion.C74_boundary_simpler",
    "Flapi.Recursion.C74_builtin_guarded",
    "Flapi.Recursion.C74_finding_bare_parameter",
    "Flapi.Recursion.C74_result"
   ],
   "note": ""
  },
  {
   "property": "C75",
   "status": "proved",
   "theorems": [
    "Flapi.TokenParse.C75_enum",
    "Flapi.TokenParse.C75_interface",
    "Flapi.TokenParse.C75_class",
    "Flapi.TokenParse.C75_method_docs",
    "Flapi.TokenParse.C75_finding_last_comma",
    "Flapi.TokenParse.C75_nothing_left",
    "Flapi.TokenParse.C75_attributes",
    "Flapi.TokenParse.C75_finding_interface_repeats",
    "Flapi.TokenParse.C75_finding_lost_docs"
   ],
   "note": ""
  },
  {
   "property": "C76",
   "status": "proved",
   "theorems": [
    "Flapi.RuleTokens.C76_rule",
    "Flapi.RuleTokens.C76_c_items",
    "Flapi.RuleTokens.C76_panic",
    "Flapi.RuleTokens.C76_alias",
    "Flapi.RuleTokens.C76_finding_c_items_unread",
    "Flapi.RuleTokens.C76_finding_alias_unread",
    "Flapi.RuleTokens.C76_finding_param_twice"
   ],
   "note": ""
  },
  {
   "property": "C77",
   "status": "proved",
   "theorems": [
    "Flapi.GenericCode.C77_code",
    "Flapi.GenericCode.C77_fails_iff",
    "Flapi.GenericCode.C77_plain_code",
    "Flapi.GenericCode.C77_depends_on_mentioned",
    "Flapi.GenericCode.C77_finding_nested_not_filled",
    "Flapi.GenericCode.C77_finding_string_changed"
   ],
   "note": ""
  },
  {
   "property": "C78",
   "status": "proved",
   "theorems": [
    "Flapi.BackendRun.C78_result",
    "Flapi.BackendRun.C78_directory",
    "Flapi.BackendRun.C78_history_independent",
    "Flapi.BackendRun.C78_rerun_untouched",
    "Flapi.BackendRun.C78_every_moment",
    "Flapi.BackendRun.C78_cpp_headers",
    "Flapi.BackendRun.C78_java_classes",
    "Flapi.BackendRun.C78_cpp_clash",
    "Flapi.BackendRun.C78_cpp_own_files",
    "Flapi.BackendRun.C78_java_clash",
    "Flapi.BackendRun.C78_library_files",
    "Flapi.BackendRun.C78_finding_same_name",
    "Flapi.BackendRun.C78_finding_mixed_versions"
   ],
   "note": ""
  },
  {
   "property": "C79",
   "status": "proved",
   "theorems": [
    "Flapi.EnumRegister.C79_cpp_accepted",
    "Flapi.EnumRegister.C79_java_accepted",
    "Flapi.EnumRegister.C79_cpp_lookup",
    "Flapi.EnumRegister.C79_java_lookup",
    "Flapi.EnumRegister.C79_traits",
    "Flapi.EnumRegister.C79_frame",
    "Flapi.EnumRegister.C79_java_callbacks",
    "Flapi.EnumRegister.C79_finding_mentioned_before",
    "Flapi.EnumRegister.C79_finding_declared_later",
    "Flapi.EnumRegister.C79_finding_refused_late"
   ],
   "note": ""
  },
  {
   "property": "C80",
   "status": "proved",
   "theorems": [
    "Flapi.Builtin.C80_sound",
    "Flapi.Builtin.C80_complete",
    "Flapi.Builtin.C80_code",
    "Flapi.Builtin.C80_same_object",
    "Flapi.Builtin.C80_shared_stays_shared",
    "Flapi.Builtin.C80_only_references",
    "Flapi.Builtin.C80_search",
    "Flapi.Builtin.C80_found",
    "Flapi.Builtin.C80_finding_mut_of_copy",
    "Flapi.Builtin.C80_mut_variables",
    "Flapi.Builtin.C80_finding_mut_parameter"
   ],
   "note": ""
  },
  {
   "property": "C81",
   "status": "proved",
   "theorems": [
    "Flapi.Pointers.C81_program",
    "Flapi.Pointers.C81_sound",
    "Flapi.Pointers.C81_complete",
    "Flapi.Pointers.C81_same_object",
    "Flapi.Pointers.C81_no_more_access",
    "Flapi.Pointers.C81_shared_pointers",
    "Flapi.Pointers.C81_call",
    "Flapi.Pointers.C81_stuck",
    "Flapi.Pointers.C81_code",
    "Flapi.Pointers.C81_search",
    "Flapi.Pointers.C81_found",
    "Flapi.Pointers.C81_finding_same_object_twice",
    "Flapi.Pointers.C81_finding_cell_twice",
    "Flapi.Pointers.C81_finding_lifetime_argument"
   ],
   "note": ""
  },
  {
   "property": "C82",
   "status": "proved",
   "theorems": [
    "Flapi.SliceViews.C82_views",
    "Flapi.SliceViews.C82_exclusive",
    "Flapi.SliceViews.C82_elements",
    "Flapi.SliceViews.C82_moves",
    "Flapi.SliceViews.C82_round_trip",
    "Flapi.SliceViews.C82_finding_moved_from",
    "Flapi.SliceViews.C82_finding_self_move",
    "Flapi.SliceViews.C82_finding_dangling",
    "Flapi.SliceViews.C82_finding_two_exclusive",
    "Flapi.SliceViews.C82_finding_unchecked",
    "Flapi.SliceViews.C82_finding_pointer_type"
   ],
   "note": ""
  },
  {
   "property": "C83",
   "status": "proved",
   "theorems": [
    "Flapi.HeaderGraph.C83_ends",
    "Flapi.HeaderGraph.C83_compiles",
    "Flapi.HeaderGraph.C83_once",
    "Flapi.HeaderGraph.C83_circular",
    "Flapi.HeaderGraph.C83_finding_c_circle",
    "Flapi.HeaderGraph.C83_finding_inline_circle",
    "Flapi.HeaderGraph.C83_finding_callback_circle",
    "Flapi.HeaderGraph.C83_well_formed",
    "Flapi.HeaderGraph.C83_finding_names"
   ],
   "note": ""
  },
  {
   "property": "C84",
   "status": "proved",
   "theorems": [
    "Flapi.NameCache.C84_stays_valid",
    "Flapi.NameCache.C84_computed_once",
    "Flapi.NameCache.C84_compare",
    "Flapi.NameCache.C84_types",
    "Flapi.NameCache.C84_finding_thread_end"
   ],
   "note": ""
  },
  {
   "property": "C85",
   "status": "proved",
   "theorems": [
    "Flapi.Shapes.C85_pointer_only",
    "Flapi.Shapes.C85_pointer_all",
    "Flapi.Shapes.C85_option",
    "Flapi.Shapes.C85_vec",
    "Flapi.Shapes.C85_result_only",
    "Flapi.Shapes.C85_result_all",
    "Flapi.Shapes.C85_result_type",
    "Flapi.Shapes.C85_results_agree",
    "Flapi.Shapes.C85_slice",
    "Flapi.Shapes.C85_lifetimes",
    "Flapi.Shapes.C85_head",
    "Flapi.Shapes.C85_finding_qualified",
    "Flapi.Shapes.C85_finding_user_T",
    "Flapi.Shapes.C85_finding_repeated_lifetime"
   ],
   "note": ""
  },
  {
   "property": "C86",
   "status": "proved",
   "theorems": [
    "Flapi.Rustfmt.C86_result",
    "Flapi.Rustfmt.C86_no_deadlock",
    "Flapi.Rustfmt.C86_bounded",
    "Flapi.Rustfmt.C86_returns",
    "Flapi.Rustfmt.C86_final",
    "Flapi.Rustfmt.C86_same_choice"
   ],
   "note": ""
  },
  {
   "property": "C87",
   "status": "proved",
   "theorems": [
    "Flapi.Threads.C87_exclusion",
    "Flapi.Threads.C87_sequential",
    "Flapi.Threads.C87_lock_order",
    "Flapi.Threads.C87_calls_in_order",
    "Flapi.Threads.C87_real_time",
    "Flapi.Threads.C87_no_deadlock",
    "Flapi.Threads.C87_one_object",
    "Flapi.Threads.C87_terminates",
    "Flapi.Threads.C87_all_served",
    "Flapi.Threads.C87_finding_opposite_orders",
    "Flapi.Threads.C87_finding_same_object",
    "Flapi.Threads.C87_finding_view"
   ],
   "note": ""
  },
  {
   "property": "C88",
   "status": "proved",
   "theorems": [
    "Flapi.SharedOut.C88_right_content",
    "Flapi.SharedOut.C88_every_moment",
    "Flapi.SharedOut.C88_all_flushed",
    "Flapi.SharedOut.C88_no_waiting",
    "Flapi.SharedOut.C88_others",
    "Flapi.SharedOut.C88_up_to_date",
    "Flapi.SharedOut.C88_at_the_end",
    "Flapi.SharedOut.C88_finding_empty_after_success",
    "Flapi.SharedOut.C88_finding_mixed",
    "Flapi.SharedOut.C88_terminates"
   ],
   "note": ""
  },
  {
   "property": "C89",
   "status": "proved",
   "theorems": [
    "Flapi.Aliasing.C89_cpp",
    "Flapi.Aliasing.C89_java",
    "Flapi.Aliasing.C89_finding_smart_ptr",
    "Flapi.Aliasing.C89_call_defined",
    "Flapi.Aliasing.C89_received",
    "Flapi.Aliasing.C89_uses_defined",
    "Flapi.Aliasing.C89_history",
    "Flapi.Aliasing.C89_distinct",
    "Flapi.Aliasing.C89_finding_shared_self",
    "Flapi.Aliasing.C89_finding_java_twice",
    "Flapi.Aliasing.C89_finding_reentry"
   ],
   "note": ""
  },
  {
   "property": "C90",
   "status": "proved",
   "theorems": [
    "Flapi.JniRules.C90_argument_references",
    "Flapi.JniRules.C90_result_references",
    "Flapi.JniRules.C90_function_references",
    "Flapi.JniRules.C90_finding_callback_references_pile_up",
    "Flapi.JniRules.C90_finding_array_without_memory",
    "Flapi.JniRules.C90_finding_string_argument_without_memory",
    "Flapi.JniRules.C90_no_call_with_pending_exception",
    "Flapi.JniRules.C90_callback_leaves_no_exception",
    "Flapi.JniRules.C90_rule",
    "Flapi.JniRules.C90_callback_sees_exception",
    "Flapi.JniRules.C90_buffers_released",
    "Flapi.JniRules.C90_buffers_released_on_panic"
   ],
   "note": ""
  },
  {
   "property": "C91",
   "status": "proved",
   "theorems": [
    "Flapi.PyErrors.C91_message",
    "Flapi.PyErrors.C91_reported",
    "Flapi.PyErrors.C91_determines",
    "Flapi.PyErrors.C91_call",
    "Flapi.PyErrors.C91_finding_endless",
    "Flapi.PyErrors.C91_finding_self_cause",
    "Flapi.PyErrors.C91_finding_confused"
   ],
   "note": ""
  },
  {
   "property": "C92",
   "status": "proved",
   "theorems": [
    "Flapi.Config.C92_java",
    "Flapi.Config.C92_java_panics",
    "Flapi.Config.C92_cpp",
    "Flapi.Config.C92_width",
    "Flapi.Config.C92_finding_unchecked"
   ],
   "note": ""
  }
 ]
}