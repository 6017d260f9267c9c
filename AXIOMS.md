# Axioms per theorem

Output of `#print axioms` for every theorem in MANIFEST.json (generated).

| theorem | axioms |
|---|---|
| `Flapi.NameGen.C01_fresh` | propext |
| `Flapi.NameGen.C01_least` | propext, Quot.sound |
| `Flapi.NameGen.C01_total` | propext, Classical.choice, Quot.sound |
| `Flapi.NameGen.C01_panics_iff` | propext, Classical.choice, Quot.sound |
| `Flapi.NameGen.C01_sequence` | propext, Quot.sound |
| `Flapi.ClassParse.C02_faithful_and_distinct` | propext, Classical.choice, Quot.sound |
| `Flapi.ClassParse.C02_fresh_names` | propext, Classical.choice, Quot.sound |
| `Flapi.ClassParse.C02_accepted_iff` | propext, Classical.choice, Quot.sound |
| `Flapi.ClassParse.C02_accepted_methods` | propext, Classical.choice, Quot.sound |
| `Flapi.ClassParse.C02_methods_in_order` | propext, Classical.choice, Quot.sound |
| `Flapi.ClassParse.C02_call_text` | propext, Classical.choice, Quot.sound |
| `Flapi.ClassParse.C02_finding_second_self` | propext, Classical.choice, Quot.sound |
| `Flapi.SubstMap.C03_refines_partial_function` | propext, Quot.sound |
| `Flapi.SubstMap.C03_keys_nodup` | propext, Quot.sound |
| `Flapi.SubstMap.C03_listed_iff_get` | propext, Quot.sound |
| `Flapi.SubstMap.C03_list_round_trip` | propext, Quot.sound |
| `Flapi.SourceRegistry.C04_ids_stable` | propext, Quot.sound |
| `Flapi.SourceRegistry.C04_old_ids_stable` | propext, Quot.sound |
| `Flapi.SourceRegistry.C04_ids_distinct` | propext, Classical.choice, Quot.sound |
| `Flapi.SourceRegistry.C04_duplicates_refused` | propext, Classical.choice, Quot.sound |
| `Flapi.FileCache.C05_success_content` | propext, Quot.sound |
| `Flapi.FileCache.C05_no_fault_success` | propext |
| `Flapi.FileCache.C05_no_needless_write` | propext, Quot.sound |
| `Flapi.FileCache.C05_idempotent` | propext, Quot.sound |
| `Flapi.FileCache.C05_other_files_untouched` | propext, Quot.sound |
| `Flapi.FileCache.C05_memory_content` | propext |
| `Flapi.FileCache.C05_defined_iff` | propext |
| `Flapi.FileCache.C05_every_file_registered` | propext, Quot.sound |
| `Flapi.FileCache.C06_crash_old_or_prefix` | propext, Quot.sound |
| `Flapi.FileCache.C06_rerun_repairs` | propext, Quot.sound |
| `Flapi.FileCache.C06_error_without_write` | propext, Quot.sound |
| `Flapi.FileCache.C06_not_atomic` | propext, Classical.choice, Quot.sound |
| `Flapi.Extension.C07_runs_requested_calls` | propext, Quot.sound |
| `Flapi.Extension.C07_accept_iff` | propext, Quot.sound |
| `Flapi.Extension.C07_enum` | propext, Quot.sound |
| `Flapi.Extension.C07_reserved_inert` | propext, Quot.sound |
| `Flapi.Extension.C07_register` | propext, Classical.choice, Quot.sound |
| `Flapi.Extension.C07_register_plain` | propext, Classical.choice, Quot.sound |
| `Flapi.Extension.C07_java_rejects_plain_class` | propext, Classical.choice, Quot.sound |
| `Flapi.Extension.C07_java_accept_iff` | propext, Classical.choice, Quot.sound |
| `Flapi.StrReplace.C08_replace_first_and_other` | propext, Quot.sound |
| `Flapi.StrReplace.C08_split_unique` | propext |
| `Flapi.StrReplace.C08_absent` | propext, Quot.sound |
| `Flapi.StrReplace.C08_same` | none |
| `Flapi.Template.C09_rule_string` | propext, Classical.choice, Quot.sound |
| `Flapi.Template.C09_sequential_is_simultaneous` | propext, Quot.sound |
| `Flapi.Template.C09_template_complete` | propext, Classical.choice, Quot.sound |
| `Flapi.Template.C09_generate_code` | propext, Classical.choice, Quot.sound |
| `Flapi.Template.C09_literal_ok` | propext, Classical.choice, Quot.sound |
| `Flapi.Template.C09_temporaries_fresh` | propext, Classical.choice, Quot.sound |
| `Flapi.Template.C09_prefix_temporaries_corrupt` | propext, Classical.choice, Quot.sound |
| `Flapi.Template.C09_out_placeholder_lost` | propext, Classical.choice, Quot.sound |
| `Flapi.Template.C09_temporaries_independent` | propext, Quot.sound |
| `Flapi.Graph.C10_sound` | propext, Classical.choice, Quot.sound |
| `Flapi.Graph.C10_shortest` | propext, Classical.choice, Quot.sound |
| `Flapi.Graph.C10_complete` | propext, Classical.choice, Quot.sound |
| `Flapi.Graph.C10_error_iff` | propext, Classical.choice, Quot.sound |
| `Flapi.Graph.C10_length_deterministic` | propext, Classical.choice, Quot.sound |
| `Flapi.Convert.C11_chain` | propext, Classical.choice, Quot.sound |
| `Flapi.Convert.C12_at_most_once` | propext, Classical.choice, Quot.sound |
| `Flapi.Convert.C12_at_first_use` | propext, Classical.choice, Quot.sound |
| `Flapi.TMap.C13_restored` | propext, Classical.choice, Quot.sound |
| `Flapi.TMap.C13_failed_build_unchanged` | propext, Classical.choice, Quot.sound |
| `Flapi.TMap.C14_identity` | propext, Classical.choice, Quot.sound |
| `Flapi.TMap.C14_reachable_ok` | propext, Classical.choice, Quot.sound |
| `Flapi.TMap.C14_stable` | propext, Classical.choice, Quot.sound |
| `Flapi.TMap.C14_find_or_alloc` | propext |
| `Flapi.TMap.C14_merge_overrides` | propext, Classical.choice, Quot.sound |
| `Flapi.FTypes.C15_lookup_consistent` | propext, Classical.choice, Quot.sound |
| `Flapi.FTypes.C15_add_new` | propext, Classical.choice, Quot.sound |
| `Flapi.FTypes.C15_handles_stable` | propext, Classical.choice, Quot.sound |
| `Flapi.FTypes.C15_find_or_alloc` | propext |
| `Flapi.FTypes.C15_merge` | propext, Classical.choice, Quot.sound |
| `Flapi.FTypes.C15_merge_in_force` | propext, Classical.choice, Quot.sound |
| `Flapi.FTypes.C15_merge_overrides` | propext, Quot.sound |
| `Flapi.FTypes.C15_related` | propext, Classical.choice, Quot.sound |
| `Flapi.MapType.C16_deep_genuine` | propext, Classical.choice, Quot.sound |
| `Flapi.Select.C16_minimal_first` | propext, Classical.choice, Quot.sound |
| `Flapi.Select.C16_none_iff` | propext, Classical.choice, Quot.sound |
| `Flapi.Select.C16_deterministic` | propext, Classical.choice, Quot.sound |
| `Flapi.Select.C16_cached` | propext, Quot.sound |
| `Flapi.Select.C16_deep_no_panic` | propext, Classical.choice, Quot.sound |
| `Flapi.Select.C16_deep_minimal_first` | propext, Classical.choice, Quot.sound |
| `Flapi.Select.C16_deep_can_panic` | propext, Classical.choice, Quot.sound |
| `Flapi.Ast.C17_match_sound` | propext, Classical.choice, Quot.sound |
| `Flapi.Ast.C17_conv_sound` | propext, Classical.choice, Quot.sound |
| `Flapi.Ast.C17_bounds_hold` | propext, Classical.choice, Quot.sound |
| `Flapi.Ast.C17_conv_complete` | propext, Quot.sound |
| `Flapi.Ast.C17_option_inner` | propext, Quot.sound |
| `Flapi.Ast.C17_repeated_param_in_tuple_rejected` | propext, Quot.sound |
| `Flapi.Ast.C17_capture_unsound` | propext, Quot.sound |
| `Flapi.Ast.C17_array_param_rejected` | propext |
| `Flapi.Ast.C17_second_bound_entry_ignored` | propext, Quot.sound |
| `Flapi.Ast.C17_unbound_param_leaks` | propext, Quot.sound |
| `Flapi.Ast.C17_where_on_compound_type_panics` | propext |
| `Flapi.Ast.C18_idempotent` | propext |
| `Flapi.Ast.C18_norm_iff_same` | propext, Quot.sound |
| `Flapi.Ast.C18_same_name` | propext |
| `Flapi.Ast.C18_name_iff` | propext, Quot.sound |
| `Flapi.Ast.C18_no_lifetimes` | propext |
| `Flapi.Ast.C18_bound_lifetimes_kept` | propext |
| `Flapi.Ast.C18_dyn_collides_with_path` | propext |
| `Flapi.FTypes.C19_unique_names` | propext |
| `Flapi.FTypes.C19_distinct_types` | propext, Classical.choice, Quot.sound |
| `Flapi.FTypes.C19_printed_name` | propext |
| `Flapi.FTypes.C19_foreign_display` | propext, Quot.sound |
| `Flapi.FTypes.C19_set_prefix` | propext, Quot.sound |
| `Flapi.Macro.C20_every_template_readable` | propext, Classical.choice, Quot.sound |
| `Flapi.Macro.C20_expand` | propext, Classical.choice, Quot.sound |
| `Flapi.Macro.C20_no_call_unchanged` | propext, Classical.choice, Quot.sound |
| `Flapi.Macro.C20_no_bang_unchanged` | propext, Classical.choice, Quot.sound |
| `Flapi.Macro.C20_one_call` | propext, Classical.choice, Quot.sound |
| `Flapi.Macro.C20_reading_unique` | propext, Classical.choice, Quot.sound |
| `Flapi.Macro.C20_no_fuel` | propext, Quot.sound |
| `Flapi.Macro.C20_params` | propext, Classical.choice, Quot.sound |
| `Flapi.Macro.C20_params_blanks` | propext, Classical.choice, Quot.sound |
| `Flapi.Macro.C20_finding_non_ascii_word_panics` | propext, Classical.choice, Quot.sound |
| `Flapi.Macro.C20_finding_non_ascii_param_cut` | propext, Classical.choice, Quot.sound |
| `Flapi.Config.C21_accepts_iff` | propext, Quot.sound |
| `Flapi.Config.C21_two_applicable_rejected` | propext, Quot.sound |
| `Flapi.Config.C21_survivor_unmodified` | propext, Classical.choice, Quot.sound |
| `Flapi.Config.C21_none_applies` | propext, Classical.choice, Quot.sound |
| `Flapi.Config.C21_kept_applies` | propext, Quot.sound |
| `Flapi.Config.C21_unknown_option` | propext, Classical.choice, Quot.sound |
| `Flapi.Config.C21_cpp_exactly_one` | propext, Classical.choice, Quot.sound |
| `Flapi.Config.C21_cpp_follows_config` | propext, Classical.choice, Quot.sound |
| `Flapi.Config.C21_rule_directions` | propext |
| `Flapi.Config.C21_java_exactly_one` | propext, Classical.choice, Quot.sound |
| `Flapi.Cpp.C22_exactly_needed` | propext, Classical.choice, Quot.sound |
| `Flapi.Cpp.C22_each_once` | propext, Classical.choice, Quot.sound |
| `Flapi.Cpp.C22_in_order` | propext, Classical.choice, Quot.sound |
| `Flapi.Cpp.C22_first_use_order` | propext, Quot.sound |
| `Flapi.Enum.C23_too_large_rejected` | propext, Quot.sound |
| `Flapi.Enum.C23_round_trip` | propext, Quot.sound |
| `Flapi.Enum.C23_only_positions_accepted` | propext, Quot.sound |
| `Flapi.Enum.C23_finding_alias_items` | propext, Classical.choice, Quot.sound |
| `Flapi.Enum.C24_too_large_rejected` | propext, Quot.sound |
| `Flapi.Enum.C24_round_trip` | propext, Quot.sound |
| `Flapi.Enum.C24_others_rejected` | propext, Classical.choice, Quot.sound |
| `Flapi.Enum.C24_option_round_trip` | propext, Quot.sound |
| `Flapi.ClassParse.C25_accepted_iff` | propext, Classical.choice, Quot.sound |
| `Flapi.ClassParse.C25_kinds` | propext, Classical.choice, Quot.sound |
| `Flapi.ClassParse.C25_recorded_types` | propext, Classical.choice, Quot.sound |
| `Flapi.ClassParse.C25_self_type` | propext, Classical.choice, Quot.sound |
| `Flapi.ClassParse.C25_constructors_agree` | propext, Classical.choice, Quot.sound |
| `Flapi.ClassParse.C25_dummy_constructor` | propext, Classical.choice, Quot.sound |
| `Flapi.ClassParse.C25_code_and_copy` | propext, Classical.choice, Quot.sound |
| `Flapi.ClassParse.C25_foreign_name` | propext, Classical.choice, Quot.sound |
| `Flapi.ClassParse.C25_callback` | propext, Classical.choice, Quot.sound |
| `Flapi.ClassParse.C25_finding_dummy_overrides` | propext, Classical.choice, Quot.sound |
| `Flapi.CppNames.C26_symbol_determines_function` | propext, Classical.choice, Quot.sound |
| `Flapi.CppNames.C26_same_class` | propext, Classical.choice, Quot.sound |
| `Flapi.CppNames.C26_program_symbols_distinct` | propext, Classical.choice, Quot.sound |
| `Flapi.CppNames.C26_finding_underscore` | propext, Classical.choice, Quot.sound |
| `Flapi.CppNames.C26_finding_access` | propext, Classical.choice, Quot.sound |
| `Flapi.CppNames.C26_finding_delete` | propext, Classical.choice, Quot.sound |
| `Flapi.RuleParse.C27_parse` | propext, Classical.choice, Quot.sound |
| `Flapi.RuleParse.C27_unconverted` | propext |
| `Flapi.RuleParse.C27_converted` | propext, Classical.choice, Quot.sound |
| `Flapi.RuleParse.C27_filed` | propext, Quot.sound |
| `Flapi.RuleParse.C27_code` | propext, Classical.choice, Quot.sound |
| `Flapi.RuleParse.C27_finding_panic` | propext, Classical.choice, Quot.sound |
| `Flapi.RuleParse.C27_finding_panic_long` | propext, Classical.choice, Quot.sound |
| `Flapi.RuleParse.C27_finding_out_left` | propext, Classical.choice, Quot.sound |
| `Flapi.Stale.C28_exact` | propext |
| `Flapi.Stale.C28_succeeds_iff` | propext, Quot.sound |
| `Flapi.Stale.C28_failure_safe` | propext, Quot.sound |
| `Flapi.Stale.C28_cpp` | propext, Classical.choice, Quot.sound |
| `Flapi.Stale.C28_java` | propext, Classical.choice, Quot.sound |
| `Flapi.Stale.C28_disabled` | none |
| `Flapi.Expand.C29_output_content` | propext, Classical.choice, Quot.sound |
| `Flapi.Expand.C29_all_macros_accepted` | propext, Classical.choice, Quot.sound |
| `Flapi.Expand.C29_error_writes_nothing` | propext, Classical.choice, Quot.sound |
| `Flapi.Expand.C29_success_file` | propext, Classical.choice, Quot.sound |
| `Flapi.Expand.C29_rustfmt_output_only_on_success` | propext |
| `Flapi.JavaNames.C30_symbol_is_what_the_jvm_looks_up` | propext, Classical.choice, Quot.sound |
| `Flapi.JavaNames.C30_finding_digit` | propext, Classical.choice, Quot.sound |
| `Flapi.JavaNames.C30_finding_other_characters` | propext, Classical.choice, Quot.sound |
| `Flapi.JavaNames.C30_symbols_distinct` | propext, Classical.choice, Quot.sound |
| `Flapi.JavaNames.C31_signature_is_descriptor` | propext, Classical.choice, Quot.sound |
| `Flapi.JavaNames.C31_descriptor_unambiguous` | propext, Quot.sound |
| `Flapi.JavaNames.C31_finding_boxed` | propext, Classical.choice, Quot.sound |
| `Flapi.JavaNames.C31_finding_object_result` | propext, Classical.choice, Quot.sound |
| `Flapi.JavaNames.C31_finding_unknown_type_panics` | propext, Classical.choice, Quot.sound |
| `Flapi.FindCache.C32_code_accepted` | propext, Classical.choice, Quot.sound |
| `Flapi.FindCache.C32_code_load` | propext, Classical.choice, Quot.sound |
| `Flapi.FindCache.C32_finding_last_comma` | propext, Classical.choice, Quot.sound |
| `Flapi.FindCache.C32_finding_not_seen` | propext, Classical.choice, Quot.sound |
| `Flapi.FindCache.C32_class_conflict_refused` | propext, Classical.choice, Quot.sound |
| `Flapi.FindCache.C32_member_conflict_refused` | propext, Classical.choice, Quot.sound |
| `Flapi.FindCache.C32_unknown_class_refused` | propext, Classical.choice, Quot.sound |
| `Flapi.FindCache.C32_load` | propext, Classical.choice, Quot.sound |
| `Flapi.FindCache.C32_unload` | propext, Classical.choice, Quot.sound |
| `Flapi.FindCache.C32_finding_spurious_refusal` | propext, Classical.choice, Quot.sound |
| `Flapi.FindCache.C32_finding_same_id` | propext, Classical.choice, Quot.sound |
| `Flapi.JavaCode.C33_imports_iff_used` | propext, Classical.choice, Quot.sound |
| `Flapi.JavaCode.C33_printed_is_used` | propext, Classical.choice, Quot.sound |
| `Flapi.JavaCode.C33_argument_annotation_printed` | propext, Classical.choice, Quot.sound |
| `Flapi.JavaCode.C33_annotation_choice` | propext, Classical.choice, Quot.sound |
| `Flapi.JavaCode.C33_finding_both_annotations` | propext, Classical.choice, Quot.sound |
| `Flapi.JavaCode.C33_finding_unused_import` | propext, Classical.choice, Quot.sound |
| `Flapi.JavaConv.C34_argument_code` | propext, Classical.choice, Quot.sound |
| `Flapi.JavaCode.C34_call_arguments` | propext, Classical.choice, Quot.sound |
| `Flapi.JavaCode.C34_static` | propext, Classical.choice, Quot.sound |
| `Flapi.JavaCode.C34_method` | propext, Classical.choice, Quot.sound |
| `Flapi.JavaCode.C34_constructor` | propext, Classical.choice, Quot.sound |
| `Flapi.JavaCode.C34_too_many` | propext, Classical.choice, Quot.sound |
| `Flapi.JavaCode.C34_fence_declarations` | propext, Classical.choice, Quot.sound |
| `Flapi.JavaCode.C34_finding_receiver_not_protected` | propext, Classical.choice, Quot.sound |
| `Flapi.JavaLife.C35_finding_concurrent_give` | propext, Quot.sound |
| `Flapi.JavaLife.C35_finding_concurrent_use` | propext, Quot.sound |
| `Flapi.JavaLife.C35_finding_receiver_collected` | propext, Quot.sound |
| `Flapi.JavaLife.C35_finding_lend_then_give` | propext, Quot.sound |
| `Flapi.JavaLife.C35_finding_give_twice` | propext |
| `Flapi.JavaLife.C35_finding_leak` | propext |
| `Flapi.JavaLife.C35_finding_optional_copy` | propext |
| `Flapi.JavaLife.C35_no_leak` | propext, Classical.choice, Quot.sound |
| `Flapi.JavaLife.C35_all_destroyed` | propext, Classical.choice, Quot.sound |
| `Flapi.JavaLife.C35_single_thread_no_leak` | propext, Classical.choice, Quot.sound |
| `Flapi.JavaLife.C35_safe` | propext, Classical.choice, Quot.sound |
| `Flapi.JavaLife.C35_single_thread` | propext, Classical.choice, Quot.sound |
| `Flapi.JavaLife.C35_gc` | propext, Classical.choice, Quot.sound |
| `Flapi.JavaLife.C35_concurrent_delete` | propext, Classical.choice, Quot.sound |
| `Flapi.JavaCallback.C36_attached_inside` | propext, Quot.sound |
| `Flapi.JavaCallback.C36_exit_restores` | propext, Quot.sound |
| `Flapi.JavaCallback.C36_detach_outermost` | propext, Classical.choice, Quot.sound |
| `Flapi.JavaCallback.C36_global_ref` | propext, Quot.sound |
| `Flapi.JavaCallback.C36_drop` | propext, Quot.sound |
| `Flapi.JavaCallback.C36_finding_leak` | propext |
| `Flapi.JavaCallback.C36_dispatch` | propext, Quot.sound |
| `Flapi.JavaCallback.C36_variadic` | propext, Classical.choice, Quot.sound |
| `Flapi.JavaValues.C37_to_java_exact` | propext, Classical.choice, Quot.sound |
| `Flapi.JavaValues.C37_to_java_refused_iff` | propext, Classical.choice, Quot.sound |
| `Flapi.JavaValues.C37_from_java_exact` | propext, Quot.sound |
| `Flapi.JavaValues.C37_from_java_refused_iff` | propext, Classical.choice, Quot.sound |
| `Flapi.JavaValues.C37_round_trip` | propext, Classical.choice, Quot.sound |
| `Flapi.JavaValues.C37_bool` | propext |
| `Flapi.JavaValues.C37_pointer` | propext, Classical.choice, Quot.sound |
| `Flapi.JavaValues.C37_optional_object` | propext, Classical.choice, Quot.sound |
| `Flapi.JavaValues.C37_optional_number` | propext, Classical.choice, Quot.sound |
| `Flapi.JavaValues.C37_time` | propext, Classical.choice, Quot.sound |
| `Flapi.JavaValues.C37_finding_time_wraps` | propext |
| `Flapi.JavaValues.C37_same_representation` | propext |
| `Flapi.Jni.C38_utf16_of_every_text` | propext, Quot.sound |
| `Flapi.Jni.C38_well_formed_iff` | propext, Classical.choice, Quot.sound |
| `Flapi.Jni.C38_send` | propext, Quot.sound |
| `Flapi.Jni.C38_read` | propext, Quot.sound |
| `Flapi.Jni.C38_ill_formed` | propext, Classical.choice, Quot.sound |
| `Flapi.Jni.C38_null` | propext |
| `Flapi.Jni.C38_rust_java_rust` | propext, Quot.sound |
| `Flapi.Jni.C38_java_rust_java` | propext, Classical.choice, Quot.sound |
| `Flapi.Jni.C38_finding_long_string_cut` | propext, Quot.sound |
| `Flapi.Jni.C38_finding_long_string_null` | propext, Quot.sound |
| `Flapi.Containers.C39_refines` | propext, Classical.choice, Quot.sound |
| `Flapi.Containers.C39_all_freed` | propext, Classical.choice, Quot.sound |
| `Flapi.Containers.C40_copy_ok` | propext, Classical.choice, Quot.sound |
| `Flapi.Containers.C40_finding_copy_of_empty` | propext, Classical.choice, Quot.sound |
| `Flapi.SliceIter.C41_slice` | propext, Quot.sound |
| `Flapi.SliceIter.C41_moves` | propext, Quot.sound |
| `Flapi.SliceIter.C41_order` | propext, Classical.choice, Quot.sound |
| `Flapi.SliceIter.C41_difference` | propext, Quot.sound |
| `Flapi.SliceIter.C41_add_then_difference` | propext, Quot.sound |
| `Flapi.SliceIter.C41_finding_negative_difference` | propext, Quot.sound |
| `Flapi.SliceIter.C41_loop` | propext, Classical.choice, Quot.sound |
| `Flapi.SliceIter.C41_finding_zero_sized` | propext, Classical.choice, Quot.sound |
| `Flapi.SliceIter.C41_move` | propext, Classical.choice, Quot.sound |
| `Flapi.CppClass.C42_destroyed_once` | propext, Classical.choice, Quot.sound |
| `Flapi.CppClass.C42_all_destroyed` | propext, Classical.choice, Quot.sound |
| `Flapi.CppClass.C42_owner_valid` | propext, Classical.choice, Quot.sound |
| `Flapi.CppClass.C42_no_ub` | propext, Classical.choice, Quot.sound |
| `Flapi.CppClass.C42_refs_destroy_nothing` | propext |
| `Flapi.CppClass.C42_moved_from` | propext, Quot.sound |
| `Flapi.CppClass.C42_copy` | propext, Quot.sound |
| `Flapi.CppClass.C42_finding_assign_own_reference` | propext |
| `Flapi.Abi.C43_rust_to_cpp` | propext, Quot.sound |
| `Flapi.Abi.C43_cpp_to_rust` | propext, Classical.choice, Quot.sound |
| `Flapi.Abi.C43_round_trip` | propext, Classical.choice, Quot.sound |
| `Flapi.Abi.C43_nothing_confused` | propext, Classical.choice, Quot.sound |
| `Flapi.Abi.C43_optional_reference` | propext, Quot.sound |
| `Flapi.Abi.C43_finding_tuple_argument` | propext |
| `Flapi.Abi.C43_finding_same_alternatives` | propext, Quot.sound |
| `Flapi.Abi.C43_finding_same_alternatives_reachable` | none |
| `Flapi.Abi.C43_finding_string_view` | propext, Classical.choice, Quot.sound |
| `Flapi.CppNames.C44_unchanged` | propext, Classical.choice, Quot.sound |
| `Flapi.CppNames.C44_elaborated` | propext, Classical.choice, Quot.sound |
| `Flapi.CppNames.C44_finding_inside_words` | propext, Classical.choice, Quot.sound |
| `Flapi.CppCallback.C45_layout` | propext, Classical.choice, Quot.sound |
| `Flapi.CppCallback.C45_dispatch` | propext, Classical.choice, Quot.sound |
| `Flapi.CppCallback.C45_deleted_once` | propext, Classical.choice, Quot.sound |
| `Flapi.CppCallback.C45_no_ub` | propext, Classical.choice, Quot.sound |
| `Flapi.CppCallback.C45_conversation` | propext, Classical.choice, Quot.sound |
| `Flapi.CppCallback.C45_finding_clone` | propext, Classical.choice, Quot.sound |
| `Flapi.CppCallback.C45_finding_opaque` | propext, Classical.choice, Quot.sound |
| `Flapi.CppCallback.C45_compiles_iff` | propext, Classical.choice, Quot.sound |
| `Flapi.CppCallback.C45_lent_must_outlive` | propext, Classical.choice, Quot.sound |
| `Flapi.Py.C46_result_typed` | propext, Quot.sound |
| `Flapi.Py.C46_result_storage` | propext, Quot.sound |
| `Flapi.Py.C46_finding_vec_by_reference` | propext, Quot.sound |
| `Flapi.Py.C46_storage` | propext |
| `Flapi.Py.C46_argument_typed` | propext, Classical.choice, Quot.sound |
| `Flapi.Py.C46_mut_needs_lock` | propext, Quot.sound |
| `Flapi.Py.C46_by_value_needs_clone` | propext, Quot.sound |
| `Flapi.Py.C46_finding_arc_by_value` | propext, Classical.choice, Quot.sound |
| `Flapi.Py.C46_finding_option_reference` | propext, Classical.choice, Quot.sound |
| `Flapi.Py.C46_finding_enum_order` | propext, Quot.sound |
| `Flapi.Py.C47_deadlock_iff` | propext, Classical.choice, Quot.sound |
| `Flapi.Py.C47_distinct_objects` | propext, Classical.choice, Quot.sound |
| `Flapi.Py.C47_finding_self` | propext, Classical.choice, Quot.sound |
| `Flapi.TMap.C48_complete` | propext, Classical.choice, Quot.sound |
| `Flapi.TMap.C48_found_iff` | propext, Classical.choice, Quot.sound |
| `Flapi.TMap.C48_order_irrelevant` | propext, Classical.choice, Quot.sound |
| `Flapi.TMap.C48_finding_order` | propext, Classical.choice, Quot.sound |
| `Flapi.TMap.C48_built_path_genuine` | propext, Classical.choice, Quot.sound |
| `Flapi.TMap.C48_find_or_build` | propext, Classical.choice, Quot.sound |
| `Flapi.TMap.C48_only_instances` | propext, Classical.choice, Quot.sound |
| `Flapi.Cpp.C49_c_parameters` | propext, Classical.choice, Quot.sound |
| `Flapi.Cpp.C49_c_parameters_comma` | propext, Classical.choice, Quot.sound |
| `Flapi.Cpp.C49_cpp_parameters` | propext, Classical.choice, Quot.sound |
| `Flapi.Cpp.C49_one_expression_per_argument` | propext, Classical.choice, Quot.sound |
| `Flapi.Cpp.C49_introduced_names_distinct` | propext, Classical.choice, Quot.sound |
| `Flapi.Cpp.C49_plain_argument` | propext, Classical.choice, Quot.sound |
| `Flapi.Cpp.C49_converted_argument` | propext, Classical.choice, Quot.sound |
| `Flapi.JavaNames.C50_class_symbols_distinct` | propext, Classical.choice, Quot.sound |
| `Flapi.JavaNames.C50_finding_delete` | propext, Classical.choice, Quot.sound |
| `Flapi.JavaNames.C50_finding_do_prefix` | propext, Classical.choice, Quot.sound |
| `Flapi.FTypes.C51_safe` | propext, Classical.choice, Quot.sound |
| `Flapi.FTypes.C51_simple_rule` | propext, Classical.choice, Quot.sound |
| `Flapi.FTypes.C51_rust_side` | propext, Classical.choice, Quot.sound |
| `Flapi.FTypes.C51_foreign_side` | propext, Classical.choice, Quot.sound |
| `Flapi.FTypes.C51_no_rewrite_in_same_file` | propext, Classical.choice, Quot.sound |
| `Flapi.FTypes.C51_prefix_mismatch` | propext, Classical.choice, Quot.sound |
| `Flapi.FTypes.C51_error_not_atomic` | propext, Classical.choice, Quot.sound |
| `Flapi.Enum.C53_round_trip` | propext, Quot.sound |
| `Flapi.Enum.C53_only_items_accepted` | propext, Quot.sound |
| `Flapi.Enum.C53_small_discriminants` | propext, Quot.sound |
| `Flapi.Enum.C53_finding_wide_discriminants` | propext, Classical.choice, Quot.sound |
| `Flapi.Enum.C53_finding_differs_from_cpp` | propext, Classical.choice, Quot.sound |
| `Flapi.JavaValues.C54_result` | propext |
| `Flapi.JavaValues.C54_finding_nul` | propext |
| `Flapi.Jni.C55_strings` | propext, Quot.sound |
| `Flapi.Jni.C55_strings_too_long` | propext, Classical.choice, Quot.sound |
| `Flapi.Jni.C55_objects` | propext, Quot.sound |
| `Flapi.Jni.C55_objects_too_long` | propext, Quot.sound |
| `Flapi.Jni.C55_read_objects` | propext, Quot.sound |
| `Flapi.Jni.C55_objects_round_trip` | propext, Quot.sound |
| `Flapi.Jni.C55_finding_null_element` | propext |
| `Flapi.Jni.C55_consumed_element` | propext |
| `Flapi.Jni.C55_slice` | propext, Quot.sound |
| `Flapi.Jni.C55_slice_too_long` | propext, Quot.sound |
| `Flapi.Jni.C55_array_argument` | propext, Quot.sound |
| `Flapi.Jni.C55_null_array` | propext |
| `Flapi.Alias.C56_other_names` | propext, Classical.choice, Quot.sound |
| `Flapi.Alias.C56_not_a_type` | propext, Classical.choice, Quot.sound |
| `Flapi.Alias.C56_foreign_vec_functions` | propext, Classical.choice, Quot.sound |
| `Flapi.Alias.C56_finding_function_pointers` | propext, Classical.choice, Quot.sound |
| `Flapi.Alias.C56_struct_names` | propext, Classical.choice, Quot.sound |
| `Flapi.Alias.C56_union_names` | propext, Classical.choice, Quot.sound |
| `Flapi.Alias.C56_header` | propext, Classical.choice, Quot.sound |
| `Flapi.Alias.C56_fields` | propext, Classical.choice, Quot.sound |
| `Flapi.Alias.C56_characters` | propext, Quot.sound |
| `Flapi.Alias.C56_finding_user_types` | propext, Classical.choice, Quot.sound |
| `Flapi.Alias.C56_finding_optional_class` | propext, Classical.choice, Quot.sound |
| `Flapi.Py.C57_arguments` | propext, Classical.choice, Quot.sound |
| `Flapi.Py.C57_invalid_enumerator` | propext, Classical.choice, Quot.sound |
| `Flapi.Py.C57_determined` | propext, Quot.sound |
| `Flapi.Py.C57_finding_wide_numbers` | propext, Quot.sound |
| `Flapi.Py.C57_results` | propext, Quot.sound |
| `Flapi.Py.C57_round_trip` | propext, Quot.sound |
| `Flapi.Py.C57_finding_nested_option` | propext, Quot.sound |
| `Flapi.Py.C57_unambiguous` | propext, Quot.sound |
| `Flapi.ReadFile.C58_content` | propext, Classical.choice, Quot.sound |
| `Flapi.ReadFile.C58_last_conversion` | propext, Classical.choice, Quot.sound |
| `Flapi.ReadFile.C58_accepts` | propext, Classical.choice, Quot.sound |
| `Flapi.ReadFile.C58_no_panic` | propext, Classical.choice, Quot.sound |
| `Flapi.ReadFile.C58_types` | propext, Classical.choice, Quot.sound |
| `Flapi.ReadFile.C58_one_module` | propext, Classical.choice, Quot.sound |
| `Flapi.ReadFile.C58_width` | propext, Quot.sound |
| `Flapi.ReadFile.C58_left_out` | propext, Classical.choice, Quot.sound |
| `Flapi.ReadFile.C58_next_file` | propext, Classical.choice, Quot.sound |
| `Flapi.ReadFile.C58_finding_rule_cfg` | propext, Classical.choice, Quot.sound |
| `Flapi.ReadFile.C58_finding_not` | propext, Quot.sound |
| `Flapi.ReadFile.C58_finding_last_cfg` | propext, Quot.sound |
| `Flapi.ReadFile.C58_finding_skipped` | propext, Quot.sound |
| `Flapi.ReadFile.C58_finding_lost` | propext, Classical.choice, Quot.sound |
| `Flapi.ReadFile.C58_last_conversion_used` | propext, Classical.choice, Quot.sound |
| `Flapi.ReadFile.C58_source_attributes` | propext, Classical.choice, Quot.sound |
| `Flapi.ReadFile.C58_source_strip` | propext, Classical.choice, Quot.sound |
| `Flapi.ReadFile.C58_finding_misspelt` | propext, Classical.choice, Quot.sound |
| `Flapi.ReadFile.C58_source_conditions` | propext, Classical.choice, Quot.sound |
| `Flapi.ReadFile.C58_source_width` | propext, Classical.choice, Quot.sound |
| `Flapi.ReadFile.C58_finding_nested_cfg` | propext, Classical.choice, Quot.sound |
| `Flapi.ReadFile.C58_source_types` | propext, Classical.choice, Quot.sound |
| `Flapi.ReadFile.C58_source_items` | propext, Classical.choice, Quot.sound |
| `Flapi.ReadFile.C58_source_conversion` | propext, Classical.choice, Quot.sound |
| `Flapi.ReadFile.C58_finding_qualified_trait` | propext, Classical.choice, Quot.sound |
| `Flapi.ReadFile.C58_source_refused` | propext, Classical.choice, Quot.sound |
| `Flapi.ReadFile.C58_finding_both_hints` | propext, Classical.choice, Quot.sound |
| `Flapi.Inst.C59_instance_accepted` | propext, Classical.choice, Quot.sound |
| `Flapi.Inst.C59_instance_only_if` | propext, Classical.choice, Quot.sound |
| `Flapi.Inst.C59_type_expression` | propext |
| `Flapi.Inst.C59_rust_code` | propext, Classical.choice, Quot.sound |
| `Flapi.Inst.C59_rust_code_accepted` | propext, Classical.choice, Quot.sound |
| `Flapi.Inst.C59_foreign_code` | propext, Classical.choice, Quot.sound |
| `Flapi.Inst.C59_foreign_code_accepted` | propext, Classical.choice, Quot.sound |
| `Flapi.Inst.C59_type_name` | propext, Classical.choice, Quot.sound |
| `Flapi.Inst.C59_type_name_accepted` | propext, Classical.choice, Quot.sound |
| `Flapi.Inst.C59_module_name` | propext, Classical.choice, Quot.sound |
| `Flapi.Inst.C59_types` | propext, Classical.choice, Quot.sound |
| `Flapi.Inst.C59_types_without_macros` | propext, Classical.choice, Quot.sound |
| `Flapi.Inst.C59_finding_type_error_swallowed` | propext, Classical.choice, Quot.sound |
| `Flapi.Inst.C59_aliases` | propext, Classical.choice, Quot.sound |
| `Flapi.Inst.C59_alias_is_identifier` | propext, Classical.choice, Quot.sound |
| `Flapi.Inst.C59_alias_keeps_identifiers` | propext, Classical.choice, Quot.sound |
| `Flapi.Inst.C59_finding_alias_collisions` | propext, Classical.choice, Quot.sound |
| `Flapi.Inst.C59_foreign_rule` | propext, Classical.choice, Quot.sound |
| `Flapi.Inst.C59_instance` | propext, Classical.choice, Quot.sound |
| `Flapi.Inst.C59_only_generic_rules` | propext, Classical.choice, Quot.sound |
| `Flapi.Inst.C59_c_items` | propext, Classical.choice, Quot.sound |
| `Flapi.Inst.C59_finding_code_modules_dropped` | propext, Classical.choice, Quot.sound |
| `Flapi.Inst.C59_finding_user_macro_parameters` | propext, Classical.choice, Quot.sound |
| `Flapi.Headers.C52_declared_once` | propext, Classical.choice, Quot.sound |
| `Flapi.Headers.C52_rust_counterparts` | propext, Classical.choice, Quot.sound |
| `Flapi.Headers.C52_dependencies_first` | propext, Classical.choice, Quot.sound |
| `Flapi.Headers.C52_extern_blocks` | propext, Classical.choice, Quot.sound |
| `Flapi.Headers.C52_code_once` | propext, Classical.choice, Quot.sound |
| `Flapi.Headers.C52_ids_distinct` | propext, Classical.choice, Quot.sound |
| `Flapi.Headers.C52_append_only` | propext, Classical.choice, Quot.sound |
| `Flapi.Headers.C52_name_conflict` | propext, Classical.choice, Quot.sound |
| `Flapi.Headers.C52_types_known` | propext, Classical.choice, Quot.sound |
| `Flapi.Headers.C52_unmapped_rejected` | propext, Classical.choice, Quot.sound |
| `Flapi.Headers.C52_finding_two_headers` | propext, Classical.choice, Quot.sound |
| `Flapi.Headers.C52_finding_include_in_extern` | propext, Classical.choice, Quot.sound |
| `Flapi.Headers.C52_finding_static_without_include` | propext, Classical.choice, Quot.sound |
| `Flapi.Headers.C52_finding_code_in_extern` | propext, Classical.choice, Quot.sound |
| `Flapi.Headers.C52_finding_self_nested` | propext, Classical.choice, Quot.sound |
| `Flapi.Comments.C60_cpp_comments_invisible` | propext, Quot.sound |
| `Flapi.Comments.C60_cpp_enum_header` | propext, Classical.choice, Quot.sound |
| `Flapi.Comments.C60_c_enum_header` | propext, Classical.choice, Quot.sound |
| `Flapi.Comments.C60_java_comments_invisible` | propext, Classical.choice, Quot.sound |
| `Flapi.Comments.C60_java_enum_file` | propext, Classical.choice, Quot.sound |
| `Flapi.Comments.C60_python_docs` | propext, Quot.sound |
| `Flapi.Comments.C60_finding_second_line_is_code` | propext |
| `Flapi.Comments.C60_finding_backslash_hides_next_line` | propext, Quot.sound |
| `Flapi.Comments.C60_finding_java_comment_closed` | propext |
| `Flapi.Comments.C60_finding_java_unicode_escape` | propext, Classical.choice, Quot.sound |
| `Flapi.Comments.C60_finding_python_block` | propext, Quot.sound |
| `Flapi.CppClassGen.C61_rust_functions` | propext, Classical.choice, Quot.sound |
| `Flapi.CppClassGen.C61_c_prototypes` | propext, Classical.choice, Quot.sound |
| `Flapi.CppClassGen.C61_one_type_two_names` | propext, Classical.choice, Quot.sound |
| `Flapi.CppClassGen.C61_cpp_members` | propext, Classical.choice, Quot.sound |
| `Flapi.CppClassGen.C61_class_kinds` | propext, Classical.choice, Quot.sound |
| `Flapi.CppClassGen.C61_cpp_frame` | propext, Classical.choice, Quot.sound |
| `Flapi.CppClassGen.C61_values` | propext, Classical.choice, Quot.sound |
| `Flapi.CppClassGen.C61_delete_clone` | propext, Classical.choice, Quot.sound |
| `Flapi.CppClassGen.C61_accepted` | propext, Classical.choice, Quot.sound |
| `Flapi.CppClassGen.C61_symbols` | propext, Classical.choice, Quot.sound |
| `Flapi.CppClassGen.C61_finding_foreign_code_private` | propext, Classical.choice, Quot.sound |
| `Flapi.CppClassGen.C61_finding_copy_wins` | propext, Classical.choice, Quot.sound |
| `Flapi.CppClassGen.C61_finding_keywords` | propext, Classical.choice, Quot.sound |
| `Flapi.JavaClassGen.C62_rust_functions` | propext, Classical.choice, Quot.sound |
| `Flapi.JavaClassGen.C62_java_class` | propext, Classical.choice, Quot.sound |
| `Flapi.JavaClassGen.C62_one_type_two_names` | propext, Classical.choice, Quot.sound |
| `Flapi.JavaClassGen.C62_values` | propext, Classical.choice, Quot.sound |
| `Flapi.JavaClassGen.C62_delete` | propext, Classical.choice, Quot.sound |
| `Flapi.JavaClassGen.C62_symbols` | propext, Classical.choice, Quot.sound |
| `Flapi.JavaClassGen.C62_class_trait` | propext, Classical.choice, Quot.sound |
| `Flapi.JavaClassGen.C62_accepted` | propext, Classical.choice, Quot.sound |
| `Flapi.JavaClassGen.C62_rust_parameters` | propext, Classical.choice, Quot.sound |
| `Flapi.JavaClassGen.C62_finding_constructor_field` | propext, Classical.choice, Quot.sound |
| `Flapi.JavaConv.C62_result_code` | propext, Classical.choice, Quot.sound |
| `Flapi.CppRegister.C63_finding_plain_class` | propext, Classical.choice, Quot.sound |
| `Flapi.CppRegister.C63_accepted` | propext, Classical.choice, Quot.sound |
| `Flapi.CppRegister.C63_frame` | propext, Classical.choice, Quot.sound |
| `Flapi.CppRegister.C63_lookup` | propext, Classical.choice, Quot.sound |
| `Flapi.CppRegister.C63_c_types` | propext, Classical.choice, Quot.sound |
| `Flapi.CppRegister.C63_conversions` | propext, Classical.choice, Quot.sound |
| `Flapi.CppRegister.C63_traits` | propext, Classical.choice, Quot.sound |
| `Flapi.CppRegister.C63_finding_known_type_keeps_traits` | propext, Classical.choice, Quot.sound |
| `Flapi.CppRegister.C63_codes` | propext, Classical.choice, Quot.sound |
| `Flapi.CppRegister.C63_pointee` | propext, Classical.choice, Quot.sound |
| `Flapi.CppRegister.C63_names` | propext, Classical.choice, Quot.sound |
| `Flapi.CppRegister.C63_finding_same_type` | propext, Classical.choice, Quot.sound |
| `Flapi.JavaRegister.C64_accepted` | propext, Classical.choice, Quot.sound |
| `Flapi.JavaRegister.C64_frame` | propext, Classical.choice, Quot.sound |
| `Flapi.JavaRegister.C64_lookup` | propext, Classical.choice, Quot.sound |
| `Flapi.JavaRegister.C64_names` | propext, Classical.choice, Quot.sound |
| `Flapi.JavaRegister.C64_native_types` | propext, Classical.choice, Quot.sound |
| `Flapi.JavaRegister.C64_conversions` | propext, Classical.choice, Quot.sound |
| `Flapi.JavaRegister.C64_traits` | propext, Classical.choice, Quot.sound |
| `Flapi.JavaRegister.C64_finding_known_type_keeps_traits` | propext, Classical.choice, Quot.sound |
| `Flapi.JavaRegister.C64_codes` | propext, Classical.choice, Quot.sound |
| `Flapi.JavaRegister.C64_ownership` | propext, Classical.choice, Quot.sound |
| `Flapi.JavaRegister.C64_finding_copy_of_smart_pointer` | propext, Classical.choice, Quot.sound |
| `Flapi.JavaRegister.C64_finding_same_type` | propext, Classical.choice, Quot.sound |
| `Flapi.MapType.C65_known_first` | propext, Classical.choice, Quot.sound |
| `Flapi.MapType.C65_remembered` | propext, Classical.choice, Quot.sound |
| `Flapi.MapType.C65_first_generic` | propext, Classical.choice, Quot.sound |
| `Flapi.MapType.C65_fits_sound` | propext, Classical.choice, Quot.sound |
| `Flapi.MapType.C65_instance_fits` | propext, Classical.choice, Quot.sound |
| `Flapi.MapType.C65_result` | propext, Classical.choice, Quot.sound |
| `Flapi.MapType.C65_fuel` | propext, Classical.choice, Quot.sound |
| `Flapi.MapType.C65_no_conversion` | propext, Classical.choice, Quot.sound |
| `Flapi.MapType.C65_stable` | propext, Classical.choice, Quot.sound |
| `Flapi.MapType.C65_finding_endless` | propext, Classical.choice, Quot.sound |
| `Flapi.MapType.C65_finding_history` | propext, Classical.choice, Quot.sound |
| `Flapi.CppInterface.C66_agree` | propext, Classical.choice, Quot.sound |
| `Flapi.CppInterface.C66_members_distinct` | propext, Classical.choice, Quot.sound |
| `Flapi.CppInterface.C66_accepted` | propext, Classical.choice, Quot.sound |
| `Flapi.CppInterface.C66_names` | propext, Classical.choice, Quot.sound |
| `Flapi.CppInterface.C66_lookup` | propext, Classical.choice, Quot.sound |
| `Flapi.CppInterface.C66_conversions` | propext, Classical.choice, Quot.sound |
| `Flapi.CppInterface.C66_finding_in_out` | propext, Classical.choice, Quot.sound |
| `Flapi.CppInterface.C66_finding_result_placeholder` | propext, Classical.choice, Quot.sound |
| `Flapi.JavaInterface.C67_agree` | propext, Classical.choice, Quot.sound |
| `Flapi.JavaInterface.C67_dispatch` | propext, Classical.choice, Quot.sound |
| `Flapi.JavaInterface.C67_missing_method` | propext, Classical.choice, Quot.sound |
| `Flapi.JavaInterface.C67_results` | propext, Classical.choice, Quot.sound |
| `Flapi.JavaInterface.C67_accepted` | propext, Classical.choice, Quot.sound |
| `Flapi.JavaInterface.C67_lookup` | propext, Classical.choice, Quot.sound |
| `Flapi.JavaInterface.C67_conversions` | propext, Classical.choice, Quot.sound |
| `Flapi.JavaInterface.C67_finding_one_struct` | propext, Classical.choice, Quot.sound |
| `Flapi.JavaInterface.C67_finding_exception` | propext, Classical.choice, Quot.sound |
| `Flapi.PyModule.C68_references` | propext, Classical.choice, Quot.sound |
| `Flapi.PyModule.C68_names_distinct` | propext, Classical.choice, Quot.sound |
| `Flapi.PyModule.C68_finding_error` | propext, Classical.choice, Quot.sound |
| `Flapi.PyModule.C68_storage` | propext, Classical.choice, Quot.sound |
| `Flapi.PyModule.C68_by_value` | propext, Classical.choice, Quot.sound |
| `Flapi.PyModule.C68_self` | propext, Classical.choice, Quot.sound |
| `Flapi.PyModule.C68_call` | propext, Classical.choice, Quot.sound |
| `Flapi.PyModule.C68_result` | propext, Classical.choice, Quot.sound |
| `Flapi.PyModule.C68_class_text` | propext, Classical.choice, Quot.sound |
| `Flapi.PyModule.C68_parameters` | propext, Classical.choice, Quot.sound |
| `Flapi.PyModule.C68_finding_two_constructors` | propext, Classical.choice, Quot.sound |
| `Flapi.PyModule.C68_finding_inline_and_access` | propext, Classical.choice, Quot.sound |
| `Flapi.PyModule.C68_finding_fallible_constructor` | propext, Classical.choice, Quot.sound |
| `Flapi.PyModule.C68_finding_enum_declared_later` | propext, Classical.choice, Quot.sound |
| `Flapi.PyModule.C68_finding_interface` | propext, Classical.choice, Quot.sound |
| `Flapi.PyModule.C68_finding_long_comment` | propext, Classical.choice, Quot.sound |
| `Flapi.PyModule.C68_module` | propext, Classical.choice, Quot.sound |
| `Flapi.PyModule.C68_class` | propext, Classical.choice, Quot.sound |
| `Flapi.PyModule.C68_enum` | propext, Classical.choice, Quot.sound |
| `Flapi.PyModule.C68_accepts` | propext, Classical.choice, Quot.sound |
| `Flapi.Requests.C69_nested_in` | propext, Classical.choice, Quot.sound |
| `Flapi.Requests.C69_boundary` | propext, Classical.choice, Quot.sound |
| `Flapi.Requests.C69_bad_direction` | propext, Classical.choice, Quot.sound |
| `Flapi.Requests.C69_unmapped` | propext, Classical.choice, Quot.sound |
| `Flapi.Requests.C69_java_helper` | propext, Classical.choice, Quot.sound |
| `Flapi.Requests.C69_java_result` | propext, Classical.choice, Quot.sound |
| `Flapi.Requests.C69_finding_java_direction` | propext, Classical.choice, Quot.sound |
| `Flapi.Requests.C69_finding_java_incoming` | propext, Classical.choice, Quot.sound |
| `Flapi.Requests.C69_finding_keyword_in_name` | propext, Classical.choice, Quot.sound |
| `Flapi.Requests.C69_nested_out` | propext, Classical.choice, Quot.sound |
| `Flapi.Requests.C69_pair_out` | propext, Classical.choice, Quot.sound |
| `Flapi.Requests.C69_pair_in` | propext, Classical.choice, Quot.sound |
| `Flapi.Requests.C69_triple_out` | propext, Classical.choice, Quot.sound |
| `Flapi.Requests.C69_triple_in` | propext, Classical.choice, Quot.sound |
| `Flapi.Requests.C69_option_out` | propext, Classical.choice, Quot.sound |
| `Flapi.Requests.C69_option_in` | propext, Classical.choice, Quot.sound |
| `Flapi.Requests.C69_boost_out` | propext, Classical.choice, Quot.sound |
| `Flapi.Driver.C70_configured` | propext, Classical.choice, Quot.sound |
| `Flapi.Driver.C70_configure_accepted` | propext, Classical.choice, Quot.sound |
| `Flapi.Driver.C70_order_irrelevant` | propext, Classical.choice, Quot.sound |
| `Flapi.Driver.C70_null_annotation` | propext, Classical.choice, Quot.sound |
| `Flapi.Driver.C70_default_optional_package` | propext, Classical.choice, Quot.sound |
| `Flapi.Driver.C70_run` | propext, Classical.choice, Quot.sound |
| `Flapi.Driver.C70_ids_name_files` | propext, Classical.choice, Quot.sound |
| `Flapi.Driver.C70_expand_one` | propext, Classical.choice, Quot.sound |
| `Flapi.Driver.C70_bad_input` | propext, Classical.choice, Quot.sound |
| `Flapi.Driver.C70_nothing_written_early` | propext, Classical.choice, Quot.sound |
| `Flapi.Driver.C70_backend_input` | propext, Classical.choice, Quot.sound |
| `Flapi.Diag.C71_quotation` | propext, Classical.choice, Quot.sound |
| `Flapi.Diag.C71_marks` | propext, Classical.choice, Quot.sound |
| `Flapi.Diag.C71_one_line` | propext, Classical.choice, Quot.sound |
| `Flapi.Diag.C71_finding_first_line_short` | propext, Classical.choice, Quot.sound |
| `Flapi.Diag.C71_printing_never_fails` | propext, Classical.choice, Quot.sound |
| `Flapi.Diag.C71_every_note_reported` | propext, Classical.choice, Quot.sound |
| `Flapi.Diag.C71_lines` | propext |
| `Flapi.Layout.C72_test_implies_agreement` | propext, Quot.sound |
| `Flapi.Layout.C72_no_false_alarm` | propext, Quot.sound |
| `Flapi.Layout.C72_members_disjoint` | propext, Quot.sound |
| `Flapi.Layout.C72_defined_type_agrees` | propext, Quot.sound |
| `Flapi.Layout.C72_own_types_tested` | propext |
| `Flapi.Layout.C72_finding_hidden_member` | propext, Classical.choice, Quot.sound |
| `Flapi.EnumCallback.C73_class_name` | propext |
| `Flapi.EnumCallback.C73_enum_value` | propext, Classical.choice, Quot.sound |
| `Flapi.EnumCallback.C73_same_as_by_number` | propext, Classical.choice, Quot.sound |
| `Flapi.EnumCallback.C73_accepted` | propext, Classical.choice, Quot.sound |
| `Flapi.EnumCallback.C73_object` | propext, Quot.sound |
| `Flapi.EnumCallback.C73_class_field` | propext, Classical.choice, Quot.sound |
| `Flapi.EnumCallback.C73_finding_item_case` | propext, Classical.choice, Quot.sound |
| `Flapi.EnumCallback.C73_finding_underscore` | propext, Classical.choice, Quot.sound |
| `Flapi.EnumCallback.C73_finding_class_case` | propext, Classical.choice, Quot.sound |
| `Flapi.Recursion.C74_questions_simpler` | propext, Quot.sound |
| `Flapi.Recursion.C74_local` | propext, Classical.choice, Quot.sound |
| `Flapi.Recursion.C74_ends` | propext, Classical.choice, Quot.sound |
| `Flapi.Recursion.C74_unique` | propext, Classical.choice, Quot.sound |
| `Flapi.Recursion.C74_boundary_simpler` | propext, Classical.choice, Quot.sound |
| `Flapi.Recursion.C74_builtin_guarded` | propext, Classical.choice, Quot.sound |
| `Flapi.Recursion.C74_finding_bare_parameter` | propext, Classical.choice, Quot.sound |
| `Flapi.Recursion.C74_result` | propext, Classical.choice, Quot.sound |
| `Flapi.TokenParse.C75_enum` | propext, Classical.choice, Quot.sound |
| `Flapi.TokenParse.C75_interface` | propext, Classical.choice, Quot.sound |
| `Flapi.TokenParse.C75_class` | propext, Classical.choice, Quot.sound |
| `Flapi.TokenParse.C75_method_docs` | propext, Classical.choice, Quot.sound |
| `Flapi.TokenParse.C75_finding_last_comma` | propext, Classical.choice, Quot.sound |
| `Flapi.TokenParse.C75_nothing_left` | propext, Classical.choice, Quot.sound |
| `Flapi.TokenParse.C75_attributes` | propext, Quot.sound |
| `Flapi.TokenParse.C75_finding_interface_repeats` | propext, Classical.choice, Quot.sound |
| `Flapi.TokenParse.C75_finding_lost_docs` | propext, Classical.choice, Quot.sound |
| `Flapi.RuleTokens.C76_rule` | propext, Classical.choice, Quot.sound |
| `Flapi.RuleTokens.C76_c_items` | propext, Classical.choice, Quot.sound |
| `Flapi.RuleTokens.C76_panic` | propext, Classical.choice, Quot.sound |
| `Flapi.RuleTokens.C76_alias` | propext, Classical.choice, Quot.sound |
| `Flapi.RuleTokens.C76_finding_c_items_unread` | propext, Classical.choice, Quot.sound |
| `Flapi.RuleTokens.C76_finding_alias_unread` | propext, Classical.choice, Quot.sound |
| `Flapi.RuleTokens.C76_finding_param_twice` | propext, Classical.choice, Quot.sound |
| `Flapi.GenericCode.C77_code` | propext, Classical.choice, Quot.sound |
| `Flapi.GenericCode.C77_fails_iff` | propext, Classical.choice, Quot.sound |
| `Flapi.GenericCode.C77_plain_code` | propext, Classical.choice, Quot.sound |
| `Flapi.GenericCode.C77_depends_on_mentioned` | propext, Classical.choice, Quot.sound |
| `Flapi.GenericCode.C77_finding_nested_not_filled` | propext, Classical.choice, Quot.sound |
| `Flapi.GenericCode.C77_finding_string_changed` | propext, Classical.choice, Quot.sound |
| `Flapi.BackendRun.C78_result` | propext, Quot.sound |
| `Flapi.BackendRun.C78_directory` | propext, Quot.sound |
| `Flapi.BackendRun.C78_history_independent` | propext, Quot.sound |
| `Flapi.BackendRun.C78_rerun_untouched` | propext, Quot.sound |
| `Flapi.BackendRun.C78_every_moment` | propext, Quot.sound |
| `Flapi.BackendRun.C78_cpp_headers` | propext, Classical.choice, Quot.sound |
| `Flapi.BackendRun.C78_java_classes` | propext, Classical.choice, Quot.sound |
| `Flapi.BackendRun.C78_cpp_clash` | propext, Classical.choice, Quot.sound |
| `Flapi.BackendRun.C78_cpp_own_files` | propext, Classical.choice, Quot.sound |
| `Flapi.BackendRun.C78_java_clash` | propext, Classical.choice, Quot.sound |
| `Flapi.BackendRun.C78_library_files` | propext, Classical.choice, Quot.sound |
| `Flapi.BackendRun.C78_finding_same_name` | propext, Classical.choice, Quot.sound |
| `Flapi.BackendRun.C78_finding_mixed_versions` | propext, Classical.choice, Quot.sound |
| `Flapi.EnumRegister.C79_cpp_accepted` | propext, Classical.choice, Quot.sound |
| `Flapi.EnumRegister.C79_java_accepted` | propext, Classical.choice, Quot.sound |
| `Flapi.EnumRegister.C79_cpp_lookup` | propext, Classical.choice, Quot.sound |
| `Flapi.EnumRegister.C79_java_lookup` | propext, Classical.choice, Quot.sound |
| `Flapi.EnumRegister.C79_traits` | propext, Classical.choice, Quot.sound |
| `Flapi.EnumRegister.C79_frame` | propext, Classical.choice, Quot.sound |
| `Flapi.EnumRegister.C79_java_callbacks` | propext, Classical.choice, Quot.sound |
| `Flapi.EnumRegister.C79_finding_mentioned_before` | propext, Classical.choice, Quot.sound |
| `Flapi.EnumRegister.C79_finding_declared_later` | propext |
| `Flapi.EnumRegister.C79_finding_refused_late` | propext, Classical.choice, Quot.sound |
| `Flapi.Builtin.C80_sound` | propext, Classical.choice, Quot.sound |
| `Flapi.Builtin.C80_complete` | propext, Classical.choice, Quot.sound |
| `Flapi.Builtin.C80_code` | propext, Classical.choice, Quot.sound |
| `Flapi.Builtin.C80_same_object` | propext, Classical.choice, Quot.sound |
| `Flapi.Builtin.C80_shared_stays_shared` | propext, Classical.choice, Quot.sound |
| `Flapi.Builtin.C80_only_references` | propext, Classical.choice, Quot.sound |
| `Flapi.Builtin.C80_search` | propext, Classical.choice, Quot.sound |
| `Flapi.Builtin.C80_found` | propext, Classical.choice, Quot.sound |
| `Flapi.Builtin.C80_finding_mut_of_copy` | propext, Classical.choice, Quot.sound |
| `Flapi.Builtin.C80_mut_variables` | propext, Quot.sound |
| `Flapi.Builtin.C80_finding_mut_parameter` | propext, Classical.choice, Quot.sound |
| `Flapi.Pointers.C81_program` | propext, Classical.choice, Quot.sound |
| `Flapi.Pointers.C81_sound` | propext, Classical.choice, Quot.sound |
| `Flapi.Pointers.C81_complete` | propext, Classical.choice, Quot.sound |
| `Flapi.Pointers.C81_same_object` | propext, Classical.choice, Quot.sound |
| `Flapi.Pointers.C81_no_more_access` | propext, Classical.choice, Quot.sound |
| `Flapi.Pointers.C81_shared_pointers` | propext, Classical.choice, Quot.sound |
| `Flapi.Pointers.C81_call` | propext, Classical.choice, Quot.sound |
| `Flapi.Pointers.C81_stuck` | propext, Quot.sound |
| `Flapi.Pointers.C81_code` | propext, Classical.choice, Quot.sound |
| `Flapi.Pointers.C81_search` | propext, Classical.choice, Quot.sound |
| `Flapi.Pointers.C81_found` | propext, Classical.choice, Quot.sound |
| `Flapi.Pointers.C81_finding_same_object_twice` | propext, Quot.sound |
| `Flapi.Pointers.C81_finding_cell_twice` | propext, Quot.sound |
| `Flapi.Pointers.C81_finding_lifetime_argument` | propext, Classical.choice, Quot.sound |
| `Flapi.SliceViews.C82_views` | propext, Quot.sound |
| `Flapi.SliceViews.C82_exclusive` | propext, Quot.sound |
| `Flapi.SliceViews.C82_elements` | propext, Quot.sound |
| `Flapi.SliceViews.C82_moves` | propext |
| `Flapi.SliceViews.C82_round_trip` | propext, Quot.sound |
| `Flapi.SliceViews.C82_finding_moved_from` | propext |
| `Flapi.SliceViews.C82_finding_self_move` | propext |
| `Flapi.SliceViews.C82_finding_dangling` | propext, Quot.sound |
| `Flapi.SliceViews.C82_finding_two_exclusive` | propext, Quot.sound |
| `Flapi.SliceViews.C82_finding_unchecked` | propext |
| `Flapi.SliceViews.C82_finding_pointer_type` | none |
| `Flapi.HeaderGraph.C83_ends` | propext, Classical.choice, Quot.sound |
| `Flapi.HeaderGraph.C83_compiles` | propext, Classical.choice, Quot.sound |
| `Flapi.HeaderGraph.C83_once` | propext, Classical.choice, Quot.sound |
| `Flapi.HeaderGraph.C83_circular` | propext, Classical.choice, Quot.sound |
| `Flapi.HeaderGraph.C83_finding_c_circle` | propext, Classical.choice, Quot.sound |
| `Flapi.HeaderGraph.C83_finding_inline_circle` | propext, Classical.choice, Quot.sound |
| `Flapi.HeaderGraph.C83_finding_callback_circle` | propext, Classical.choice, Quot.sound |
| `Flapi.HeaderGraph.C83_well_formed` | propext, Classical.choice, Quot.sound |
| `Flapi.HeaderGraph.C83_finding_names` | propext, Classical.choice, Quot.sound |
| `Flapi.NameCache.C84_stays_valid` | propext, Classical.choice, Quot.sound |
| `Flapi.NameCache.C84_computed_once` | propext, Classical.choice, Quot.sound |
| `Flapi.NameCache.C84_compare` | propext, Classical.choice, Quot.sound |
| `Flapi.NameCache.C84_types` | propext, Classical.choice, Quot.sound |
| `Flapi.NameCache.C84_finding_thread_end` | propext, Classical.choice, Quot.sound |
| `Flapi.Shapes.C85_pointer_only` | propext, Classical.choice, Quot.sound |
| `Flapi.Shapes.C85_pointer_all` | propext, Quot.sound |
| `Flapi.Shapes.C85_option` | propext, Classical.choice, Quot.sound |
| `Flapi.Shapes.C85_vec` | propext, Classical.choice, Quot.sound |
| `Flapi.Shapes.C85_result_only` | propext, Classical.choice, Quot.sound |
| `Flapi.Shapes.C85_result_all` | propext, Quot.sound |
| `Flapi.Shapes.C85_result_type` | propext, Classical.choice, Quot.sound |
| `Flapi.Shapes.C85_results_agree` | propext, Classical.choice, Quot.sound |
| `Flapi.Shapes.C85_slice` | propext, Quot.sound |
| `Flapi.Shapes.C85_lifetimes` | propext |
| `Flapi.Shapes.C85_head` | propext, Classical.choice, Quot.sound |
| `Flapi.Shapes.C85_finding_qualified` | propext, Classical.choice, Quot.sound |
| `Flapi.Shapes.C85_finding_user_T` | propext |
| `Flapi.Shapes.C85_finding_repeated_lifetime` | propext, Quot.sound |
| `Flapi.Rustfmt.C86_result` | propext, Classical.choice, Quot.sound |
| `Flapi.Rustfmt.C86_no_deadlock` | propext, Classical.choice, Quot.sound |
| `Flapi.Rustfmt.C86_bounded` | propext, Quot.sound |
| `Flapi.Rustfmt.C86_returns` | propext, Classical.choice, Quot.sound |
| `Flapi.Rustfmt.C86_final` | propext, Classical.choice, Quot.sound |
| `Flapi.Rustfmt.C86_same_choice` | propext |
| `Flapi.Threads.C87_exclusion` | propext, Classical.choice, Quot.sound |
| `Flapi.Threads.C87_sequential` | propext, Classical.choice, Quot.sound |
| `Flapi.Threads.C87_lock_order` | propext, Classical.choice, Quot.sound |
| `Flapi.Threads.C87_calls_in_order` | propext, Classical.choice, Quot.sound |
| `Flapi.Threads.C87_real_time` | propext |
| `Flapi.Threads.C87_no_deadlock` | propext, Classical.choice, Quot.sound |
| `Flapi.Threads.C87_one_object` | propext, Classical.choice, Quot.sound |
| `Flapi.Threads.C87_terminates` | propext |
| `Flapi.Threads.C87_all_served` | propext, Classical.choice, Quot.sound |
| `Flapi.Threads.C87_finding_opposite_orders` | propext |
| `Flapi.Threads.C87_finding_same_object` | propext |
| `Flapi.Threads.C87_finding_view` | propext |
| `Flapi.SharedOut.C88_right_content` | propext, Classical.choice, Quot.sound |
| `Flapi.SharedOut.C88_every_moment` | propext, Classical.choice, Quot.sound |
| `Flapi.SharedOut.C88_all_flushed` | propext, Quot.sound |
| `Flapi.SharedOut.C88_no_waiting` | propext, Classical.choice, Quot.sound |
| `Flapi.SharedOut.C88_others` | propext, Quot.sound |
| `Flapi.SharedOut.C88_up_to_date` | propext, Classical.choice, Quot.sound |
| `Flapi.SharedOut.C88_at_the_end` | propext, Classical.choice, Quot.sound |
| `Flapi.SharedOut.C88_finding_empty_after_success` | propext, Quot.sound |
| `Flapi.SharedOut.C88_finding_mixed` | propext, Quot.sound |
| `Flapi.SharedOut.C88_terminates` | propext, Classical.choice, Quot.sound |
| `Flapi.Aliasing.C89_cpp` | propext, Classical.choice, Quot.sound |
| `Flapi.Aliasing.C89_java` | propext, Classical.choice, Quot.sound |
| `Flapi.Aliasing.C89_finding_smart_ptr` | propext, Classical.choice, Quot.sound |
| `Flapi.Aliasing.C89_call_defined` | propext, Classical.choice, Quot.sound |
| `Flapi.Aliasing.C89_received` | propext, Classical.choice, Quot.sound |
| `Flapi.Aliasing.C89_uses_defined` | propext, Classical.choice, Quot.sound |
| `Flapi.Aliasing.C89_history` | propext, Classical.choice, Quot.sound |
| `Flapi.Aliasing.C89_distinct` | propext, Classical.choice, Quot.sound |
| `Flapi.Aliasing.C89_finding_shared_self` | propext, Classical.choice, Quot.sound |
| `Flapi.Aliasing.C89_finding_java_twice` | propext, Classical.choice, Quot.sound |
| `Flapi.Aliasing.C89_finding_reentry` | propext, Classical.choice, Quot.sound |
| `Flapi.JniRules.C90_argument_references` | propext, Quot.sound |
| `Flapi.JniRules.C90_result_references` | propext, Quot.sound |
| `Flapi.JniRules.C90_function_references` | propext, Quot.sound |
| `Flapi.JniRules.C90_finding_callback_references_pile_up` | propext, Quot.sound |
| `Flapi.JniRules.C90_finding_array_without_memory` | propext, Quot.sound |
| `Flapi.JniRules.C90_finding_string_argument_without_memory` | propext, Quot.sound |
| `Flapi.JniRules.C90_no_call_with_pending_exception` | propext, Quot.sound |
| `Flapi.JniRules.C90_callback_leaves_no_exception` | propext, Quot.sound |
| `Flapi.JniRules.C90_rule` | propext, Quot.sound |
| `Flapi.JniRules.C90_callback_sees_exception` | propext, Quot.sound |
| `Flapi.JniRules.C90_buffers_released` | propext, Quot.sound |
| `Flapi.JniRules.C90_buffers_released_on_panic` | propext, Quot.sound |
| `Flapi.PyErrors.C91_message` | propext, Classical.choice, Quot.sound |
| `Flapi.PyErrors.C91_reported` | propext, Classical.choice, Quot.sound |
| `Flapi.PyErrors.C91_determines` | propext, Classical.choice, Quot.sound |
| `Flapi.PyErrors.C91_call` | propext, Classical.choice, Quot.sound |
| `Flapi.PyErrors.C91_finding_endless` | propext, Classical.choice, Quot.sound |
| `Flapi.PyErrors.C91_finding_self_cause` | propext, Classical.choice, Quot.sound |
| `Flapi.PyErrors.C91_finding_confused` | propext, Classical.choice, Quot.sound |
| `Flapi.Config.C92_java` | propext, Classical.choice, Quot.sound |
| `Flapi.Config.C92_java_panics` | propext, Classical.choice, Quot.sound |
| `Flapi.Config.C92_cpp` | propext |
| `Flapi.Config.C92_width` | propext, Classical.choice, Quot.sound |
| `Flapi.Config.C92_finding_unchecked` | propext, Classical.choice, Quot.sound |
