# Axioms each claimed theorem depends on

Generated by tools/axioms.py from `#print axioms`.

| theorem | axioms |
|---|---|
| Reflect.Scope.C01_head_iff | propext, Quot.sound |
| Reflect.Scope.C01_tail_iff | propext, Quot.sound |
| Reflect.Scope.C01_head_rejects_iff | propext, Classical.choice, Quot.sound |
| Reflect.Scope.C01_tail_rejects_iff | propext, Classical.choice, Quot.sound |
| Reflect.Scope.C01_join_head | propext, Quot.sound |
| Reflect.Scope.C01_join_tail | propext, Quot.sound |
| Reflect.Scope.C02_front_components | propext, Quot.sound |
| Reflect.Scope.C02_back_components | propext, Quot.sound |
| Reflect.Scope.C02_front_sound | propext, Quot.sound |
| Reflect.Scope.C02_back_sound | propext, Quot.sound |
| Reflect.Scope.C02_agree | propext, Quot.sound |
| Reflect.Scope.C02_qualified_injective | propext, Quot.sound |
| Reflect.Scope.C02_empty_component_disagrees | propext, Classical.choice, Quot.sound |
| Reflect.Scope.C03_reachable_wf | propext, Classical.choice, Quot.sound |
| Reflect.Scope.C03_scope_exact | propext, Quot.sound |
| Reflect.Scope.C03_scope_idempotent | propext, Quot.sound |
| Reflect.Scope.C03_scope_frame | propext, Classical.choice, Quot.sound |
| Reflect.Scope.C03_scope_id | propext, Quot.sound |
| Reflect.Scope.C04_hasType_listing | propext, Quot.sound |
| Reflect.Scope.C04_addType_accepts | propext, Classical.choice, Quot.sound |
| Reflect.Scope.C04_addType_rejects | propext, Classical.choice, Quot.sound |
| Reflect.Scope.C04_listing_history | propext, Classical.choice, Quot.sound |
| Reflect.Scope.C05_order_matters | propext, Classical.choice, Quot.sound |
| Reflect.Scope.C05_order_irrelevant | propext, Classical.choice, Quot.sound |
| Reflect.Scope.C05_second_accepted_iff | propext, Classical.choice, Quot.sound |
| Reflect.Scope.C05_order_matters_when_enclosing | propext, Classical.choice, Quot.sound |
| Reflect.Scope.C06_lookup_mutates | propext, Classical.choice, Quot.sound |
| Reflect.Scope.C06_lookup | propext, Quot.sound |
| Reflect.Scope.C06_lookup_creates | propext, Quot.sound |
| Reflect.Scope.C06_hasFunction | propext, Quot.sound |
| Reflect.Scope.C07_addFunction_exact | propext, Classical.choice, Quot.sound |
| Reflect.Scope.C07_addFunction_first | propext, Classical.choice, Quot.sound |
| Reflect.Registry.C08_lookup_stable | propext, Quot.sound |
| Reflect.Registry.C08_alias_stable | propext, Quot.sound |
| Reflect.Registry.C08_types_distinct | propext, Quot.sound |
| Reflect.Registry.C08_late_alias_changes | propext, Quot.sound |
| Reflect.Registry.C09_nameless_raises | propext, Quot.sound |
| Reflect.Registry.C09_loader_once | propext, Quot.sound |
| Reflect.Registry.C09_first_registration_wins | propext, Quot.sound |
| Reflect.Registry.C09_loaded_not_rerun | propext, Quot.sound |
| Reflect.Registry.C10_lookup_terminates | propext, Classical.choice, Quot.sound |
| Reflect.Registry.C10_allowance_irrelevant | propext, Classical.choice, Quot.sound |
| Reflect.Registry.C11_alias_raises | none |
| Reflect.Registry.C11_alias_resolves | propext, Quot.sound |
| Reflect.Registry.C11_alias_accepted_iff | propext |
| Reflect.Registry.C11_chain_not_followed | propext, Quot.sound |
| Reflect.Registry.C11_direct | propext, Quot.sound |
| Reflect.Registry.C12_unknown_no_effect | propext, Quot.sound |
| Reflect.Registry.C12_known_has_effect | propext, Quot.sound |
| Reflect.Registry.C13_failed_type_is_served | propext, Quot.sound |
| Reflect.Registry.C13_started_type_is_served | propext, Quot.sound |
| Reflect.Registry.C13_members_of_initial_part | propext, Classical.choice, Quot.sound |
| Reflect.Registry.C13_complete | propext, Classical.choice, Quot.sound |
| Reflect.Conc.C14_second_thread_fails | propext |
| Reflect.Conc.C14_half_loaded_type | propext |
| Reflect.Conc.C14_dangling_iterator | propext |
| Reflect.Conc.C14_agree | propext, Quot.sound |
| Reflect.Conc.C14_distinct | propext, Quot.sound |
| Reflect.Conc.C14_loaded_stable | propext, Quot.sound |
| Reflect.Conc.C14_loaded_lookup | propext |
| Reflect.Conc.C14_members_initial_part | propext, Classical.choice, Quot.sound |
| Reflect.Conc.C14_complete_without_failure | propext, Classical.choice, Quot.sound |
| Reflect.Conc.C14_serial | propext, Classical.choice, Quot.sound |
| Reflect.Conc.C14_terminates | propext, Classical.choice, Quot.sound |
| Reflect.C15_exact | propext, Classical.choice, Quot.sound |
| Reflect.C15_sound | propext |
| Reflect.C15_diverges_only_on_cycles | propext, Classical.choice, Quot.sound |
| Reflect.C15_self_parent_diverges | propext, Quot.sound |
| Reflect.C16_refl | propext |
| Reflect.C16_trans | propext |
| Reflect.C16_antisymm | propext |
| Reflect.C16_child_trans | propext, Classical.choice, Quot.sound |
| Reflect.C16_child_antisymm | propext |
| Reflect.C16_trans_fails_without_roots | propext |
| Reflect.C16_antisymm_fails_without_unique | propext |
| Reflect.C17_function_nearest | propext, Classical.choice, Quot.sound |
| Reflect.C17_field_nearest | propext, Classical.choice, Quot.sound |
| Reflect.C18_functions | propext, Classical.choice, Quot.sound |
| Reflect.C18_fields | propext, Classical.choice, Quot.sound |
| Reflect.C19_refusal_raises | propext |
| Reflect.C19_definition_raises | propext |
| Reflect.C19_rejected_no_effect | propext, Quot.sound |
| Reflect.C19_addField_iff | propext |
| Reflect.C19_addField_effect | propext, Quot.sound |
| Reflect.C19_disjoint | propext, Quot.sound |
| Reflect.C20_isCopiable_iff | propext, Classical.choice, Quot.sound |
| Reflect.C20_plumbing | propext, Classical.choice, Quot.sound |
| Reflect.C20_plumbed_queries | propext, Classical.choice, Quot.sound |
| Reflect.C21_mutable_ref_safe | propext, Classical.choice, Quot.sound |
| Reflect.C21_rvalue_ref_safe | propext, Classical.choice, Quot.sound |
| Reflect.C22_matches_iff | propext, Classical.choice, Quot.sound |
| Reflect.C22_exact_iff | propext, Classical.choice, Quot.sound |
| Reflect.C23_none_iff | propext, Classical.choice, Quot.sound |
| Reflect.C23_exact_iff | propext, Classical.choice, Quot.sound |
| Reflect.C23_order_irrelevant | propext, Classical.choice, Quot.sound |
| Reflect.C24_converter | propext |
| Reflect.C25_void_accepts | propext |
| Reflect.C25_reference_safe | propext, Classical.choice, Quot.sound |
| Reflect.C25_no_dangling_const_ref | propext |
| Reflect.C25_void_function | propext |
| Reflect.C25_rvalue_reference | propext, Classical.choice, Quot.sound |
| Reflect.C25_iff | propext, Classical.choice, Quot.sound |
| Reflect.C26_pointee_const_lost | propext |
| Reflect.C26_pointee_const_lost_deep | propext |
| Reflect.C26_read | propext |
| Reflect.C26_described_alike | propext, Classical.choice, Quot.sound |
| Reflect.C26_kinds | propext |
| Reflect.C27_select | propext, Classical.choice, Quot.sound |
| Reflect.C27_call | propext, Classical.choice, Quot.sound |
| Reflect.C28_order_irrelevant | propext, Classical.choice, Quot.sound |
| Reflect.C29_arity_safe | propext, Classical.choice, Quot.sound |
| Reflect.C29_function_arity_safe | propext, Classical.choice, Quot.sound |
| Reflect.C30_duplicate_refused | propext, Classical.choice, Quot.sound |
| Reflect.C30_refusal_no_effect | propext |
| Reflect.C30_accepted_iff | propext, Classical.choice, Quot.sound |
| Reflect.C30_accepted_effect | propext |
| Reflect.C30_no_duplicates | propext, Classical.choice, Quot.sound |
| Reflect.C30_order_matters | propext |
| Reflect.C31_get_differs_from_call | propext |
| Reflect.C31_get_fails_iff | propext, Quot.sound |
| Reflect.C31_agree_single | propext, Classical.choice, Quot.sound |
| Reflect.C31_get_raises | propext, Quot.sound |
| Reflect.C31_test_function | propext, Classical.choice, Quot.sound |
| Reflect.C32_call_moving | propext, Classical.choice, Quot.sound |
| Reflect.C32_reference | propext, Classical.choice, Quot.sound |
| Reflect.C32_by_value | propext, Classical.choice, Quot.sound |
| Reflect.C32_rvalue_copied | propext, Classical.choice, Quot.sound |
| Reflect.C32_untransferable | propext, Classical.choice, Quot.sound |
| Reflect.C32_uncopyable | propext, Classical.choice, Quot.sound |
| Reflect.C32_by_value_moved | propext, Classical.choice, Quot.sound |
| Reflect.C32_call | propext, Classical.choice, Quot.sound |
| Reflect.C32_plumbed | propext, Classical.choice, Quot.sound |
| Reflect.C33_no_mutable_reference | propext, Classical.choice, Quot.sound |
| Reflect.C33_call | propext, Classical.choice, Quot.sound |
| Reflect.C33_as_ignores_const | propext, Classical.choice, Quot.sound |
| Reflect.C33_const_moved_from | propext, Classical.choice, Quot.sound |
| Reflect.C33_call_refuses_const | propext, Classical.choice, Quot.sound |
| Reflect.C33_const_rvalue_parameter | propext, Classical.choice, Quot.sound |
| Reflect.C34_lvalue | propext, Classical.choice, Quot.sound |
| Reflect.C34_copy | propext, Classical.choice, Quot.sound |
| Reflect.C34_rvalue | propext, Classical.choice, Quot.sound |
| Reflect.C34_converter_hides_parent | propext, Classical.choice, Quot.sound |
| Reflect.C34_castable_but_fails | propext, Classical.choice, Quot.sound |
| Reflect.C34_not_castable_but_succeeds | propext, Classical.choice, Quot.sound |
| Reflect.C35_field | propext, Classical.choice, Quot.sound |
| Reflect.C35_missing | propext, Classical.choice, Quot.sound |
| Reflect.Own.C36_destroyed_exactly_when_unowned | propext, Classical.choice, Quot.sound |
| Reflect.Own.C36_never_twice | propext, Classical.choice, Quot.sound |
| Reflect.Own.C36_no_leak | propext, Classical.choice, Quot.sound |
| Reflect.Own.C36_copy_assigned | propext, Quot.sound |
| Reflect.Own.C36_move_assigned | propext, Quot.sound |
| Reflect.Own.C36_constructed | propext, Quot.sound |
| Reflect.Own.C36_out_of_scope | propext, Quot.sound |
| Reflect.Own.C37_moved_from_dangles | propext |
| Reflect.Own.C37_field_dangles | propext |
| Reflect.Own.C37_live_iff | propext, Classical.choice, Quot.sound |
| Reflect.Own.C37_live_without_moves_and_fields | propext, Classical.choice, Quot.sound |
| Reflect.Own.C37_stored_is_live | propext, Classical.choice, Quot.sound |
| Reflect.Own.C38_assigned | propext, Quot.sound |
| Reflect.Own.C38_freed_call_step | propext, Quot.sound |
| Reflect.Own.C38_no_double_free | propext, Classical.choice, Quot.sound |
| Reflect.Own.C38_no_use_after_free | propext, Classical.choice, Quot.sound |
| Reflect.Own.C38_freed_exactly_once | propext, Classical.choice, Quot.sound |
| Reflect.Own.C38_move_assignment_leaks | propext |
| Reflect.Own.C38_leaked_iff_overwritten | propext, Classical.choice, Quot.sound |
| Reflect.Own.C38_null_call_iff | propext, Quot.sound |
| Reflect.Own.C38_moved_from_is_empty | propext, Quot.sound |
| Reflect.Json.C39_token_progress | propext, Classical.choice, Quot.sound |
| Reflect.Json.C39_draining_ends | propext, Classical.choice, Quot.sound |
| Reflect.Json.C39_skip_ends | propext, Classical.choice, Quot.sound |
| Reflect.Json.C39_memory | propext, Classical.choice, Quot.sound |
| Reflect.Json.C40_escaped | propext, Classical.choice, Quot.sound |
| Reflect.Json.C40_default | propext, Classical.choice, Quot.sound |
| Reflect.Json.C40_copied | propext, Classical.choice, Quot.sound |
| Reflect.Json.C40_raw | propext, Classical.choice, Quot.sound |
| Reflect.Json.C40_validation_exact | propext, Classical.choice, Quot.sound |
| Reflect.Json.C40_not_beyond_basic_plane | propext, Classical.choice, Quot.sound |
| Reflect.Json.C40_escaping_accepts_overlong | propext, Classical.choice, Quot.sound |
| Reflect.Json.C40_byte_FF_undefined | propext, Classical.choice, Quot.sound |
| Reflect.Json.C41_validation_exact | propext, Classical.choice, Quot.sound |
| Reflect.Json.C41_unchanged | propext, Classical.choice, Quot.sound |
| Reflect.Json.C41_accepts_surrogates_and_beyond | propext, Quot.sound |
| Reflect.Json.C41_refusals | propext, Quot.sound |
| Reflect.Json.C41_byte_FF_undefined | propext, Classical.choice, Quot.sound |
| Reflect.Json.C42_escape_decodes | propext, Classical.choice, Quot.sound |
| Reflect.Json.C42_every_code | propext, Quot.sound |
| Reflect.Json.C42_surrogate_pairs_not_combined | propext, Classical.choice, Quot.sound |
| Reflect.Json.C43_round_trip | propext, Classical.choice, Quot.sound |
| Reflect.Json.C43_literals | propext, Classical.choice, Quot.sound |
| Reflect.Json.C43_lone_minus | propext, Classical.choice, Quot.sound |
| Reflect.Json.C44_skip_exact | propext, Classical.choice, Quot.sound |
| Reflect.Json.C44_rest_undisturbed | propext, Classical.choice, Quot.sound |
| Reflect.Json.C44_last_skipped | propext, Classical.choice, Quot.sound |
| Reflect.Json.C44_last_number | propext, Classical.choice, Quot.sound |
| Reflect.Json.C44_only_documents | propext, Classical.choice, Quot.sound |
| Reflect.Json.C44_skip_iff | propext, Classical.choice, Quot.sound |
| Reflect.Json.C45_round_trip | propext, Classical.choice, Quot.sound |
| Reflect.Json.C45_fresh | propext, Classical.choice, Quot.sound |
| Reflect.Json.C45_integral_double_refused | propext, Classical.choice, Quot.sound |
| Reflect.Json.C45_pointer_to_null | propext, Classical.choice, Quot.sound |
| Reflect.Json.C45_any_depth | propext, Classical.choice, Quot.sound |
| Reflect.Json.C46_grammar | propext, Classical.choice, Quot.sound |
| Reflect.Json.C46_layouts | propext, Classical.choice, Quot.sound |
| Reflect.Json.C46_bare_control | propext, Classical.choice, Quot.sound |
| Reflect.Json.C46_infinity | propext, Quot.sound |
| Reflect.Json.C47_tokens_of_text | propext, Classical.choice, Quot.sound |
| Reflect.Json.C47_insertion | propext, Classical.choice, Quot.sound |
| Reflect.Json.C47_comment_refused | propext, Classical.choice, Quot.sound |
| Reflect.Json.C47_default_refused | propext, Classical.choice, Quot.sound |
| Reflect.Json.C48_map_last_wins | propext, Classical.choice, Quot.sound |
| Reflect.Json.C48_field_last_wins | propext, Classical.choice, Quot.sound |
| Reflect.Json.C48_untyped_first_wins | propext, Classical.choice, Quot.sound |
| Reflect.Json.C49_first_error_kept | propext, Classical.choice, Quot.sound |
| Reflect.Json.C49_nothing_read_after_error | propext, Classical.choice, Quot.sound |
| Reflect.Json.C49_line_exact | propext, Classical.choice, Quot.sound |
| Reflect.Json.C49_line_defined | none |
| Reflect.Json.C49_column_exact | propext, Classical.choice, Quot.sound |
| Reflect.Json.C49_column_defined | none |
| Reflect.Json.C49_error_at_current_line | none |
| Reflect.Json.C49_expect | propext, Classical.choice, Quot.sound |
| Reflect.Json.C49_comment_newline_not_counted | propext, Quot.sound |
| Reflect.Json.C49_parse_after_error | propext, Classical.choice, Quot.sound |
| Reflect.Json.C50_cut | propext, Classical.choice, Quot.sound |
| Reflect.Json.C50_number | propext, Classical.choice, Quot.sound |
| Reflect.Json.C50_nested | propext, Classical.choice, Quot.sound |
| Reflect.Json.C50_reported | propext, Classical.choice, Quot.sound |
| Reflect.Json.C50_unclosed_accepted | propext, Classical.choice, Quot.sound |
| Reflect.Json.C51_exactly_the_named_fields | propext, Classical.choice, Quot.sound |
| Reflect.Json.C51_unknown_keys_ignored | propext, Classical.choice, Quot.sound |
| Reflect.Json.Ex.C52_output_depends_on_junk | propext, Quot.sound |
| Reflect.Json.C52_assoc | propext |
| Reflect.Json.C52_combination | propext |
| Reflect.Json.C52_skipEmpty_indeterminate | propext |
| Reflect.Json.C53_members | propext, Classical.choice, Quot.sound |
| Reflect.Json.C53_all_members | propext, Classical.choice, Quot.sound |
| Reflect.Json.C53_collision_refused | propext, Classical.choice, Quot.sound |
| Reflect.Json.Ex.C53_collision_printed | propext, Classical.choice, Quot.sound |
| Reflect.Json.C54_omits_exactly_empty | propext, Classical.choice, Quot.sound |
| Reflect.Json.C54_round_trip | propext, Classical.choice, Quot.sound |
| Reflect.Json.C54_all_empty | propext, Classical.choice, Quot.sound |
| Reflect.Json.Ex.C54_empty_is_not_default | propext, Classical.choice, Quot.sound |
| Reflect.Json.C55_newline | propext, Quot.sound |
| Reflect.Json.C55_safe | propext, Classical.choice, Quot.sound |
| Reflect.Json.C55_container_undefined | propext, Quot.sound |
| Reflect.Config.C56_parse | propext, Quot.sound |
| Reflect.Config.C56_refused | propext, Quot.sound |
| Reflect.Config.C56_text | propext |
| Reflect.Config.C56_round_trip | propext, Quot.sound |
| Reflect.Config.C56_normal | propext, Quot.sound |
| Reflect.Config.C56_only_proper | propext, Quot.sound |
| Reflect.Config.C56_append | propext, Quot.sound |
| Reflect.Config.C56_default_separator | propext, Quot.sound |
| Reflect.Config.C57_order | propext, Classical.choice, Quot.sound |
| Reflect.Config.C57_irreflexive | propext, Classical.choice, Quot.sound |
| Reflect.Config.C57_transitive | propext, Classical.choice, Quot.sound |
| Reflect.Config.C57_total | propext, Classical.choice, Quot.sound |
| Reflect.Config.C57_prefix | propext, Classical.choice, Quot.sound |
| Reflect.Config.C57_prefix_block | propext, Classical.choice, Quot.sound |
| Reflect.Config.C58_nodes | propext, Classical.choice, Quot.sound |
| Reflect.Config.C58_no_empty_branch | propext, Classical.choice, Quot.sound |
| Reflect.Config.C58_links | propext, Classical.choice, Quot.sound |
| Reflect.Config.C58_links_below | propext, Classical.choice, Quot.sound |
| Reflect.Config.C58_dotted_component | propext, Quot.sound |
| Reflect.Config.C58_dotted_refused | propext, Quot.sound |
| Reflect.Config.C58_erase_takes_asked | propext, Classical.choice, Quot.sound |
| Reflect.C59_intact | propext, Classical.choice, Quot.sound |
| Reflect.C59_thrown | propext, Classical.choice, Quot.sound |
| Reflect.C59_printed | propext, Classical.choice, Quot.sound |
| Reflect.C59_last_byte_lost | propext, Classical.choice, Quot.sound |
| Reflect.C59_indeterminate | propext, Classical.choice, Quot.sound |
| Reflect.C59_overrun | propext, Quot.sound |
| Reflect.C60_copy | propext, Classical.choice, Quot.sound |
| Reflect.C60_move | propext, Classical.choice, Quot.sound |
| Reflect.C60_move_const | propext, Classical.choice, Quot.sound |
| Reflect.C60_refused | propext, Classical.choice, Quot.sound |
| Reflect.C60_copy_of_rvalue_moves | propext, Classical.choice, Quot.sound |
| Reflect.C60_convertible_ambiguous | propext, Classical.choice, Quot.sound |
| Reflect.C60_mutable_parent | propext, Classical.choice, Quot.sound |
| Reflect.C60_converting_child | propext, Classical.choice, Quot.sound |
| Reflect.Config.C61_index | propext, Classical.choice, Quot.sound |
| Reflect.Config.C61_component | propext, Classical.choice, Quot.sound |
| Reflect.Config.C61_only_digits | propext |
| Reflect.Config.C61_large | propext, Classical.choice, Quot.sound |
| Reflect.Config.C61_not_ascii | propext |
| Reflect.Config.C61_pop | propext |
| Reflect.Config.C61_not_digits | propext, Quot.sound |
| Reflect.Json.C62_accepts | propext, Classical.choice, Quot.sound |
| Reflect.Json.C62_document | propext, Classical.choice, Quot.sound |
| Reflect.Json.C62_rest | propext, Classical.choice, Quot.sound |
| Reflect.Json.C62_value_unique | propext, Classical.choice, Quot.sound |
| Reflect.Json.C62_any_cache | propext, Classical.choice, Quot.sound |
| Reflect.Json.C63_parsing_ends | propext, Classical.choice, Quot.sound |
| Reflect.Json.C64_short_texts | propext, Quot.sound |
| Reflect.Json.C64_long_token_undefined | propext, Classical.choice, Quot.sound |
| Reflect.Json.C64_defined | propext, Classical.choice, Quot.sound |
| Reflect.Json.C64_documents_defined | propext, Classical.choice, Quot.sound |
| Reflect.Json.C64_missing_value_undefined | propext, Classical.choice, Quot.sound |
| Reflect.Json.C64_broken_string_undefined | propext, Classical.choice, Quot.sound |
| Reflect.Json.C65_second_call_parses | propext, Classical.choice, Quot.sound |
| Reflect.Json.C65_list_of_refused | propext, Classical.choice, Quot.sound |
| Reflect.Json.C65_map_of_refused | propext, Classical.choice, Quot.sound |
| Reflect.Json.C65_pointer_to_refused | propext, Classical.choice, Quot.sound |
| Reflect.Json.C65_printing_list_of_refused | propext, Quot.sound |
| Reflect.Json.Ex2.C65_fields_lost | propext, Classical.choice, Quot.sound |
| Reflect.Json.C65_refused_iff | propext, Classical.choice, Quot.sound |
| Reflect.Json.C65_print_refused_iff | propext, Quot.sound |
| Reflect.Json.C66_null | propext, Classical.choice, Quot.sound |
| Reflect.Json.C66_lists_append | propext, Classical.choice, Quot.sound |
| Reflect.Json.C66_maps_merge | propext, Classical.choice, Quot.sound |
| Reflect.C67_lvalue_refers | none |
| Reflect.C67_temporary_stored | propext, Quot.sound |
| Reflect.C67_temporary_refused | propext |
| Reflect.C67_access | propext, Classical.choice, Quot.sound |
| Reflect.C67_unrelated_refused | propext, Classical.choice, Quot.sound |
| Reflect.C67_arguments | propext, Quot.sound |
| Reflect.C67_arguments_refused | propext, Classical.choice, Quot.sound |
| Reflect.C68_refused | propext, Classical.choice, Quot.sound |
| Reflect.C68_call | propext, Classical.choice, Quot.sound |
| Reflect.C68_result_by_value | propext, Classical.choice, Quot.sound |
| Reflect.C68_method | propext, Classical.choice, Quot.sound |
| Reflect.C68_method_refused | propext, Classical.choice, Quot.sound |
| Reflect.C68_type_call | propext, Classical.choice, Quot.sound |
| Reflect.C68_call_moving | propext, Classical.choice, Quot.sound |
| Reflect.C68_accepted_runs | propext, Classical.choice, Quot.sound |
| Reflect.C68_method_runs | propext, Classical.choice, Quot.sound |
| Reflect.C68_method_moving | propext, Classical.choice, Quot.sound |
| Reflect.C68_type_call_moving | propext, Classical.choice, Quot.sound |
| Reflect.C68_call_temporaries | propext, Classical.choice, Quot.sound |
| Reflect.C69_which_converter | propext, Classical.choice, Quot.sound |
| Reflect.C69_seen_iff_declared | propext, Classical.choice, Quot.sound |
| Reflect.C69_misfit_refused | propext, Classical.choice, Quot.sound |
| Reflect.C69_converted | propext, Classical.choice, Quot.sound |
| Reflect.C70_setPointer | propext |
| Reflect.C70_setParent | propext |
| Reflect.C70_addFunction | propext, Classical.choice, Quot.sound |
| Reflect.C70_addField | propext, Classical.choice, Quot.sound |
| Reflect.C70_definition | propext, Quot.sound |
| Reflect.C71_copy | propext, Classical.choice, Quot.sound |
| Reflect.C71_move | propext, Classical.choice, Quot.sound |
| Reflect.C71_const_temporary | propext, Classical.choice, Quot.sound |
| Reflect.C71_move_value | propext, Classical.choice, Quot.sound |
| Reflect.C71_move_only_refuses | propext, Classical.choice, Quot.sound |
| Reflect.C71_converting_child_emptied | propext, Classical.choice, Quot.sound |
| Reflect.C71_readonly | propext, Classical.choice, Quot.sound |
| Reflect.C71_unrelated | propext, Classical.choice, Quot.sound |
| Reflect.C71_converted | propext, Classical.choice, Quot.sound |
| Reflect.C71_plumbed | propext, Classical.choice, Quot.sound |
| Reflect.C71_plumbed_assignable | propext, Classical.choice, Quot.sound |
| Reflect.C72_type_trait | propext, Classical.choice, Quot.sound |
| Reflect.C72_type_trait_refused | propext, Classical.choice, Quot.sound |
| Reflect.C72_field_trait | propext, Classical.choice, Quot.sound |
| Reflect.C72_fn_trait | propext, Classical.choice, Quot.sound |
| Reflect.C72_member_trait_refused | propext, Classical.choice, Quot.sound |
| Reflect.C72_listed | propext, Classical.choice, Quot.sound |
| Reflect.C72_inherited | propext, Quot.sound |
| Reflect.C72_inherited_seen | propext, Quot.sound |
| Reflect.C72_no_value | propext, Classical.choice, Quot.sound |
| Reflect.C72_read_as_value | propext, Classical.choice, Quot.sound |
| Reflect.C72_lvalue_trait | propext, Classical.choice, Quot.sound |
| Reflect.C72_temporary_trait | propext, Classical.choice, Quot.sound |
| Reflect.C72_read_by_value | propext, Classical.choice, Quot.sound |
| Reflect.C72_pointer_is_a_trait | propext, Classical.choice, Quot.sound |
| Reflect.C72_untagged | propext, Classical.choice, Quot.sound |
| Reflect.C72_hand_tagged | propext, Classical.choice, Quot.sound |
| Reflect.C72_hand_tagged_target | propext, Classical.choice, Quot.sound |
| Reflect.C72_refused_raises | propext, Classical.choice, Quot.sound |
| Reflect.C72_absent_member | propext, Quot.sound |
| Reflect.C73_accepted | propext, Classical.choice, Quot.sound |
| Reflect.C73_star_refused | propext, Classical.choice, Quot.sound |
| Reflect.C73_accepted_iff | propext, Classical.choice, Quot.sound |
| Reflect.C73_group | propext, Classical.choice, Quot.sound |
| Reflect.C73_groups | propext, Classical.choice, Quot.sound |
| Reflect.C73_receiver | propext, Classical.choice, Quot.sound |
| Reflect.C74_accepted_runs | propext, Classical.choice, Quot.sound |
| Reflect.C74_any_arguments | propext, Classical.choice, Quot.sound |
| Reflect.C74_any_bool | propext, Classical.choice, Quot.sound |
| Reflect.C74_operator | propext, Classical.choice, Quot.sound |
| Reflect.C74_reference_result | none |
| Reflect.C74_object_result | propext, Quot.sound |
| Reflect.C74_const_refused | propext, Classical.choice, Quot.sound |
| Reflect.C74_absent | propext, Classical.choice, Quot.sound |
| Reflect.C74_bool | propext, Classical.choice, Quot.sound |
| Reflect.C74_not_own | propext, Classical.choice, Quot.sound |
| Reflect.C74_not_converted | propext, Classical.choice, Quot.sound |
| Reflect.TypeName.C75_same_name_iff | propext, Quot.sound |
| Reflect.TypeName.C75_same_object_iff | propext, Quot.sound |
| Reflect.TypeName.C75_scope | propext, Quot.sound |
| Reflect.TypeName.C75_accepted_iff | propext, Classical.choice, Quot.sound |
| Reflect.TypeName.C75_const_argument | propext, Classical.choice, Quot.sound |
| Reflect.C76_runs_in_order | propext, Classical.choice, Quot.sound |
| Reflect.C76_vector | propext, Classical.choice, Quot.sound |
| Reflect.C76_pointer | propext, Classical.choice, Quot.sound |
| Reflect.C76_map | propext, Classical.choice, Quot.sound |
| Reflect.C76_number | propext, Classical.choice, Quot.sound |
| Reflect.C76_string | propext, Classical.choice, Quot.sound |
| Reflect.C76_shared | propext, Classical.choice, Quot.sound |
| Reflect.C76_unique | propext, Classical.choice, Quot.sound |
| Reflect.C76_push_back | propext, Classical.choice, Quot.sound |
| Reflect.C76_deref | propext, Classical.choice, Quot.sound |
| Reflect.C76_deref_mutable | propext, Classical.choice, Quot.sound |
| Reflect.C76_bool_conversion | propext |
| Reflect.C76_converts | propext, Classical.choice, Quot.sound |
| Reflect.C76_bool_tables | propext, Classical.choice, Quot.sound |
| Reflect.C76_smart_is_not_raw | propext, Classical.choice, Quot.sound |
| Reflect.C77_function_declared | propext, Classical.choice, Quot.sound |
| Reflect.C77_declared | propext, Classical.choice, Quot.sound |
| Reflect.C77_const_declared | propext, Classical.choice, Quot.sound |
| Reflect.C77_taken | propext, Classical.choice, Quot.sound |
| Reflect.C77_half_declared | propext, Classical.choice, Quot.sound |
| Reflect.C77_declares | propext, Classical.choice, Quot.sound |
| Reflect.C77_read | propext, Classical.choice, Quot.sound |
| Reflect.C77_read_value | propext, Classical.choice, Quot.sound |
| Reflect.C77_write | propext, Classical.choice, Quot.sound |
| Reflect.C77_write_temporary | propext, Classical.choice, Quot.sound |
| Reflect.C77_write_then_read | propext, Classical.choice, Quot.sound |
| Reflect.C77_const_refused | propext, Classical.choice, Quot.sound |
| Reflect.C77_unrelated_refused | propext, Classical.choice, Quot.sound |
| Reflect.C77_no_reference | propext, Classical.choice, Quot.sound |
| Reflect.C77_unknown | propext, Classical.choice, Quot.sound |
| Reflect.C77_function_called | propext, Classical.choice, Quot.sound |
| Reflect.C78_argument | propext, Classical.choice, Quot.sound |
| Reflect.C78_signature | propext, Classical.choice, Quot.sound |
| Reflect.C78_signature_types | propext, Classical.choice, Quot.sound |
| Reflect.C78_type_printed | propext, Classical.choice, Quot.sound |
| Reflect.C78_type_endless | propext, Classical.choice, Quot.sound |
| Reflect.C78_type_text | propext, Classical.choice, Quot.sound |
| Reflect.C78_fields_in_order | propext, Quot.sound |
| Reflect.C78_scope_text | propext, Classical.choice, Quot.sound |
| Reflect.C78_field_const_unseen | propext, Classical.choice, Quot.sound |
| Reflect.C79_described | propext, Classical.choice, Quot.sound |
| Reflect.C79_described_default | propext, Classical.choice, Quot.sound |
| Reflect.C79_twice | propext, Classical.choice, Quot.sound |
| Reflect.C79_alloc | propext, Classical.choice, Quot.sound |
| Reflect.C79_alloc_apart | propext, Classical.choice, Quot.sound |
| Reflect.C79_allocs | propext, Classical.choice, Quot.sound |
| Reflect.C79_new_copy | propext, Classical.choice, Quot.sound |
| Reflect.C79_new_move | propext, Classical.choice, Quot.sound |
| Reflect.C79_new_temporary | propext, Classical.choice, Quot.sound |
| Reflect.C79_plumbed | propext, Classical.choice, Quot.sound |
| Reflect.C79_new_refused | propext, Classical.choice, Quot.sound |
| Reflect.C79_alloc_missing | propext, Classical.choice, Quot.sound |
| Reflect.C79_alloc_no_default | propext, Classical.choice, Quot.sound |
| Reflect.C79_alloc_inherited | propext, Classical.choice, Quot.sound |
| Reflect.C79_deref | propext, Classical.choice, Quot.sound |
| Reflect.C80_free_recorded | propext |
| Reflect.C80_member_recorded | propext |
| Reflect.C80_member_or_free | propext, Classical.choice, Quot.sound |
| Reflect.C80_both_accepted | propext, Classical.choice, Quot.sound |
| Reflect.C80_receiver | propext, Classical.choice, Quot.sound |
| Reflect.C80_const_chosen | propext, Classical.choice, Quot.sound |
| Reflect.C80_mutable_chosen | propext, Classical.choice, Quot.sound |
| Reflect.C80_mutable_ambiguous | propext, Classical.choice, Quot.sound |
| Reflect.C80_construct | propext, Classical.choice, Quot.sound |
| Reflect.C80_construct_missing | propext, Classical.choice, Quot.sound |
| Reflect.C80_construct_refused | propext, Classical.choice, Quot.sound |
| Reflect.C80_constructed | propext, Classical.choice, Quot.sound |
| Reflect.C80_constructed_moving | propext, Classical.choice, Quot.sound |
| Reflect.C80_accepted_runs | propext, Classical.choice, Quot.sound |
| Reflect.C80_moved | propext, Classical.choice, Quot.sound |
| Reflect.Json.C81_print | propext, Classical.choice, Quot.sound |
| Reflect.Json.C81_cycle_not_printed | propext, Classical.choice, Quot.sound |
| Reflect.Json.C81_unreached | propext, Classical.choice, Quot.sound |
| Reflect.Json.C81_parse_tree | propext, Classical.choice, Quot.sound |
| Reflect.Json.C81_null_smart | propext, Classical.choice, Quot.sound |
| Reflect.Json.C81_null_raw | propext, Classical.choice, Quot.sound |
| Reflect.Json.C81_null_element | propext, Classical.choice, Quot.sound |
| Reflect.Json.C81_null_in_array | propext, Classical.choice, Quot.sound |
| Reflect.Json.C81_null_in_map | propext, Classical.choice, Quot.sound |
| Reflect.Json.C81_alias | propext, Classical.choice, Quot.sound |
| Reflect.Json.C81_null_allocates | propext, Classical.choice, Quot.sound |
| Reflect.Json.C82_ascii | propext, Classical.choice, Quot.sound |
| Reflect.Json.C82_default | propext, Classical.choice, Quot.sound |
| Reflect.Json.C82_utf8 | propext, Classical.choice, Quot.sound |
| Reflect.Json.C82_unchecked | propext, Classical.choice, Quot.sound |
| Reflect.Json.C82_copied | propext, Classical.choice, Quot.sound |
| Reflect.Json.C83_error_iff | propext, Classical.choice, Quot.sound |
| Reflect.Json.C83_string_iff | propext, Classical.choice, Quot.sound |
| Reflect.Json.C83_unchecked | propext, Classical.choice, Quot.sound |
| Reflect.Json.C83_array_stops | propext, Quot.sound |
| Reflect.Json.C83_array_no_callback | propext, Quot.sound |
| Reflect.Json.C83_object_stops | propext, Quot.sound |
| Reflect.Json.Share.C84_parse_serial | propext, Classical.choice, Quot.sound |
| Reflect.Json.Share.C84_print_serial | propext, Classical.choice, Quot.sound |
| Reflect.Json.Share.C84_parse_no_race | propext, Classical.choice, Quot.sound |
| Reflect.Json.Share.C84_print_no_race | propext, Classical.choice, Quot.sound |
| Reflect.Json.Share.C84_parse_exclusive | propext, Classical.choice, Quot.sound |
| Reflect.Json.Share.C84_print_exclusive | propext, Classical.choice, Quot.sound |
| Reflect.Json.Share.C84_parse_progress | propext, Classical.choice, Quot.sound |
| Reflect.Json.Share.C84_print_progress | propext, Classical.choice, Quot.sound |
| Reflect.Json.Share.C84_ends | propext, Quot.sound |
| Reflect.Json.Share.C84_parse_alone | propext, Classical.choice, Quot.sound |
| Reflect.Json.Share.C84_print_alone | propext, Classical.choice, Quot.sound |
| Reflect.C85_at | propext, Classical.choice, Quot.sound |
| Reflect.C85_index | propext, Classical.choice, Quot.sound |
| Reflect.C85_size | propext, Classical.choice, Quot.sound |
| Reflect.C85_clear | propext, Classical.choice, Quot.sound |
| Reflect.C85_resize | propext, Classical.choice, Quot.sound |
| Reflect.C85_push_back | propext, Classical.choice, Quot.sound |
| Reflect.C85_push_back_moved | propext, Classical.choice, Quot.sound |
| Reflect.C85_const_refused | propext, Classical.choice, Quot.sound |
| Reflect.C85_index_unchecked | propext, Classical.choice, Quot.sound |
| Reflect.C85_set | propext, Classical.choice, Quot.sound |
| Reflect.C85_history | propext, Classical.choice, Quot.sound |
| Reflect.C85_described | propext, Classical.choice, Quot.sound |
| Reflect.C86_size | propext, Classical.choice, Quot.sound |
| Reflect.C86_count | propext, Classical.choice, Quot.sound |
| Reflect.C86_at | propext, Classical.choice, Quot.sound |
| Reflect.C86_index | propext, Classical.choice, Quot.sound |
| Reflect.C86_write | propext, Classical.choice, Quot.sound |
| Reflect.C86_set | propext, Classical.choice, Quot.sound |
| Reflect.C86_keys | propext, Classical.choice, Quot.sound |
| Reflect.C86_const_refused | propext, Classical.choice, Quot.sound |
| Reflect.C86_history | propext, Classical.choice, Quot.sound |
| Reflect.C86_described | propext, Classical.choice, Quot.sound |
| Reflect.C87_get | propext, Classical.choice, Quot.sound |
| Reflect.C87_bool | propext, Classical.choice, Quot.sound |
| Reflect.C87_eq | propext, Classical.choice, Quot.sound |
| Reflect.C87_deref | propext, Classical.choice, Quot.sound |
| Reflect.C87_null_deref | propext, Classical.choice, Quot.sound |
| Reflect.C87_unique_reset | propext, Classical.choice, Quot.sound |
| Reflect.C87_unique_take | propext, Classical.choice, Quot.sound |
| Reflect.C87_unique_move | propext, Classical.choice, Quot.sound |
| Reflect.C87_unique_release | propext, Classical.choice, Quot.sound |
| Reflect.C87_unique_copy_refused | propext, Classical.choice, Quot.sound |
| Reflect.C87_shared_reset | propext, Classical.choice, Quot.sound |
| Reflect.C87_shared_take | propext, Classical.choice, Quot.sound |
| Reflect.C87_shared_copy | propext, Classical.choice, Quot.sound |
| Reflect.C87_shared_move | propext, Classical.choice, Quot.sound |
| Reflect.C87_unique_history | propext, Classical.choice, Quot.sound |
| Reflect.C87_shared_history | propext, Classical.choice, Quot.sound |
| Reflect.C87_unique_once | propext, Classical.choice, Quot.sound |
| Reflect.C87_shared_once | propext, Classical.choice, Quot.sound |
| Reflect.C87_shared_copied | propext, Classical.choice, Quot.sound |
| Reflect.C87_unique_const_refused | propext, Classical.choice, Quot.sound |
| Reflect.C87_shared_const_refused | propext, Classical.choice, Quot.sound |
| Reflect.C87_unique_made | propext, Classical.choice, Quot.sound |
| Reflect.C87_shared_made | propext, Classical.choice, Quot.sound |
| Reflect.C87_shared_described | propext, Classical.choice, Quot.sound |
| Reflect.C87_unique_described | propext, Classical.choice, Quot.sound |
| Reflect.Json.C88_parse | propext, Classical.choice, Quot.sound |
| Reflect.Json.C88_document | propext, Classical.choice, Quot.sound |
| Reflect.Json.C88_back | propext, Classical.choice, Quot.sound |
| Reflect.Json.C89_print | propext, Classical.choice, Quot.sound |
| Reflect.Json.C89_whole | propext, Classical.choice, Quot.sound |
| Reflect.Json.C89_back | propext, Classical.choice, Quot.sound |
| Reflect.Json.C90_print | propext, Classical.choice, Quot.sound |
| Reflect.Json.C90_same_text | propext, Classical.choice, Quot.sound |
| Reflect.Json.C90_copy | propext, Classical.choice, Quot.sound |
| Reflect.C90_keys | propext, Classical.choice, Quot.sound |
| Reflect.C90_history | propext, Classical.choice, Quot.sound |
| Reflect.C90_same | propext, Classical.choice, Quot.sound |
| Reflect.C91_narrow | propext, Classical.choice, Quot.sound |
| Reflect.C91_signed | propext, Classical.choice, Quot.sound |
| Reflect.C91_unsigned | propext, Classical.choice, Quot.sound |
| Reflect.C91_float | propext, Classical.choice, Quot.sound |
| Reflect.C91_refused | propext, Classical.choice, Quot.sound |
| Reflect.C91_number | propext, Classical.choice, Quot.sound |
| Reflect.C91_total_unsigned | propext, Classical.choice, Quot.sound |
| Reflect.C91_total_signed | propext, Classical.choice, Quot.sound |
| Reflect.C92_float | propext, Classical.choice, Quot.sound |
| Reflect.C92_float_min_not_least | propext, Classical.choice, Quot.sound |
| Reflect.C92_double | propext, Classical.choice, Quot.sound |
| Reflect.C92_limits | propext, Classical.choice, Quot.sound |
| Reflect.C92_once | propext, Classical.choice, Quot.sound |
| Reflect.C92_writable | propext, Classical.choice, Quot.sound |
| Reflect.Registry.C93_accepted | propext, Classical.choice, Quot.sound |
| Reflect.Registry.C93_names | propext, Classical.choice, Quot.sound |
| Reflect.Registry.C93_same_type | propext, Classical.choice, Quot.sound |
| Reflect.Registry.C93_known | propext, Classical.choice, Quot.sound |
| Reflect.Registry.C93_start | propext, Classical.choice, Quot.sound |
| Reflect.Json.C94_parse | propext, Classical.choice, Quot.sound |
| Reflect.Json.C94_print | propext, Classical.choice, Quot.sound |
| Reflect.Json.C94_session | propext, Classical.choice, Quot.sound |
| Reflect.Json.C94_copy | propext, Classical.choice, Quot.sound |
| Reflect.Json.C95_lexical | propext, Classical.choice, Quot.sound |
| Reflect.Json.C95_lexical_only | propext, Classical.choice, Quot.sound |
| Reflect.Json.C95_expect | propext, Classical.choice, Quot.sound |
| Reflect.Json.C95_expect_zero_byte | propext, Classical.choice, Quot.sound |
| Reflect.Json.C95_expect_end | propext, Classical.choice, Quot.sound |
| Reflect.Json.C95_parse | propext, Classical.choice, Quot.sound |
| Reflect.Json.C95_untyped | propext, Classical.choice, Quot.sound |
| Reflect.Json.C96_numeral | propext, Classical.choice, Quot.sound |
| Reflect.Json.C96_printed | propext, Classical.choice, Quot.sound |
| Reflect.Json.C96_form | propext, Classical.choice, Quot.sound |
| Reflect.Json.C96_finite | propext, Classical.choice, Quot.sound |
| Reflect.Json.C96_numbers | propext, Classical.choice, Quot.sound |
| Reflect.Json.C96_digits | propext, Classical.choice, Quot.sound |
| Reflect.Json.C96_back | propext, Classical.choice, Quot.sound |
| Reflect.Json.C96_settles | propext, Classical.choice, Quot.sound |
| Reflect.Json.C96_lossy | propext, Classical.choice, Quot.sound |
| Reflect.Json.C96_comes | propext, Classical.choice, Quot.sound |
| Reflect.Json.C96_json | propext, Classical.choice, Quot.sound |
| Reflect.Json.C96_text | propext, Classical.choice, Quot.sound |
| Reflect.Json.C96_json_whole | propext, Classical.choice, Quot.sound |
| Reflect.Json.C97_number | propext, Classical.choice, Quot.sound |
| Reflect.Json.C97_string | propext, Classical.choice, Quot.sound |
| Reflect.Json.C97_vector | propext, Classical.choice, Quot.sound |
| Reflect.Json.C97_map | propext, Classical.choice, Quot.sound |
| Reflect.Json.C97_pointer | propext, Classical.choice, Quot.sound |
| Reflect.Json.C97_shared | propext, Classical.choice, Quot.sound |
| Reflect.Json.C97_unique | propext, Classical.choice, Quot.sound |
| Reflect.Json.C97_class | propext, Classical.choice, Quot.sound |
| Reflect.Json.C97_void | propext, Classical.choice, Quot.sound |
| Reflect.Json.C97_custom | propext, Classical.choice, Quot.sound |
| Reflect.Json.C97_custom_ignored | propext, Classical.choice, Quot.sound |
| Reflect.Json.C97_float_and_integer | propext, Classical.choice, Quot.sound |
| Reflect.Json.C97_one_kind | propext |
| Reflect.Json.C97_members | propext, Classical.choice, Quot.sound |
| Reflect.Json.C97_members_distinct | propext, Classical.choice, Quot.sound |
| Reflect.Json.C97_members_seen | propext, Classical.choice, Quot.sound |
