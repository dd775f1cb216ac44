{
 "claims": [
  {
   "property": "C01",
   "status": "proved",
   "theorems": [
    "Reflect.Scope.C01_head_iff",
    "Reflect.Scope.C01_tail_iff",
    "Reflect.Scope.C01_head_rejects_iff",
    "Reflect.Scope.C01_tail_rejects_iff",
    "Reflect.Scope.C01_join_head",
    "Reflect.Scope.C01_join_tail"
   ],
   "note": ""
  },
  {
   "property": "C02",
   "status": "proved",
   "theorems": [
    "Reflect.Scope.C02_front_components",
    "Reflect.Scope.C02_back_components",
    "Reflect.Scope.C02_front_sound",
    "Reflect.Scope.C02_back_sound",
    "Reflect.Scope.C02_agree",
    "Reflect.Scope.C02_qualified_injective",
    "Reflect.Scope.C02_empty_component_disagrees"
   ],
   "note": "C02_empty_component_disagrees shows why components must be non-empty: with an empty component the two ways of splitting differ."
  },
  {
   "property": "C03",
   "status": "proved",
   "theorems": [
    "Reflect.Scope.C03_reachable_wf",
    "Reflect.Scope.C03_scope_exact",
    "Reflect.Scope.C03_scope_idempotent",
    "Reflect.Scope.C03_scope_frame",
    "Reflect.Scope.C03_scope_id"
   ],
   "note": ""
  },
  {
   "property": "C04",
   "status": "proved",
   "theorems": [
    "Reflect.Scope.C04_hasType_listing",
    "Reflect.Scope.C04_addType_accepts",
    "Reflect.Scope.C04_addType_rejects",
    "Reflect.Scope.C04_listing_history"
   ],
   "note": ""
  },
  {
   "property": "C05",
   "status": "proved",
   "theorems": [
    "Reflect.Scope.C05_order_matters",
    "Reflect.Scope.C05_order_irrelevant",
    "Reflect.Scope.C05_second_accepted_iff",
    "Reflect.Scope.C05_order_matters_when_enclosing"
   ],
   "note": "C05_second_accepted_iff says exactly when a second registration is accepted; C05_order_matters_when_enclosing covers every pair of enclosing names, C05_order_irrelevant every other pair."
  },
  {
   "property": "C06",
   "status": "proved",
   "theorems": [
    "Reflect.Scope.C06_lookup_mutates",
    "Reflect.Scope.C06_lookup",
    "Reflect.Scope.C06_lookup_creates",
    "Reflect.Scope.C06_hasFunction"
   ],
   "note": "C06_lookup_creates says exactly which scopes a lookup creates; C06_lookup and C06_hasFunction what it answers; C06_lookup_mutates is a concrete witness."
  },
  {
   "property": "C07",
   "status": "proved",
   "theorems": [
    "Reflect.Scope.C07_addFunction_exact",
    "Reflect.Scope.C07_addFunction_first"
   ],
   "note": ""
  },
  {
   "property": "C08",
   "status": "proved",
   "theorems": [
    "Reflect.Registry.C08_lookup_stable",
    "Reflect.Registry.C08_alias_stable",
    "Reflect.Registry.C08_types_distinct",
    "Reflect.Registry.C08_late_alias_changes"
   ],
   "note": "C08_late_alias_changes shows the stated exception (a later alias of that very name) is real."
  },
  {
   "property": "C09",
   "status": "proved",
   "theorems": [
    "Reflect.Registry.C09_nameless_raises",
    "Reflect.Registry.C09_loader_once",
    "Reflect.Registry.C09_first_registration_wins",
    "Reflect.Registry.C09_loaded_not_rerun"
   ],
   "note": ""
  },
  {
   "property": "C10",
   "status": "proved",
   "theorems": [
    "Reflect.Registry.C10_lookup_terminates",
    "Reflect.Registry.C10_allowance_irrelevant"
   ],
   "note": ""
  },
  {
   "property": "C11",
   "status": "proved",
   "theorems": [
    "Reflect.Registry.C11_alias_raises",
    "Reflect.Registry.C11_alias_resolves",
    "Reflect.Registry.C11_alias_accepted_iff",
    "Reflect.Registry.C11_chain_not_followed",
    "Reflect.Registry.C11_direct"
   ],
   "note": ""
  },
  {
   "property": "C12",
   "status": "proved",
   "theorems": [
    "Reflect.Registry.C12_unknown_no_effect",
    "Reflect.Registry.C12_known_has_effect"
   ],
   "note": ""
  },
  {
   "property": "C13",
   "status": "proved",
   "theorems": [
    "Reflect.Registry.C13_failed_type_is_served",
    "Reflect.Registry.C13_started_type_is_served",
    "Reflect.Registry.C13_members_of_initial_part",
    "Reflect.Registry.C13_complete"
   ],
   "note": "C13_started_type_is_served: for every program the type stays served after a failed load; C13_members_of_initial_part: what it then holds, exactly, over every history; C13_complete: with no failed load types are complete."
  },
  {
   "property": "C14",
   "status": "proved",
   "theorems": [
    "Reflect.Conc.C14_second_thread_fails",
    "Reflect.Conc.C14_half_loaded_type",
    "Reflect.Conc.C14_dangling_iterator",
    "Reflect.Conc.C14_agree",
    "Reflect.Conc.C14_distinct",
    "Reflect.Conc.C14_loaded_stable",
    "Reflect.Conc.C14_loaded_lookup",
    "Reflect.Conc.C14_members_initial_part",
    "Reflect.Conc.C14_complete_without_failure",
    "Reflect.Conc.C14_serial",
    "Reflect.Conc.C14_terminates"
   ],
   "note": "False of the code: three schedules are witnesses. C14_serial is the case in which it holds; C14_agree, C14_distinct, C14_members_initial_part, C14_complete_without_failure, C14_loaded_stable, C14_terminates hold over every schedule. Table accesses are atomic steps (in C++ they are data races; memory-model effects are not modelled)."
  },
  {
   "property": "C15",
   "status": "proved",
   "theorems": [
    "Reflect.C15_exact",
    "Reflect.C15_sound",
    "Reflect.C15_diverges_only_on_cycles",
    "Reflect.C15_self_parent_diverges"
   ],
   "note": ""
  },
  {
   "property": "C16",
   "status": "proved",
   "theorems": [
    "Reflect.C16_refl",
    "Reflect.C16_trans",
    "Reflect.C16_antisymm",
    "Reflect.C16_child_trans",
    "Reflect.C16_child_antisymm",
    "Reflect.C16_trans_fails_without_roots",
    "Reflect.C16_antisymm_fails_without_unique"
   ],
   "note": "The two _fails_ theorems show the two side conditions are needed."
  },
  {
   "property": "C17",
   "status": "proved",
   "theorems": [
    "Reflect.C17_function_nearest",
    "Reflect.C17_field_nearest"
   ],
   "note": ""
  },
  {
   "property": "C18",
   "status": "proved",
   "theorems": [
    "Reflect.C18_functions",
    "Reflect.C18_fields"
   ],
   "note": ""
  },
  {
   "property": "C19",
   "status": "proved",
   "theorems": [
    "Reflect.C19_refusal_raises",
    "Reflect.C19_definition_raises",
    "Reflect.C19_rejected_no_effect",
    "Reflect.C19_addField_iff",
    "Reflect.C19_addField_effect",
    "Reflect.C19_disjoint"
   ],
   "note": ""
  },
  {
   "property": "C20",
   "status": "proved",
   "theorems": [
    "Reflect.C20_isCopiable_iff",
    "Reflect.C20_plumbing",
    "Reflect.C20_plumbed_queries"
   ],
   "note": ""
  },
  {
   "property": "C21",
   "status": "proved",
   "theorems": [
    "Reflect.C21_mutable_ref_safe",
    "Reflect.C21_rvalue_ref_safe"
   ],
   "note": ""
  },
  {
   "property": "C22",
   "status": "proved",
   "theorems": [
    "Reflect.C22_matches_iff",
    "Reflect.C22_exact_iff"
   ],
   "note": ""
  },
  {
   "property": "C23",
   "status": "proved",
   "theorems": [
    "Reflect.C23_none_iff",
    "Reflect.C23_exact_iff",
    "Reflect.C23_order_irrelevant"
   ],
   "note": ""
  },
  {
   "property": "C24",
   "status": "proved",
   "theorems": [
    "Reflect.C24_converter"
   ],
   "note": ""
  },
  {
   "property": "C25",
   "status": "proved",
   "theorems": [
    "Reflect.C25_void_accepts",
    "Reflect.C25_reference_safe",
    "Reflect.C25_no_dangling_const_ref",
    "Reflect.C25_void_function",
    "Reflect.C25_rvalue_reference",
    "Reflect.C25_iff"
   ],
   "note": ""
  },
  {
   "property": "C26",
   "status": "proved",
   "theorems": [
    "Reflect.C26_pointee_const_lost",
    "Reflect.C26_pointee_const_lost_deep",
    "Reflect.C26_read",
    "Reflect.C26_described_alike",
    "Reflect.C26_kinds"
   ],
   "note": "The code violates the naive claim: C26_pointee_const_lost(_deep) are the witnesses. C26_described_alike says exactly what a description keeps and loses, for every C++ type of any pointer depth; C26_read that passing mode and own constness are right."
  },
  {
   "property": "C27",
   "status": "proved",
   "theorems": [
    "Reflect.C27_select",
    "Reflect.C27_call"
   ],
   "note": ""
  },
  {
   "property": "C28",
   "status": "proved",
   "theorems": [
    "Reflect.C28_order_irrelevant"
   ],
   "note": ""
  },
  {
   "property": "C29",
   "status": "proved",
   "theorems": [
    "Reflect.C29_arity_safe",
    "Reflect.C29_function_arity_safe"
   ],
   "note": ""
  },
  {
   "property": "C30",
   "status": "proved",
   "theorems": [
    "Reflect.C30_duplicate_refused",
    "Reflect.C30_refusal_no_effect",
    "Reflect.C30_accepted_iff",
    "Reflect.C30_accepted_effect",
    "Reflect.C30_no_duplicates",
    "Reflect.C30_order_matters"
   ],
   "note": "C30_accepted_iff is exact; the order dependence of the statement: C30_order_matters."
  },
  {
   "property": "C31",
   "status": "proved",
   "theorems": [
    "Reflect.C31_get_differs_from_call",
    "Reflect.C31_get_fails_iff",
    "Reflect.C31_agree_single",
    "Reflect.C31_get_raises",
    "Reflect.C31_test_function"
   ],
   "note": "C31_get_differs_from_call is the failure named in the statement; C31_agree_single and C31_get_fails_iff hold."
  },
  {
   "property": "C32",
   "status": "proved",
   "theorems": [
    "Reflect.C32_call_moving",
    "Reflect.C32_reference",
    "Reflect.C32_by_value",
    "Reflect.C32_rvalue_copied",
    "Reflect.C32_untransferable",
    "Reflect.C32_uncopyable",
    "Reflect.C32_by_value_moved",
    "Reflect.C32_call",
    "Reflect.C32_plumbed"
   ],
   "note": "C32_by_value: copied; C32_by_value_moved: the mutable rvalue() argument. For types where no other constructor accepts the object alone (C32_plumbed: the standard plumbing, with any extra constructors that do not, is such); C60 shows what happens otherwise. C32_call_moving: a whole argument list with parameters of every kind. Bodies of copy and move constructors copy and move cells."
  },
  {
   "property": "C33",
   "status": "proved",
   "theorems": [
    "Reflect.C33_no_mutable_reference",
    "Reflect.C33_call",
    "Reflect.C33_as_ignores_const",
    "Reflect.C33_const_moved_from",
    "Reflect.C33_call_refuses_const",
    "Reflect.C33_const_rvalue_parameter"
   ],
   "note": "C33_as_ignores_const, C33_const_moved_from (direct casts, every movable type) and C33_const_rvalue_parameter are the failures named in the statement; C33_no_mutable_reference, C33_call and C33_call_refuses_const what holds."
  },
  {
   "property": "C34",
   "status": "proved",
   "theorems": [
    "Reflect.C34_lvalue",
    "Reflect.C34_copy",
    "Reflect.C34_rvalue",
    "Reflect.C34_converter_hides_parent",
    "Reflect.C34_castable_but_fails",
    "Reflect.C34_not_castable_but_succeeds"
   ],
   "note": "Exact for the three kinds of target when no converter is declared (C34_lvalue, C34_copy for plainly copied and movable types, C34_rvalue); the ways it fails: C34_castable_but_fails, C34_not_castable_but_succeeds, C34_converter_hides_parent."
  },
  {
   "property": "C35",
   "status": "proved",
   "theorems": [
    "Reflect.C35_field",
    "Reflect.C35_missing"
   ],
   "note": ""
  },
  {
   "property": "C36",
   "status": "proved",
   "theorems": [
    "Reflect.Own.C36_destroyed_exactly_when_unowned",
    "Reflect.Own.C36_never_twice",
    "Reflect.Own.C36_no_leak",
    "Reflect.Own.C36_copy_assigned",
    "Reflect.Own.C36_move_assigned",
    "Reflect.Own.C36_constructed",
    "Reflect.Own.C36_out_of_scope"
   ],
   "note": ""
  },
  {
   "property": "C37",
   "status": "proved",
   "theorems": [
    "Reflect.Own.C37_moved_from_dangles",
    "Reflect.Own.C37_field_dangles",
    "Reflect.Own.C37_live_iff",
    "Reflect.Own.C37_live_without_moves_and_fields",
    "Reflect.Own.C37_stored_is_live"
   ],
   "note": "C37_live_iff is exact over every history; C37_moved_from_dangles and C37_field_dangles are the two ways the naive claim fails, C37_live_without_moves_and_fields that there are no others."
  },
  {
   "property": "C38",
   "status": "proved",
   "theorems": [
    "Reflect.Own.C38_assigned",
    "Reflect.Own.C38_freed_call_step",
    "Reflect.Own.C38_no_double_free",
    "Reflect.Own.C38_no_use_after_free",
    "Reflect.Own.C38_freed_exactly_once",
    "Reflect.Own.C38_move_assignment_leaks",
    "Reflect.Own.C38_leaked_iff_overwritten",
    "Reflect.Own.C38_null_call_iff",
    "Reflect.Own.C38_moved_from_is_empty"
   ],
   "note": "No double free and no use after free over every history; C38_leaked_iff_overwritten says exactly when one is leaked, C38_null_call_iff exactly when an empty handle is called."
  },
  {
   "property": "C39",
   "status": "proved",
   "theorems": [
    "Reflect.Json.C39_token_progress",
    "Reflect.Json.C39_draining_ends",
    "Reflect.Json.C39_skip_ends",
    "Reflect.Json.C39_memory"
   ],
   "note": ""
  },
  {
   "property": "C40",
   "status": "proved",
   "theorems": [
    "Reflect.Json.C40_escaped",
    "Reflect.Json.C40_default",
    "Reflect.Json.C40_copied",
    "Reflect.Json.C40_raw",
    "Reflect.Json.C40_validation_exact",
    "Reflect.Json.C40_not_beyond_basic_plane",
    "Reflect.Json.C40_escaping_accepts_overlong",
    "Reflect.Json.C40_byte_FF_undefined"
   ],
   "note": "C40_not_beyond_basic_plane and C40_escaping_accepts_overlong state where the escaping writer silently changes a string; C40_byte_FF_undefined the undefined behaviour."
  },
  {
   "property": "C41",
   "status": "proved",
   "theorems": [
    "Reflect.Json.C41_validation_exact",
    "Reflect.Json.C41_unchanged",
    "Reflect.Json.C41_accepts_surrogates_and_beyond",
    "Reflect.Json.C41_refusals",
    "Reflect.Json.C41_byte_FF_undefined"
   ],
   "note": "Numbers below 2^21, so surrogates and values above U+10FFFF are accepted (C41_accepts_surrogates_and_beyond); a 0xFF byte is undefined behaviour, not an error (C41_byte_FF_undefined)."
  },
  {
   "property": "C42",
   "status": "proved",
   "theorems": [
    "Reflect.Json.C42_escape_decodes",
    "Reflect.Json.C42_every_code",
    "Reflect.Json.C42_surrogate_pairs_not_combined"
   ],
   "note": "C42_surrogate_pairs_not_combined states the deviation from JSON."
  },
  {
   "property": "C43",
   "status": "proved",
   "theorems": [
    "Reflect.Json.C43_round_trip",
    "Reflect.Json.C43_literals",
    "Reflect.Json.C43_lone_minus"
   ],
   "note": ""
  },
  {
   "property": "C44",
   "status": "proved",
   "theorems": [
    "Reflect.Json.C44_skip_exact",
    "Reflect.Json.C44_rest_undisturbed",
    "Reflect.Json.C44_last_skipped",
    "Reflect.Json.C44_last_number",
    "Reflect.Json.C44_only_documents",
    "Reflect.Json.C44_skip_iff"
   ],
   "note": "C44_skip_exact: a value followed by something (inside a container, or white space). C44_last_skipped and C44_last_number: a value that ends the text; a number without exponent is then not skipped (skip takes the end of the text, noticed while the number was read, for a failure). The parser-level consequence is in C51."
  },
  {
   "property": "C45",
   "status": "proved",
   "theorems": [
    "Reflect.Json.C45_round_trip",
    "Reflect.Json.C45_fresh",
    "Reflect.Json.C45_integral_double_refused",
    "Reflect.Json.C45_pointer_to_null",
    "Reflect.Json.C45_any_depth"
   ],
   "note": "C45_round_trip and C45_fresh over every type environment and value; C45_integral_double_refused and C45_pointer_to_null are the two exceptions of the statement; C45_any_depth: the outcome is independent of the model's recursion bound. Sharing between pointers is not modelled."
  },
  {
   "property": "C46",
   "status": "proved",
   "theorems": [
    "Reflect.Json.C46_grammar",
    "Reflect.Json.C46_layouts",
    "Reflect.Json.C46_bare_control",
    "Reflect.Json.C46_infinity"
   ],
   "note": "C46_bare_control and C46_infinity are the exceptions of the statement."
  },
  {
   "property": "C47",
   "status": "proved",
   "theorems": [
    "Reflect.Json.C47_tokens_of_text",
    "Reflect.Json.C47_insertion",
    "Reflect.Json.C47_comment_refused",
    "Reflect.Json.C47_default_refused"
   ],
   "note": ""
  },
  {
   "property": "C48",
   "status": "proved",
   "theorems": [
    "Reflect.Json.C48_map_last_wins",
    "Reflect.Json.C48_field_last_wins",
    "Reflect.Json.C48_untyped_first_wins"
   ],
   "note": "For maps, scalar fields and untyped values; a field of another type has all its occurrences loaded one after the other (C51)."
  },
  {
   "property": "C49",
   "status": "proved",
   "theorems": [
    "Reflect.Json.C49_first_error_kept",
    "Reflect.Json.C49_nothing_read_after_error",
    "Reflect.Json.C49_line_exact",
    "Reflect.Json.C49_line_defined",
    "Reflect.Json.C49_column_exact",
    "Reflect.Json.C49_column_defined",
    "Reflect.Json.C49_error_at_current_line",
    "Reflect.Json.C49_expect",
    "Reflect.Json.C49_comment_newline_not_counted",
    "Reflect.Json.C49_parse_after_error"
   ],
   "note": "Newlines are those outside comments, the newline ending a comment included in the comment (C49_comment_newline_not_counted). C49_parse_after_error: custom parse functions are assumed to use the reader by its calls."
  },
  {
   "property": "C50",
   "status": "proved",
   "theorems": [
    "Reflect.Json.C50_cut",
    "Reflect.Json.C50_number",
    "Reflect.Json.C50_nested",
    "Reflect.Json.C50_reported",
    "Reflect.Json.C50_unclosed_accepted"
   ],
   "note": "C50_cut and C50_number say exactly when a cut text is accepted, C50_nested that it is not as soon as a whole token follows the bracket, C50_reported that otherwise (no broken string) the call raises or the reader has an error. Types with custom parsers are excluded."
  },
  {
   "property": "C51",
   "status": "proved",
   "theorems": [
    "Reflect.Json.C51_exactly_the_named_fields",
    "Reflect.Json.C51_unknown_keys_ignored"
   ],
   "note": "Exact, including repeated keys (occurrences loaded in order) and ignored members."
  },
  {
   "property": "C52",
   "status": "proved",
   "theorems": [
    "Reflect.Json.Ex.C52_output_depends_on_junk",
    "Reflect.Json.C52_assoc",
    "Reflect.Json.C52_combination",
    "Reflect.Json.C52_skipEmpty_indeterminate"
   ],
   "note": "C52_skipEmpty_indeterminate is the refutation of the last part; C52_output_depends_on_junk its effect on printed text."
  },
  {
   "property": "C53",
   "status": "proved",
   "theorems": [
    "Reflect.Json.C53_members",
    "Reflect.Json.C53_all_members",
    "Reflect.Json.C53_collision_refused",
    "Reflect.Json.Ex.C53_collision_printed"
   ],
   "note": "The colliding case: C53_collision_refused, C53_collision_printed."
  },
  {
   "property": "C54",
   "status": "proved",
   "theorems": [
    "Reflect.Json.C54_omits_exactly_empty",
    "Reflect.Json.C54_round_trip",
    "Reflect.Json.C54_all_empty",
    "Reflect.Json.Ex.C54_empty_is_not_default"
   ],
   "note": ""
  },
  {
   "property": "C55",
   "status": "proved",
   "theorems": [
    "Reflect.Json.C55_newline",
    "Reflect.Json.C55_safe",
    "Reflect.Json.C55_container_undefined"
   ],
   "note": "C55_safe up to depth 1024; C55_container_undefined beyond."
  },
  {
   "property": "C56",
   "status": "proved",
   "theorems": [
    "Reflect.Config.C56_parse",
    "Reflect.Config.C56_refused",
    "Reflect.Config.C56_text",
    "Reflect.Config.C56_round_trip",
    "Reflect.Config.C56_normal",
    "Reflect.Config.C56_only_proper",
    "Reflect.Config.C56_append",
    "Reflect.Config.C56_default_separator"
   ],
   "note": ""
  },
  {
   "property": "C57",
   "status": "proved",
   "theorems": [
    "Reflect.Config.C57_order",
    "Reflect.Config.C57_irreflexive",
    "Reflect.Config.C57_transitive",
    "Reflect.Config.C57_total",
    "Reflect.Config.C57_prefix",
    "Reflect.Config.C57_prefix_block"
   ],
   "note": ""
  },
  {
   "property": "C58",
   "status": "proved",
   "theorems": [
    "Reflect.Config.C58_nodes",
    "Reflect.Config.C58_no_empty_branch",
    "Reflect.Config.C58_links",
    "Reflect.Config.C58_links_below",
    "Reflect.Config.C58_dotted_component",
    "Reflect.Config.C58_dotted_refused",
    "Reflect.Config.C58_erase_takes_asked"
   ],
   "note": "C58_dotted_component, C58_dotted_refused: the exception in the statement. C58_erase_takes_asked: an empty node that was asked for goes when something below it is erased."
  },
  {
   "property": "C59",
   "status": "proved",
   "theorems": [
    "Reflect.C59_intact",
    "Reflect.C59_thrown",
    "Reflect.C59_printed",
    "Reflect.C59_last_byte_lost",
    "Reflect.C59_indeterminate",
    "Reflect.C59_overrun"
   ],
   "note": ""
  },
  {
   "property": "C60",
   "status": "proved",
   "theorems": [
    "Reflect.C60_copy",
    "Reflect.C60_move",
    "Reflect.C60_move_const",
    "Reflect.C60_refused",
    "Reflect.C60_copy_of_rvalue_moves",
    "Reflect.C60_convertible_ambiguous",
    "Reflect.C60_mutable_parent",
    "Reflect.C60_converting_child"
   ],
   "note": "C60_copy, C60_move, C60_move_const, C60_refused and, for parameters, C32_by_value say what holds; C60_copy_of_rvalue_moves, C60_convertible_ambiguous, C60_mutable_parent and C60_converting_child are the four failures named in the statement."
  },
  {
   "property": "C61",
   "status": "proved",
   "theorems": [
    "Reflect.Config.C61_index",
    "Reflect.Config.C61_component",
    "Reflect.Config.C61_only_digits",
    "Reflect.Config.C61_large",
    "Reflect.Config.C61_not_ascii",
    "Reflect.Config.C61_pop",
    "Reflect.Config.C61_not_digits"
   ],
   "note": "C61_large, C61_not_ascii: the exceptions in the statement."
  },
  {
   "property": "C62",
   "status": "proved",
   "theorems": [
    "Reflect.Json.C62_accepts",
    "Reflect.Json.C62_document",
    "Reflect.Json.C62_rest",
    "Reflect.Json.C62_value_unique",
    "Reflect.Json.C62_any_cache"
   ],
   "note": "An equivalence, for types without custom parsers."
  },
  {
   "property": "C63",
   "status": "proved",
   "theorems": [
    "Reflect.Json.C63_parsing_ends"
   ],
   "note": "For types without custom parsers whose pointers end (all C++ types), and any std::stod that returns or throws."
  },
  {
   "property": "C64",
   "status": "proved",
   "theorems": [
    "Reflect.Json.C64_short_texts",
    "Reflect.Json.C64_long_token_undefined",
    "Reflect.Json.C64_defined",
    "Reflect.Json.C64_documents_defined",
    "Reflect.Json.C64_missing_value_undefined",
    "Reflect.Json.C64_broken_string_undefined"
   ],
   "note": "C64_defined gives the exact exclusion, C64_missing_value_undefined, C64_broken_string_undefined and C64_long_token_undefined show that the exclusions are real; C64_short_texts: texts of up to 969 bytes have no long token."
  },
  {
   "property": "C65",
   "status": "proved",
   "theorems": [
    "Reflect.Json.C65_second_call_parses",
    "Reflect.Json.C65_list_of_refused",
    "Reflect.Json.C65_map_of_refused",
    "Reflect.Json.C65_pointer_to_refused",
    "Reflect.Json.C65_printing_list_of_refused",
    "Reflect.Json.Ex2.C65_fields_lost",
    "Reflect.Json.C65_refused_iff",
    "Reflect.Json.C65_print_refused_iff"
   ],
   "note": "C65_refused_iff and C65_print_refused_iff: which types are refused, by raising, the first time; the other theorems show where the rest of the property fails."
  },
  {
   "property": "C66",
   "status": "proved",
   "theorems": [
    "Reflect.Json.C66_null",
    "Reflect.Json.C66_lists_append",
    "Reflect.Json.C66_maps_merge"
   ],
   "note": ""
  },
  {
   "property": "C67",
   "status": "proved",
   "theorems": [
    "Reflect.C67_lvalue_refers",
    "Reflect.C67_temporary_stored",
    "Reflect.C67_temporary_refused",
    "Reflect.C67_access",
    "Reflect.C67_unrelated_refused",
    "Reflect.C67_arguments",
    "Reflect.C67_arguments_refused"
   ],
   "note": ""
  },
  {
   "property": "C68",
   "status": "proved",
   "theorems": [
    "Reflect.C68_refused",
    "Reflect.C68_call",
    "Reflect.C68_result_by_value",
    "Reflect.C68_method",
    "Reflect.C68_method_refused",
    "Reflect.C68_type_call",
    "Reflect.C68_call_moving",
    "Reflect.C68_accepted_runs",
    "Reflect.C68_method_runs",
    "Reflect.C68_method_moving",
    "Reflect.C68_type_call_moving",
    "Reflect.C68_call_temporaries"
   ],
   "note": "C68_call for lvalue and Value arguments; temporaries are stored first, as C67 says. C68_result_by_value for results; C68_method, C68_method_refused and C68_type_call: look-up, choice of the overload and call together (parameters that are rvalue references: C60). C68_call_moving, C68_method_moving and C68_type_call_moving; C68_accepted_runs and C68_method_runs: an accepted call without converters reaches the body (Props/MovingCalls): the same with by-value and rvalue-reference parameters that move from their argument, whose objects must not overlap."
  },
  {
   "property": "C69",
   "status": "proved",
   "theorems": [
    "Reflect.C69_which_converter",
    "Reflect.C69_seen_iff_declared",
    "Reflect.C69_misfit_refused",
    "Reflect.C69_converted"
   ],
   "note": "C69_converted for converters that take their source by reference and return by value."
  },
  {
   "property": "C70",
   "status": "proved",
   "theorems": [
    "Reflect.C70_setPointer",
    "Reflect.C70_setParent",
    "Reflect.C70_addFunction",
    "Reflect.C70_addField",
    "Reflect.C70_definition"
   ],
   "note": ""
  },
  {
   "property": "C71",
   "status": "proved",
   "theorems": [
    "Reflect.C71_copy",
    "Reflect.C71_move",
    "Reflect.C71_const_temporary",
    "Reflect.C71_move_value",
    "Reflect.C71_move_only_refuses",
    "Reflect.C71_converting_child_emptied",
    "Reflect.C71_readonly",
    "Reflect.C71_unrelated",
    "Reflect.C71_converted",
    "Reflect.C71_plumbed",
    "Reflect.C71_plumbed_assignable"
   ],
   "note": "C71_copy, C71_move, C71_const_temporary, C71_move_value, C71_converted: the cases accepted; C71_move_only_refuses, C71_readonly, C71_unrelated: those refused; C71_converting_child_emptied is the failure named in the statement; C71_plumbed and C71_plumbed_assignable: what the standard plumbing registers."
  },
  {
   "property": "C72",
   "status": "proved",
   "theorems": [
    "Reflect.C72_type_trait",
    "Reflect.C72_type_trait_refused",
    "Reflect.C72_field_trait",
    "Reflect.C72_fn_trait",
    "Reflect.C72_member_trait_refused",
    "Reflect.C72_listed",
    "Reflect.C72_inherited",
    "Reflect.C72_inherited_seen",
    "Reflect.C72_no_value",
    "Reflect.C72_read_as_value",
    "Reflect.C72_lvalue_trait",
    "Reflect.C72_temporary_trait",
    "Reflect.C72_read_by_value",
    "Reflect.C72_pointer_is_a_trait",
    "Reflect.C72_untagged",
    "Reflect.C72_hand_tagged",
    "Reflect.C72_hand_tagged_target",
    "Reflect.C72_refused_raises",
    "Reflect.C72_absent_member"
   ],
   "note": "C72_hand_tagged is the hazard named in the statement; C72_untagged says that without it isChildOf is the relation of C15. C72_temporary_trait for temporaries whose type can be moved or copied."
  },
  {
   "property": "C73",
   "status": "proved",
   "theorems": [
    "Reflect.C73_accepted",
    "Reflect.C73_star_refused",
    "Reflect.C73_accepted_iff",
    "Reflect.C73_group",
    "Reflect.C73_groups",
    "Reflect.C73_receiver"
   ],
   "note": "C73_star_refused is the failure named in the statement, C73_accepted_iff says it is the only one; member templates and ref-qualified members are not modelled."
  },
  {
   "property": "C74",
   "status": "proved",
   "theorems": [
    "Reflect.C74_accepted_runs",
    "Reflect.C74_any_arguments",
    "Reflect.C74_any_bool",
    "Reflect.C74_operator",
    "Reflect.C74_reference_result",
    "Reflect.C74_object_result",
    "Reflect.C74_const_refused",
    "Reflect.C74_absent",
    "Reflect.C74_bool",
    "Reflect.C74_not_own",
    "Reflect.C74_not_converted"
   ],
   "note": "C74_operator and C74_bool are equations for operators whose parameters are lvalue references; C74_any_arguments and C74_any_bool (Props/OperatorArgs) say what a successful operation with any of the parameters of C68 has done. C74_accepted_runs (Props/MovingCalls): an accepted operator call with parameters of every kind, moved-from ones included, runs the operator."
  },
  {
   "property": "C75",
   "status": "proved",
   "theorems": [
    "Reflect.TypeName.C75_same_name_iff",
    "Reflect.TypeName.C75_same_object_iff",
    "Reflect.TypeName.C75_scope",
    "Reflect.TypeName.C75_accepted_iff",
    "Reflect.TypeName.C75_const_argument"
   ],
   "note": "C75_const_argument is the hazard named in the statement. Arrays, function types and volatile are not modelled."
  },
  {
   "property": "C76",
   "status": "proved",
   "theorems": [
    "Reflect.C76_runs_in_order",
    "Reflect.C76_vector",
    "Reflect.C76_pointer",
    "Reflect.C76_map",
    "Reflect.C76_number",
    "Reflect.C76_string",
    "Reflect.C76_shared",
    "Reflect.C76_unique",
    "Reflect.C76_push_back",
    "Reflect.C76_deref",
    "Reflect.C76_deref_mutable",
    "Reflect.C76_bool_conversion",
    "Reflect.C76_converts",
    "Reflect.C76_bool_tables",
    "Reflect.C76_smart_is_not_raw"
   ],
   "note": "C76_vector, C76_map, C76_pointer, C76_shared, C76_unique, C76_number, C76_string: the tables (Spec/StdTypes.lean); C76_push_back, C76_deref, C76_deref_mutable, C76_bool_conversion, C76_converts: their use. What the bodies of vectors, maps and smart pointers do is in C85-C87; those of numbers in C91; std::string has size() only, which is C++ and not modelled. void* and vector<bool> do not compile."
  },
  {
   "property": "C77",
   "status": "proved",
   "theorems": [
    "Reflect.C77_function_declared",
    "Reflect.C77_declared",
    "Reflect.C77_const_declared",
    "Reflect.C77_taken",
    "Reflect.C77_half_declared",
    "Reflect.C77_declares",
    "Reflect.C77_read",
    "Reflect.C77_read_value",
    "Reflect.C77_write",
    "Reflect.C77_write_temporary",
    "Reflect.C77_write_then_read",
    "Reflect.C77_const_refused",
    "Reflect.C77_unrelated_refused",
    "Reflect.C77_no_reference",
    "Reflect.C77_unknown",
    "Reflect.C77_function_called"
   ],
   "note": "C77_declared, C77_const_declared, C77_declares, C77_function_declared, C77_taken, C77_half_declared: declaring; C77_read, C77_read_value, C77_write, C77_write_temporary, C77_write_then_read: using; the others: what is refused. C77_half_declared is the hazard named in the statement."
  },
  {
   "property": "C78",
   "status": "proved",
   "theorems": [
    "Reflect.C78_argument",
    "Reflect.C78_signature",
    "Reflect.C78_signature_types",
    "Reflect.C78_type_printed",
    "Reflect.C78_type_endless",
    "Reflect.C78_type_text",
    "Reflect.C78_fields_in_order",
    "Reflect.C78_scope_text",
    "Reflect.C78_field_const_unseen"
   ],
   "note": "Tables and lists are printed in the order of the lists that model the hash tables; scopes are shown by their names (their keys, C01). C78_type_endless is the failure when a type descends from itself."
  },
  {
   "property": "C79",
   "status": "proved",
   "theorems": [
    "Reflect.C79_described",
    "Reflect.C79_described_default",
    "Reflect.C79_twice",
    "Reflect.C79_alloc",
    "Reflect.C79_alloc_apart",
    "Reflect.C79_allocs",
    "Reflect.C79_new_copy",
    "Reflect.C79_new_move",
    "Reflect.C79_new_temporary",
    "Reflect.C79_plumbed",
    "Reflect.C79_new_refused",
    "Reflect.C79_alloc_missing",
    "Reflect.C79_alloc_no_default",
    "Reflect.C79_alloc_inherited",
    "Reflect.C79_deref"
   ],
   "note": "C79_described, C79_described_default, C79_twice, C79_plumbed: declaring; C79_alloc, C79_alloc_apart, C79_allocs (any number of allocations), C79_new_copy, C79_new_move, C79_new_temporary, C79_deref: the objects; C79_alloc_missing, C79_alloc_no_default, C79_new_refused: refusals; C79_alloc_inherited: the ancestor. The library never frees the object: neither does the model."
  },
  {
   "property": "C80",
   "status": "proved",
   "theorems": [
    "Reflect.C80_free_recorded",
    "Reflect.C80_member_recorded",
    "Reflect.C80_member_or_free",
    "Reflect.C80_both_accepted",
    "Reflect.C80_receiver",
    "Reflect.C80_const_chosen",
    "Reflect.C80_mutable_chosen",
    "Reflect.C80_mutable_ambiguous",
    "Reflect.C80_construct",
    "Reflect.C80_construct_missing",
    "Reflect.C80_construct_refused",
    "Reflect.C80_constructed",
    "Reflect.C80_constructed_moving",
    "Reflect.C80_accepted_runs",
    "Reflect.C80_moved"
   ],
   "note": "C80_free_recorded, C80_member_recorded, C80_member_or_free: the record; C80_receiver, C80_both_accepted, C80_const_chosen, C80_mutable_chosen: const and mutable members; C80_mutable_ambiguous is the hazard named in the statement; C80_construct, C80_constructed, C80_constructed_moving, C80_accepted_runs, C80_moved, C80_construct_missing, C80_construct_refused: constructing. What the C++ constructor leaves in the object is a hypothesis."
  },
  {
   "property": "C81",
   "status": "proved",
   "theorems": [
    "Reflect.Json.C81_print",
    "Reflect.Json.C81_cycle_not_printed",
    "Reflect.Json.C81_unreached",
    "Reflect.Json.C81_parse_tree",
    "Reflect.Json.C81_null_smart",
    "Reflect.Json.C81_null_raw",
    "Reflect.Json.C81_null_element",
    "Reflect.Json.C81_null_in_array",
    "Reflect.Json.C81_null_in_map",
    "Reflect.Json.C81_alias",
    "Reflect.Json.C81_null_allocates"
   ],
   "note": "C81_print, C81_cycle_not_printed: printing; C81_unreached, C81_alias, C81_null_allocates, C81_null_smart: parsing with sharing and cycles; C81_parse_tree: without sharing, down to C44-C66 on trees. C81_null_raw, C81_null_element (the first element: parsing raises), C81_null_in_array and C81_null_in_map (null anywhere: never without an error) are the hazards of raw pointers. delete is not modelled: an object nobody points to stays. Custom parsers are assumed to stay within what they can reach (Confined) and to act alike on trees (ParsesAlike)."
  },
  {
   "property": "C82",
   "status": "proved",
   "theorems": [
    "Reflect.Json.C82_ascii",
    "Reflect.Json.C82_default",
    "Reflect.Json.C82_utf8",
    "Reflect.Json.C82_unchecked",
    "Reflect.Json.C82_copied"
   ],
   "note": "UTF-8 here means code points of up to 21 bits in their shortest form, which is what the validation of the library accepts (C40_validation_exact). Doubles must be printed as numbers (Numbers), as in C46."
  },
  {
   "property": "C83",
   "status": "proved",
   "theorems": [
    "Reflect.Json.C83_error_iff",
    "Reflect.Json.C83_string_iff",
    "Reflect.Json.C83_unchecked",
    "Reflect.Json.C83_array_stops",
    "Reflect.Json.C83_array_no_callback",
    "Reflect.Json.C83_object_stops"
   ],
   "note": "C83_error_iff, C83_string_iff, C83_unchecked: when; C83_array_stops, C83_object_stops, C83_array_no_callback: what is written. Pretty printing deeper than 1024 levels is excluded (C55), as are doubles that are not printed as numbers (C46)."
  },
  {
   "property": "C84",
   "status": "proved",
   "theorems": [
    "Reflect.Json.Share.C84_parse_serial",
    "Reflect.Json.Share.C84_print_serial",
    "Reflect.Json.Share.C84_parse_no_race",
    "Reflect.Json.Share.C84_print_no_race",
    "Reflect.Json.Share.C84_parse_exclusive",
    "Reflect.Json.Share.C84_print_exclusive",
    "Reflect.Json.Share.C84_parse_progress",
    "Reflect.Json.Share.C84_print_progress",
    "Reflect.Json.Share.C84_ends",
    "Reflect.Json.Share.C84_parse_alone",
    "Reflect.Json.Share.C84_print_alone"
   ],
   "note": "C84_parse_serial, C84_print_serial: linearisable, in the order of the mutex; C84_*_no_race, C84_*_exclusive: no data race; C84_*_progress, C84_ends: no deadlock; C84_*_alone: independent of the schedule when no type is refused. Needs that the mutex is held while parsers are made, that the cache never changes an entry that was complete, and that a parser refers only to completed ones when it is handed out. What init writes to one parser object between two calls of getParser counts as one write."
  },
  {
   "property": "C85",
   "status": "proved",
   "theorems": [
    "Reflect.C85_at",
    "Reflect.C85_index",
    "Reflect.C85_size",
    "Reflect.C85_clear",
    "Reflect.C85_resize",
    "Reflect.C85_push_back",
    "Reflect.C85_push_back_moved",
    "Reflect.C85_const_refused",
    "Reflect.C85_index_unchecked",
    "Reflect.C85_set",
    "Reflect.C85_history",
    "Reflect.C85_described"
   ],
   "note": "C85_size, C85_at, C85_index, C85_clear, C85_resize, C85_push_back, C85_push_back_moved, C85_set: one call; C85_history: any number of push_back, push_back(x.rvalue()), v[i].assign, clear and resize, also where one is undefined; C85_const_refused: refusals; C85_index_unchecked is the hazard named in the statement; C85_described: the description of C76 with the bodies of Model/Vector.lean behind it is such a vector. The members of std::vector are modelled as the standard says, elements are copied cell by cell; destructors and freed places are not modelled. The history theorem is for arguments outside of the vector; C85_push_back and C85_set have no such restriction."
  },
  {
   "property": "C86",
   "status": "proved",
   "theorems": [
    "Reflect.C86_size",
    "Reflect.C86_count",
    "Reflect.C86_at",
    "Reflect.C86_index",
    "Reflect.C86_write",
    "Reflect.C86_set",
    "Reflect.C86_keys",
    "Reflect.C86_const_refused",
    "Reflect.C86_history",
    "Reflect.C86_described"
   ],
   "note": "C86_size, C86_count, C86_at, C86_index, C86_set, C86_keys: one call; C86_write: what writing to the place m[k] gave does; C86_history: any number; C86_const_refused: refusals; C86_described: the description of C76 with the bodies of Model/MapFns.lean behind it is such a map. The members of the C++ maps are modelled as the standard says: nodes do not move, two keys are the same if their cells are, the order of iteration is arbitrary. The cells that name the nodes stand for the links between them. Destructors and freed places are not modelled. The history theorem is for arguments outside of the map; C86_set also allows a value of the map."
  },
  {
   "property": "C87",
   "status": "proved",
   "theorems": [
    "Reflect.C87_get",
    "Reflect.C87_bool",
    "Reflect.C87_eq",
    "Reflect.C87_deref",
    "Reflect.C87_null_deref",
    "Reflect.C87_unique_reset",
    "Reflect.C87_unique_take",
    "Reflect.C87_unique_move",
    "Reflect.C87_unique_release",
    "Reflect.C87_unique_copy_refused",
    "Reflect.C87_shared_reset",
    "Reflect.C87_shared_take",
    "Reflect.C87_shared_copy",
    "Reflect.C87_shared_move",
    "Reflect.C87_unique_history",
    "Reflect.C87_shared_history",
    "Reflect.C87_unique_once",
    "Reflect.C87_shared_once",
    "Reflect.C87_shared_copied",
    "Reflect.C87_unique_const_refused",
    "Reflect.C87_shared_const_refused",
    "Reflect.C87_unique_made",
    "Reflect.C87_shared_made",
    "Reflect.C87_shared_described",
    "Reflect.C87_unique_described"
   ],
   "note": "C87_get, C87_bool, C87_eq, C87_deref: looking; C87_unique_reset/take/move/release, C87_shared_reset/take/copy/move: one call; C87_unique_made, C87_shared_made, C87_shared_copied: new pointers; C87_unique_history, C87_shared_history, C87_unique_once, C87_shared_once: any number of calls; the refusals; C87_null_deref is the hazard named in the statement; C87_shared_described, C87_unique_described: the descriptions of C76 with the bodies of Model/SmartPtr.lean behind them. delete is a count kept in front of the object; destructors, deleters and weak pointers are not modelled. A pointer that goes out of scope acts as reset(). reset(x) with a null x is not part of the histories."
  },
  {
   "property": "C88",
   "status": "proved",
   "theorems": [
    "Reflect.Json.C88_parse",
    "Reflect.Json.C88_document",
    "Reflect.Json.C88_back"
   ],
   "note": "C88_parse: any text, also faulty; C88_document: texts that fit the type; C88_back: texts that were printed. Backed states what is assumed of the reflected functions (they are those of C71, C85, C86); PlaceDemo shows a recursive class with a number, an aliased string, a vector, a map of vectors, a unique_ptr to its own type and a shared_ptr that meets it, and backedP a map of shared_ptr. Several owners of one object are in C81 and C87."
  },
  {
   "property": "C89",
   "status": "proved",
   "theorems": [
    "Reflect.Json.C89_print",
    "Reflect.Json.C89_whole",
    "Reflect.Json.C89_back"
   ],
   "note": "C89_print: any object, writer and state of the printers; C89_whole: every object that can be parsed into; C89_back: printing one object and parsing the text into another in the same memory. BackedW states what is assumed of the reflected functions (they are those of C79, C85, C86, C87); PlaceDemo shows a recursive class with a number, an aliased string, a vector, a map of vectors, a unique_ptr to its own type and a shared_ptr that meets it. CustomPrinter is not part of it. The vector that keys() returns is copied cell by cell."
  },
  {
   "property": "C90",
   "status": "proved",
   "theorems": [
    "Reflect.Json.C90_print",
    "Reflect.Json.C90_same_text",
    "Reflect.Json.C90_copy",
    "Reflect.C90_keys",
    "Reflect.C90_history",
    "Reflect.C90_same"
   ],
   "note": "C90_keys: the list that keys() gives; C90_history: any number of calls; C90_same: two maps, anywhere; C90_print, C90_same_text, C90_copy: JSON. That the keys ascend is part of IsMap (Spec/MapFns.lean), which C86 and C88 show to hold after every call and every parse. OrderDemo: a std::map with keys of two cells; PlaceDemo: a std::map of strings."
  },
  {
   "property": "C91",
   "status": "proved",
   "theorems": [
    "Reflect.C91_narrow",
    "Reflect.C91_signed",
    "Reflect.C91_unsigned",
    "Reflect.C91_float",
    "Reflect.C91_refused",
    "Reflect.C91_number",
    "Reflect.C91_total_unsigned",
    "Reflect.C91_total_signed"
   ],
   "note": "C91_narrow, C91_signed, C91_unsigned, C91_float: one addition; C91_number: the sum as a number; C91_refused: asking for a narrower type; C91_total_unsigned, C91_total_signed: any number of additions. C91_narrow is for types of at most 30 bits (bool, char, short). Floating point addition is a parameter. NumberDemo: short, int, unsigned and a floating point type."
  },
  {
   "property": "C92",
   "status": "proved",
   "theorems": [
    "Reflect.C92_float",
    "Reflect.C92_float_min_not_least",
    "Reflect.C92_double",
    "Reflect.C92_limits",
    "Reflect.C92_once",
    "Reflect.C92_writable"
   ],
   "note": "C92_limits: what is read, at any time; C92_once: no second time; C92_writable: the hazard named in the statement. C92_float, C92_float_min_not_least: floating point types, as bits in any format with at least two bits of exponent; C92_double: for double these are the numbers of C96."
  },
  {
   "property": "C93",
   "status": "proved",
   "theorems": [
    "Reflect.Registry.C93_accepted",
    "Reflect.Registry.C93_names",
    "Reflect.Registry.C93_same_type",
    "Reflect.Registry.C93_known",
    "Reflect.Registry.C93_start"
   ],
   "note": "C93_accepted: an equivalence, with everything the constructor changes; C93_names and C93_known: lookups at any later time; C93_same_type: two lookups in one history; C93_start: all names of all fundamental types are known after start-up. The typedefs of the compiler are a parameter (Sane: they are integer types). Spec/NumberNames.lean spells the names out on its own."
  },
  {
   "property": "C94",
   "status": "proved",
   "theorems": [
    "Reflect.Json.C94_parse",
    "Reflect.Json.C94_print",
    "Reflect.Json.C94_session",
    "Reflect.Json.C94_copy"
   ],
   "note": "C94_parse, C94_print: one call; C94_session: any sequence; C94_copy: an instance of it. A call that raises ends the sequence, as it leaves its object half parsed. json::print(std::ostream&, object) and json::print(object) are not modelled: they call parse on the output stream, which no overload takes, so they cannot be instantiated. The hypotheses on the reflected functions are those of C88 and C89; PlaceDemo: two maps."
  },
  {
   "property": "C95",
   "status": "proved",
   "theorems": [
    "Reflect.Json.C95_lexical",
    "Reflect.Json.C95_lexical_only",
    "Reflect.Json.C95_expect",
    "Reflect.Json.C95_expect_zero_byte",
    "Reflect.Json.C95_expect_end",
    "Reflect.Json.C95_parse",
    "Reflect.Json.C95_untyped"
   ],
   "note": "C95_lexical: message, place and rest of each malformed text; C95_lexical_only: there are no others (strings that are broken off or have a byte 0xFF while being validated are undefined, C64, and record no error); C95_expect, C95_expect_zero_byte, C95_expect_end: tokens of the wrong type; C95_untyped: where an untyped value is due; C95_parse: whatever is parsed, custom parse functions using the reader by its calls only."
  },
  {
   "property": "C96",
   "status": "proved",
   "theorems": [
    "Reflect.Json.C96_numeral",
    "Reflect.Json.C96_printed",
    "Reflect.Json.C96_form",
    "Reflect.Json.C96_finite",
    "Reflect.Json.C96_numbers",
    "Reflect.Json.C96_digits",
    "Reflect.Json.C96_back",
    "Reflect.Json.C96_settles",
    "Reflect.Json.C96_lossy",
    "Reflect.Json.C96_comes",
    "Reflect.Json.C96_json",
    "Reflect.Json.C96_text",
    "Reflect.Json.C96_json_whole"
   ],
   "note": "Under the assumption Correct about the C library (Spec/Doubles), which a library constructed in Props/Doubles meets. Doubles and numerals are exact rational numbers. C96_printed, C96_form, C96_finite, C96_numbers: what is printed; C96_digits, C96_back, C96_comes, C96_json: what comes back; C96_numeral, C96_text: from text to text; C96_json_whole: whole numbers are refused; C96_settles; C96_lossy."
  },
  {
   "property": "C97",
   "status": "proved",
   "theorems": [
    "Reflect.Json.C97_number",
    "Reflect.Json.C97_string",
    "Reflect.Json.C97_vector",
    "Reflect.Json.C97_map",
    "Reflect.Json.C97_pointer",
    "Reflect.Json.C97_shared",
    "Reflect.Json.C97_unique",
    "Reflect.Json.C97_class",
    "Reflect.Json.C97_void",
    "Reflect.Json.C97_custom",
    "Reflect.Json.C97_custom_ignored",
    "Reflect.Json.C97_float_and_integer",
    "Reflect.Json.C97_one_kind",
    "Reflect.Json.C97_members",
    "Reflect.Json.C97_members_distinct",
    "Reflect.Json.C97_members_seen"
   ],
   "note": "Joins C76 (the descriptions) and C72 (traits after any history) to the kinds of types that C45\u2013C66, C81, C88\u2013C90, C94 and C96 are about: their hypothesis Env.Has is met by the described types. Views (Spec/JsonView) is what the JSON code asks a type. SeesMembers is what it asks for the fields; C97_members_distinct gives Env.Named, which C62 and others assume. A trait \"pointer\" given by hand, without setPointer, is outside."
  }
 ]
}