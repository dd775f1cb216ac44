NOTES={

'C32':('proved','C32_by_value: copied; C32_by_value_moved: the mutable rvalue() argument. For types where no other constructor accepts the object alone (C32_plumbed: the standard plumbing, with any extra constructors that do not, is such); C60 shows what happens otherwise. C32_call_moving: a whole argument list with parameters of every kind. Bodies of copy and move constructors copy and move cells.'),

'C02':('proved',"C02_empty_component_disagrees shows why components must be non-empty: with an empty component the two ways of splitting differ."),
'C08':('proved',"C08_late_alias_changes shows the stated exception (a later alias of that very name) is real."),
'C14':('proved',"False of the code: three schedules are witnesses. C14_serial is the case in which it holds; C14_agree, C14_distinct, C14_members_initial_part, C14_complete_without_failure, C14_loaded_stable, C14_terminates hold over every schedule. Table accesses are atomic steps (in C++ they are data races; memory-model effects are not modelled)."),
'C16':('proved',"The two _fails_ theorems show the two side conditions are needed."),
'C26':('proved',"The code violates the naive claim: C26_pointee_const_lost(_deep) are the witnesses. C26_described_alike says exactly what a description keeps and loses, for every C++ type of any pointer depth; C26_read that passing mode and own constness are right."),

'C41':('proved',"Numbers below 2^21, so surrogates and values above U+10FFFF are accepted (C41_accepts_surrogates_and_beyond); a 0xFF byte is undefined behaviour, not an error (C41_byte_FF_undefined)."),
'C42':('proved',"C42_surrogate_pairs_not_combined states the deviation from JSON."),
'C44':('proved',"C44_skip_exact: a value followed by something (inside a container, or white space). C44_last_skipped and C44_last_number: a value that ends the text; a number without exponent is then not skipped (skip takes the end of the text, noticed while the number was read, for a failure). The parser-level consequence is in C51."),
'C49':('proved',"Newlines are those outside comments, the newline ending a comment included in the comment (C49_comment_newline_not_counted). C49_parse_after_error: custom parse functions are assumed to use the reader by its calls."),
'C40':('proved',"C40_not_beyond_basic_plane and C40_escaping_accepts_overlong state where the escaping writer silently changes a string; C40_byte_FF_undefined the undefined behaviour."),
'C43':('proved',""),
'C52':('proved',"C52_skipEmpty_indeterminate is the refutation of the last part; C52_output_depends_on_junk its effect on printed text."),

'C48':('proved',"For maps, scalar fields and untyped values; a field of another type has all its occurrences loaded one after the other (C51)."),
'C50':('proved',"C50_cut and C50_number say exactly when a cut text is accepted, C50_nested that it is not as soon as a whole token follows the bracket, C50_reported that otherwise (no broken string) the call raises or the reader has an error. Types with custom parsers are excluded."),
'C51':('proved',"Exact, including repeated keys (occurrences loaded in order) and ignored members."),
'C62':('proved',"An equivalence, for types without custom parsers."),
'C63':('proved',"For types without custom parsers whose pointers end (all C++ types), and any std::stod that returns or throws."),
'C64':('proved',"C64_defined gives the exact exclusion, C64_missing_value_undefined, C64_broken_string_undefined and C64_long_token_undefined show that the exclusions are real; C64_short_texts: texts of up to 969 bytes have no long token."),
'C65':('proved',"C65_refused_iff and C65_print_refused_iff: which types are refused, by raising, the first time; the other theorems show where the rest of the property fails."),
'C45':('proved',"C45_round_trip and C45_fresh over every type environment and value; C45_integral_double_refused and C45_pointer_to_null are the two exceptions of the statement; C45_any_depth: the outcome is independent of the model's recursion bound. Sharing between pointers is not modelled."),
'C46':('proved',"C46_bare_control and C46_infinity are the exceptions of the statement."),
'C53':('proved',"The colliding case: C53_collision_refused, C53_collision_printed."),
'C54':('proved',""),
'C55':('proved',"C55_safe up to depth 1024; C55_container_undefined beyond."),

'C56':('proved',""),
'C57':('proved',""),
'C58':('proved',"C58_dotted_component, C58_dotted_refused: the exception in the statement. C58_erase_takes_asked: an empty node that was asked for goes when something below it is erased."),
'C59':('proved',""),
'C61':('proved',"C61_large, C61_not_ascii: the exceptions in the statement."),
'C37':('proved','C37_live_iff is exact over every history; C37_moved_from_dangles and C37_field_dangles are the two ways the naive claim fails, C37_live_without_moves_and_fields that there are no others.'),
'C38':('proved','No double free and no use after free over every history; C38_leaked_iff_overwritten says exactly when one is leaked, C38_null_call_iff exactly when an empty handle is called.'),
'C33':('proved','C33_as_ignores_const, C33_const_moved_from (direct casts, every movable type) and C33_const_rvalue_parameter are the failures named in the statement; C33_no_mutable_reference, C33_call and C33_call_refuses_const what holds.'),
'C34':('proved','Exact for the three kinds of target when no converter is declared (C34_lvalue, C34_copy for plainly copied and movable types, C34_rvalue); the ways it fails: C34_castable_but_fails, C34_not_castable_but_succeeds, C34_converter_hides_parent.'),
'C60':('proved','C60_copy, C60_move, C60_move_const, C60_refused and, for parameters, C32_by_value say what holds; C60_copy_of_rvalue_moves, C60_convertible_ambiguous, C60_mutable_parent and C60_converting_child are the four failures named in the statement.'),
'C05':('proved','C05_second_accepted_iff says exactly when a second registration is accepted; C05_order_matters_when_enclosing covers every pair of enclosing names, C05_order_irrelevant every other pair.'),
'C06':('proved','C06_lookup_creates says exactly which scopes a lookup creates; C06_lookup and C06_hasFunction what it answers; C06_lookup_mutates is a concrete witness.'),
'C13':('proved','C13_started_type_is_served: for every program the type stays served after a failed load; C13_members_of_initial_part: what it then holds, exactly, over every history; C13_complete: with no failed load types are complete.'),
'C30':('proved','C30_accepted_iff is exact; the order dependence of the statement: C30_order_matters.'),
'C31':('proved','C31_get_differs_from_call is the failure named in the statement; C31_agree_single and C31_get_fails_iff hold.'),
'C67':('proved',''),
'C68':('proved','C68_call for lvalue and Value arguments; temporaries are stored first, as C67 says. C68_result_by_value for results; C68_method, C68_method_refused and C68_type_call: look-up, choice of the overload and call together (parameters that are rvalue references: C60). C68_call_moving, C68_method_moving and C68_type_call_moving; C68_accepted_runs and C68_method_runs: an accepted call without converters reaches the body (Props/MovingCalls): the same with by-value and rvalue-reference parameters that move from their argument, whose objects must not overlap.'),
'C69':('proved','C69_converted for converters that take their source by reference and return by value.'),
'C70':('proved',''),
'C71':('proved','C71_copy, C71_move, C71_const_temporary, C71_move_value, C71_converted: the cases accepted; C71_move_only_refuses, C71_readonly, C71_unrelated: those refused; C71_converting_child_emptied is the failure named in the statement; C71_plumbed and C71_plumbed_assignable: what the standard plumbing registers.'),
'C72':('proved','C72_hand_tagged is the hazard named in the statement; C72_untagged says that without it isChildOf is the relation of C15. C72_temporary_trait for temporaries whose type can be moved or copied.'),
'C73':('proved',"C73_star_refused is the failure named in the statement, C73_accepted_iff says it is the only one; member templates and ref-qualified members are not modelled."),
'C74':('proved',"C74_operator and C74_bool are equations for operators whose parameters are lvalue references; C74_any_arguments and C74_any_bool (Props/OperatorArgs) say what a successful operation with any of the parameters of C68 has done. C74_accepted_runs (Props/MovingCalls): an accepted operator call with parameters of every kind, moved-from ones included, runs the operator."),
'C75':('proved','C75_const_argument is the hazard named in the statement. Arrays, function types and volatile are not modelled.'),
'C76':('proved','C76_vector, C76_map, C76_pointer, C76_shared, C76_unique, C76_number, C76_string: the tables (Spec/StdTypes.lean); C76_push_back, C76_deref, C76_deref_mutable, C76_bool_conversion, C76_converts: their use. What the bodies of vectors, maps and smart pointers do is in C85-C87; those of numbers in C91; std::string has size() only, which is C++ and not modelled. void* and vector<bool> do not compile.'),
'C77':('proved','C77_declared, C77_const_declared, C77_declares, C77_function_declared, C77_taken, C77_half_declared: declaring; C77_read, C77_read_value, C77_write, C77_write_temporary, C77_write_then_read: using; the others: what is refused. C77_half_declared is the hazard named in the statement.'),
'C78':('proved','Tables and lists are printed in the order of the lists that model the hash tables; scopes are shown by their names (their keys, C01). C78_type_endless is the failure when a type descends from itself.'),
'C79':('proved','C79_described, C79_described_default, C79_twice, C79_plumbed: declaring; C79_alloc, C79_alloc_apart, C79_allocs (any number of allocations), C79_new_copy, C79_new_move, C79_new_temporary, C79_deref: the objects; C79_alloc_missing, C79_alloc_no_default, C79_new_refused: refusals; C79_alloc_inherited: the ancestor. The library never frees the object: neither does the model.'),
'C80':('proved','C80_free_recorded, C80_member_recorded, C80_member_or_free: the record; C80_receiver, C80_both_accepted, C80_const_chosen, C80_mutable_chosen: const and mutable members; C80_mutable_ambiguous is the hazard named in the statement; C80_construct, C80_constructed, C80_constructed_moving, C80_accepted_runs, C80_moved, C80_construct_missing, C80_construct_refused: constructing. What the C++ constructor leaves in the object is a hypothesis.'),
'C81':('proved','C81_print, C81_cycle_not_printed: printing; C81_unreached, C81_alias, C81_null_allocates, C81_null_smart: parsing with sharing and cycles; C81_parse_tree: without sharing, down to C44-C66 on trees. C81_null_raw, C81_null_element (the first element: parsing raises), C81_null_in_array and C81_null_in_map (null anywhere: never without an error) are the hazards of raw pointers. delete is not modelled: an object nobody points to stays. Custom parsers are assumed to stay within what they can reach (Confined) and to act alike on trees (ParsesAlike).'),
'C82':('proved','UTF-8 here means code points of up to 21 bits in their shortest form, which is what the validation of the library accepts (C40_validation_exact). Doubles must be printed as numbers (Numbers), as in C46.'),
'C83':('proved','C83_error_iff, C83_string_iff, C83_unchecked: when; C83_array_stops, C83_object_stops, C83_array_no_callback: what is written. Pretty printing deeper than 1024 levels is excluded (C55), as are doubles that are not printed as numbers (C46).'),
'C84':('proved','C84_parse_serial, C84_print_serial: linearisable, in the order of the mutex; C84_*_no_race, C84_*_exclusive: no data race; C84_*_progress, C84_ends: no deadlock; C84_*_alone: independent of the schedule when no type is refused. Needs that the mutex is held while parsers are made, that the cache never changes an entry that was complete, and that a parser refers only to completed ones when it is handed out. What init writes to one parser object between two calls of getParser counts as one write.'),
'C85':('proved','C85_size, C85_at, C85_index, C85_clear, C85_resize, C85_push_back, C85_push_back_moved, C85_set: one call; C85_history: any number of push_back, push_back(x.rvalue()), v[i].assign, clear and resize, also where one is undefined; C85_const_refused: refusals; C85_index_unchecked is the hazard named in the statement; C85_described: the description of C76 with the bodies of Model/Vector.lean behind it is such a vector. The members of std::vector are modelled as the standard says, elements are copied cell by cell; destructors and freed places are not modelled. The history theorem is for arguments outside of the vector; C85_push_back and C85_set have no such restriction.'),
'C86':('proved','C86_size, C86_count, C86_at, C86_index, C86_set, C86_keys: one call; C86_write: what writing to the place m[k] gave does; C86_history: any number; C86_const_refused: refusals; C86_described: the description of C76 with the bodies of Model/MapFns.lean behind it is such a map. The members of the C++ maps are modelled as the standard says: nodes do not move, two keys are the same if their cells are, the order of iteration is arbitrary. The cells that name the nodes stand for the links between them. Destructors and freed places are not modelled. The history theorem is for arguments outside of the map; C86_set also allows a value of the map.'),
'C87':('proved','C87_get, C87_bool, C87_eq, C87_deref: looking; C87_unique_reset/take/move/release, C87_shared_reset/take/copy/move: one call; C87_unique_made, C87_shared_made, C87_shared_copied: new pointers; C87_unique_history, C87_shared_history, C87_unique_once, C87_shared_once: any number of calls; the refusals; C87_null_deref is the hazard named in the statement; C87_shared_described, C87_unique_described: the descriptions of C76 with the bodies of Model/SmartPtr.lean behind them. delete is a count kept in front of the object; destructors, deleters and weak pointers are not modelled. A pointer that goes out of scope acts as reset(). reset(x) with a null x is not part of the histories.'),
'C88':('proved','C88_parse: any text, also faulty; C88_document: texts that fit the type; C88_back: texts that were printed. Backed states what is assumed of the reflected functions (they are those of C71, C85, C86); PlaceDemo shows a recursive class with a number, an aliased string, a vector, a map of vectors, a unique_ptr to its own type and a shared_ptr that meets it, and backedP a map of shared_ptr. Several owners of one object are in C81 and C87.'),
'C89':('proved','C89_print: any object, writer and state of the printers; C89_whole: every object that can be parsed into; C89_back: printing one object and parsing the text into another in the same memory. BackedW states what is assumed of the reflected functions (they are those of C79, C85, C86, C87); PlaceDemo shows a recursive class with a number, an aliased string, a vector, a map of vectors, a unique_ptr to its own type and a shared_ptr that meets it. CustomPrinter is not part of it. The vector that keys() returns is copied cell by cell.'),
'C90':('proved','C90_keys: the list that keys() gives; C90_history: any number of calls; C90_same: two maps, anywhere; C90_print, C90_same_text, C90_copy: JSON. That the keys ascend is part of IsMap (Spec/MapFns.lean), which C86 and C88 show to hold after every call and every parse. OrderDemo: a std::map with keys of two cells; PlaceDemo: a std::map of strings.'),
'C91':('proved','C91_narrow, C91_signed, C91_unsigned, C91_float: one addition; C91_number: the sum as a number; C91_refused: asking for a narrower type; C91_total_unsigned, C91_total_signed: any number of additions. C91_narrow is for types of at most 30 bits (bool, char, short). Floating point addition is a parameter. NumberDemo: short, int, unsigned and a floating point type.'),
'C92':('proved','C92_limits: what is read, at any time; C92_once: no second time; C92_writable: the hazard named in the statement. C92_float, C92_float_min_not_least: floating point types, as bits in any format with at least two bits of exponent; C92_double: for double these are the numbers of C96.'),
'C93':('proved','C93_accepted: an equivalence, with everything the constructor changes; C93_names and C93_known: lookups at any later time; C93_same_type: two lookups in one history; C93_start: all names of all fundamental types are known after start-up. The typedefs of the compiler are a parameter (Sane: they are integer types). Spec/NumberNames.lean spells the names out on its own.'),
'C95':('proved','C95_lexical: message, place and rest of each malformed text; C95_lexical_only: there are no others (strings that are broken off or have a byte 0xFF while being validated are undefined, C64, and record no error); C95_expect, C95_expect_zero_byte, C95_expect_end: tokens of the wrong type; C95_untyped: where an untyped value is due; C95_parse: whatever is parsed, custom parse functions using the reader by its calls only.'),
'C96':('proved','Under the assumption Correct about the C library (Spec/Doubles), which a library constructed in Props/Doubles meets. Doubles and numerals are exact rational numbers. C96_printed, C96_form, C96_finite, C96_numbers: what is printed; C96_digits, C96_back, C96_comes, C96_json: what comes back; C96_numeral, C96_text: from text to text; C96_json_whole: whole numbers are refused; C96_settles; C96_lossy.'),
'C97':('proved','Joins C76 (the descriptions) and C72 (traits after any history) to the kinds of types that C45–C66, C81, C88–C90, C94 and C96 are about: their hypothesis Env.Has is met by the described types. Views (Spec/JsonView) is what the JSON code asks a type. SeesMembers is what it asks for the fields; C97_members_distinct gives Env.Named, which C62 and others assume. A trait "pointer" given by hand, without setPointer, is outside.'),
'C94':('proved','C94_parse, C94_print: one call; C94_session: any sequence; C94_copy: an instance of it. A call that raises ends the sequence, as it leaves its object half parsed. json::print(std::ostream&, object) and json::print(object) are not modelled: they call parse on the output stream, which no overload takes, so they cannot be instantiated. The hypotheses on the reflected functions are those of C88 and C89; PlaceDemo: two maps.'),
}
