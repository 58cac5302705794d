{
 "claims": [
  {
   "property": "C01",
   "status": "proved",
   "theorems": [
    "Abu.C01_buffers_read_like_one_stream",
    "Abu.C01_cutting_is_not_observable"
   ],
   "note": ""
  },
  {
   "property": "C02",
   "status": "proved",
   "theorems": [
    "Abu.C02_undefined_iff_contract_broken",
    "Abu.C02_next_and_advance_defined"
   ],
   "note": ""
  },
  {
   "property": "C03",
   "status": "proved",
   "theorems": [
    "Abu.C03_exactly_the_needed_buffers_are_held",
    "Abu.C03_nothing_held_at_the_end"
   ],
   "note": ""
  },
  {
   "property": "C04",
   "status": "proved",
   "theorems": [
    "Abu.C04_commit_undoes",
    "Abu.C04_cancel_forgets",
    "Abu.C04_iterators_commit_undoes",
    "Abu.C04_iterators_cancel_forgets",
    "Abu.C04_commit_returns_to_the_mark",
    "Abu.C04_cancel_leaves_the_position"
   ],
   "note": ""
  },
  {
   "property": "C05",
   "status": "proved",
   "theorems": [
    "Abu.C05_parse_agrees_with_one_buffer"
   ],
   "note": ""
  },
  {
   "property": "C06",
   "status": "proved",
   "theorems": [
    "Abu.C06_char_sets_denote",
    "Abu.C06_char_sets_denote_wide"
   ],
   "note": ""
  },
  {
   "property": "C07",
   "status": "partial",
   "theorems": [
    "Abu.C07_digits_recognised_partial",
    "Abu.C07_digit_value",
    "Abu.C07_digit_value_range",
    "Abu.C07_refuted"
   ],
   "note": "Recognition is false for character types wider than char, which are narrowed first (C07_refuted: U+0130 is accepted as the digit 0); proved for char. Values are proved for all characters."
  },
  {
   "property": "C08",
   "status": "proved",
   "theorems": [
    "Abu.C08_char_success",
    "Abu.C08_char_failure"
   ],
   "note": ""
  },
  {
   "property": "C09",
   "status": "proved",
   "theorems": [
    "Abu.C09_literal_success",
    "Abu.C09_literal_failure"
   ],
   "note": ""
  },
  {
   "property": "C10",
   "status": "proved",
   "theorems": [
    "Abu.C10_longest_run_exists",
    "Abu.C10_uint_success",
    "Abu.C10_uint_failure",
    "Abu.C10_uint_reads_decimals",
    "Abu.C10_uint_needs_a_digit"
   ],
   "note": "values that fit in the destination; the others are covered by C12"
  },
  {
   "property": "C11",
   "status": "proved",
   "theorems": [
    "Abu.C11_int_success",
    "Abu.C11_int_failure",
    "Abu.C11_int_reads_decimals",
    "Abu.C11_int_needs_a_digit"
   ],
   "note": "magnitudes and values that fit in the destination; the others are covered by C12"
  },
  {
   "property": "C12",
   "status": "proved",
   "theorems": [
    "Abu.C12_unsigned_modulo",
    "Abu.C12_signed_exact",
    "Abu.C12_signed_overflow",
    "Abu.C12_most_negative"
   ],
   "note": ""
  },
  {
   "property": "C13",
   "status": "proved",
   "theorems": [
    "Abu.C13_symbol_builds",
    "Abu.C13_symbol_success",
    "Abu.C13_symbol_failure"
   ],
   "note": ""
  },
  {
   "property": "C14",
   "status": "partial",
   "theorems": [
    "Abu.C14_char_symbol_success_partial",
    "Abu.C14_char_symbol_failure_partial",
    "Abu.C14_refuted"
   ],
   "note": "the code never consumes the character (C14_refuted); verdict and value are as claimed"
  },
  {
   "property": "C15",
   "status": "partial",
   "theorems": [
    "Abu.C15_parse_implements_peg_partial",
    "Abu.C15_peg_is_parsed_partial",
    "Abu.C15_plain_grammars_partial",
    "Abu.C15_without_error_partial",
    "Abu.C15_refuted"
   ],
   "note": "refuted by C15_refuted: an Optional that succeeds leaves its rollback point behind; proved for every pattern accepted by the decidable criterion Pat.tidy"
  },
  {
   "property": "C16",
   "status": "partial",
   "theorems": [
    "Abu.C16_first_match_decides_partial",
    "Abu.C16_all_fail_partial",
    "Abu.C16_match_inv_partial",
    "Abu.C16_failure_inv_partial",
    "Abu.C16_refuted"
   ],
   "note": "false in general (stale rollback points of Optional, C16_refuted); proved for tidy patterns"
  },
  {
   "property": "C17",
   "status": "proved",
   "theorems": [
    "Abu.C17_sequence_success",
    "Abu.C17_sequence_failure",
    "Abu.C17_sequence_success_inv",
    "Abu.C17_sequence_failure_inv",
    "Abu.C17_nesting",
    "Abu.C17_builder_flattens",
    "Abu.C17_builder_flattens_alternatives",
    "Abu.C17_grouping_irrelevant"
   ],
   "note": ""
  },
  {
   "property": "C18",
   "status": "partial",
   "theorems": [
    "Abu.C18_repeat_success_partial",
    "Abu.C18_repeat_failure_partial",
    "Abu.C18_repeat_success_inv_partial",
    "Abu.C18_repeat_failure_inv_partial",
    "Abu.C18_refuted_position",
    "Abu.C18_refuted_bounds"
   ],
   "note": "false in general (C18_refuted_position: stale rollback points; C18_refuted_bounds: MIN > MAX is accepted); proved for tidy patterns"
  },
  {
   "property": "C19",
   "status": "partial",
   "theorems": [
    "Abu.C19_list_empty_partial",
    "Abu.C19_list_success_partial",
    "Abu.C19_list_inv_partial",
    "Abu.C19_refuted"
   ],
   "note": "false in general (stale rollback points); proved for tidy patterns"
  },
  {
   "property": "C20",
   "status": "partial",
   "theorems": [
    "Abu.C20_not_success_partial",
    "Abu.C20_not_failure_partial",
    "Abu.C20_not_inv_partial",
    "Abu.C20_not_restores_position_partial",
    "Abu.C20_refuted"
   ],
   "note": "false in general (stale rollback points); proved for tidy patterns"
  },
  {
   "property": "C21",
   "status": "partial",
   "theorems": [
    "Abu.C21_except_fails_partial",
    "Abu.C21_except_behaves_as_operand_partial",
    "Abu.C21_except_inv_partial",
    "Abu.C21_refuted"
   ],
   "note": "false in general (stale rollback points); proved for tidy patterns"
  },
  {
   "property": "C22",
   "status": "partial",
   "theorems": [
    "Abu.C22_optional_present_partial",
    "Abu.C22_optional_absent_partial",
    "Abu.C22_optional_inv_partial",
    "Abu.C22_refuted"
   ],
   "note": "false in general (the rollback point of a successful Optional is never closed); proved for tidy patterns"
  },
  {
   "property": "C23",
   "status": "partial",
   "theorems": [
    "Abu.C23_clean_failure_partial",
    "Abu.C23_refuted_int",
    "Abu.C23_refuted_optional"
   ],
   "note": "false in general (Int<B,1,1> consumes the sign; Optional); proved for tidy patterns"
  },
  {
   "property": "C24",
   "status": "partial",
   "theorems": [
    "Abu.C24_rollback_points_closed_partial",
    "Abu.C24_refuted"
   ],
   "note": "false in general (Optional); proved for tidy patterns"
  },
  {
   "property": "C25",
   "status": "proved",
   "theorems": [
    "Abu.C25_delivery_is_not_observable",
    "Abu.C25_any_two_deliveries_agree",
    "Abu.C25_deterministic"
   ],
   "note": ""
  },
  {
   "property": "C26",
   "status": "proved",
   "theorems": [
    "Abu.C26_parse_is_never_partial",
    "Abu.C26_verdict_after_final_buffer"
   ],
   "note": ""
  },
  {
   "property": "C27",
   "status": "proved",
   "theorems": [
    "Abu.C27_partial_only_when_starved"
   ],
   "note": ""
  },
  {
   "property": "C28",
   "status": "proved",
   "theorems": [
    "Abu.C28_early_verdict_is_definitive",
    "Abu.C28_early_error_is_definitive"
   ],
   "note": ""
  },
  {
   "property": "C29",
   "status": "proved",
   "theorems": [
    "Abu.C29_destination_does_not_influence_recognition",
    "Abu.C29_other_destinations_end_too"
   ],
   "note": ""
  },
  {
   "property": "C30",
   "status": "partial",
   "theorems": [
    "Abu.C30_failed_item_leaves_no_trace_partial",
    "Abu.C30_refuted"
   ],
   "note": "false for lookahead operands, which write the real destination (C30_refuted); proved for all patterns whose lookahead operands are silent"
  },
  {
   "property": "C31",
   "status": "partial",
   "theorems": [
    "Abu.C31_repeat_appends_partial",
    "Abu.C31_repeat_exact_partial",
    "Abu.C31_list_appends_partial",
    "Abu.C31_list_exact_partial",
    "Abu.C31_list_empty_partial",
    "Abu.C31_refuted"
   ],
   "note": "False when p alone leaves traces of failed alternatives that the item buffer hides (C31_refuted). Proved for every item pattern accepted by Pat.single (one value, traceless alternatives) without its own apply_skipper, any number of matches, any delivery schedule."
  },
  {
   "property": "C32",
   "status": "partial",
   "theorems": [
    "Abu.C32_sequence_fills_slots_partial",
    "Abu.C32_sequence_shares_destination_partial",
    "Abu.C32_child_writes_only_its_slot_partial",
    "Abu.C32_slots_exactly_partial",
    "Abu.C32_shared_exactly_partial",
    "Abu.C32_refuted"
   ],
   "note": "Every list of children without actions that write through an ActionParam: the sequence does to the slots what the children do alone, under every delivery schedule. With such an action a child can write any slot (C32_refuted)."
  },
  {
   "property": "C33",
   "status": "partial",
   "theorems": [
    "Abu.C33_valueless_patterns_write_nothing_partial",
    "Abu.C33_covers",
    "Abu.C33_parse_partial",
    "Abu.C33_parser_object_partial",
    "Abu.C33_refuted"
   ],
   "note": "false for !p (C33_refuted); proved for everything else listed and for !p with silent p"
  },
  {
   "property": "C34",
   "status": "proved",
   "theorems": [
    "Abu.C34_recognises_what_p_recognises",
    "Abu.C34_called_once_after_success",
    "Abu.C34_failure_conversely",
    "Abu.C34_success_conversely",
    "Abu.C34_not_called_while_suspended",
    "Abu.C34_applies_to",
    "Abu.C34_value",
    "Abu.C34_void",
    "Abu.C34_failure"
   ],
   "note": "The call of a function with a scalar parameter the operand never wrote is undefined behaviour (copy of an indeterminate value); see C42."
  },
  {
   "property": "C35",
   "status": "partial",
   "theorems": [
    "Abu.C35_failed_alternatives_leave_no_trace_partial",
    "Abu.C35_failed_alternative_in_context_partial",
    "Abu.C35_refuted",
    "Abu.C35_refuted_number"
   ],
   "note": "False: ATOMIC is not forced on alternatives, so alternatives that build up a value (C35_refuted) or number parsers (C35_refuted_number) leave traces. Proved for traceless alternatives, and for any alternatives when the matching one assigns its value."
  },
  {
   "property": "C36",
   "status": "partial",
   "theorems": [
    "Abu.C36_skipper_is_prefixing_partial",
    "Abu.C36_prefixing_is_skipper_partial",
    "Abu.C36_skipping_ends",
    "Abu.C36_refuted",
    "Abu.C36_refuted_comment",
    "Abu.C36_refuted_lexeme",
    "Abu.C36_trailing_skipped"
   ],
   "note": "False: a skipper whose parser creates a rollback point when constructed (lit(\"#\"), the usual comment skipper) breaks matching, and so does a lexeme that starts with an optional (C36_refuted*). Proved, verdict and unread text up to skippable text, for tidy patterns and skippers without such a rollback point, recursion included."
  },
  {
   "property": "C37",
   "status": "partial",
   "theorems": [
    "Abu.C37_skipper_consumes_partial",
    "Abu.C37_skipping_terminates_partial",
    "Abu.C37_refuted",
    "Abu.C37_refuted_eoi",
    "Abu.C37_refuted_not",
    "Abu.C37_refuted_list",
    "Abu.C37_refuted_sequence",
    "Abu.C37_refuted_char_symbol"
   ],
   "note": "False: optional, eoi, !p, lists, sequences of those and charmap symbols pass the static checks though they can succeed without consuming, and then skipping never ends (C37_refuted*). Proved for skippers built from the remaining constructs (Pat.tracked): everything the static checks accept consumes, and skipping ends."
  },
  {
   "property": "C38",
   "status": "proved",
   "theorems": [
    "Abu.C38_parse_terminates",
    "Abu.C38_parser_object_terminates",
    "Abu.C38_hypothesis_on_repetitions",
    "Abu.C38_hypothesis_on_recursion"
   ],
   "note": "Consumption is decided from the pattern (Spec/Terminates.lean, Pat.eats): a charmap symbol never consumes in this code, optional, list, eoi, not and pass are not counted as consuming. Ending with undefined behaviour in a destination (overflow, uninitialised read, no such overload) counts as ending. The two hypothesis theorems show that *pass and left recursion never end."
  },
  {
   "property": "C39",
   "status": "partial",
   "theorems": [
    "Abu.C39_recur_transparent_partial",
    "Abu.C39_recur_inlined_partial",
    "Abu.C39_refuted"
   ],
   "note": "false for apply_skipper under Recur (C39_refuted); proved at the top for all other patterns, and in every context for tidy patterns"
  },
  {
   "property": "C40",
   "status": "proved",
   "theorems": [
    "Abu.C40_parse_no_rollback_underflow",
    "Abu.C40_session_no_rollback_underflow"
   ],
   "note": "errors of the destination memory (overflow, uninitialised copies), unset Recur objects and programs that do not compile remain possible"
  },
  {
   "property": "C41",
   "status": "proved",
   "theorems": [
    "Abu.C41_round_trip",
    "Abu.C41_round_trip_unbounded"
   ],
   "note": "unbounded integers, and every machine integer type that holds the integers and their absolute values"
  },
  {
   "property": "C42",
   "status": "partial",
   "theorems": [
    "Abu.C42_parse_partial",
    "Abu.C42_parser_object_partial",
    "Abu.C42_refuted",
    "Abu.C42_refuted_buffer",
    "Abu.C42_refuted_optional"
   ],
   "note": "False in general (three refutations). Proved for careful patterns (Spec/Filled.lean): the operand of every action with a scalar parameter, and every pattern parsed into a scalar buffer, writes its destination whenever it matches; actions map initialised values to initialised values."
  },
  {
   "property": "C43",
   "status": "proved",
   "theorems": [
    "Abu.C43_value",
    "Abu.C43_no_expression",
    "Abu.C43_whole_text",
    "Abu.C43_undefined",
    "Abu.C43_whole_undefined",
    "Abu.C43_every_text",
    "Abu.C43_defined_iff",
    "Abu.C43_value_exact",
    "Abu.C43_no_expression_exact",
    "Abu.C43_one_expression",
    "Abu.C43_never_wrong",
    "Abu.C43_failure_means_none"
   ],
   "note": "Arithmetic that C++ leaves undefined (overflow, division by zero) is excluded in C43_value and C43_no_expression by hypotheses on the expression and on what follows it in parentheses. C43_undefined: if the expression has no value, the behaviour is undefined. C43_every_text: without any hypothesis, the behaviour is undefined for such a reason or the answer is right. C43_defined_iff: it is defined exactly if every expression that is met while reading has a value; C43_value_exact and C43_no_expression_exact have that condition."
  },
  {
   "property": "C44",
   "status": "proved",
   "theorems": [
    "Abu.C44_recognises_what_p_recognises",
    "Abu.C44_value",
    "Abu.C44_parts",
    "Abu.C44_failure",
    "Abu.C44_in_context",
    "Abu.C44_no_trace_before_success"
   ],
   "note": "Objects of class types are represented by their constructor arguments."
  },
  {
   "property": "C45",
   "status": "proved",
   "theorems": [
    "Abu.C45_writes_are_confined",
    "Abu.C45_bind_dst_confines",
    "Abu.C45_bind_dst_is_p",
    "Abu.C45_parse",
    "Abu.C45_parser_object",
    "Abu.C45_action_param"
   ],
   "note": ""
  },
  {
   "property": "C46",
   "status": "proved",
   "theorems": [
    "Abu.C46_list",
    "Abu.C46_no_list",
    "Abu.C46_every_text",
    "Abu.C46_undefined",
    "Abu.C46_defined_iff",
    "Abu.C46_one_list"
   ],
   "note": "If a number whose magnitude does not fit int is met, the behaviour is undefined (C46_undefined), and it is defined otherwise (C46_defined_iff). C46_every_text covers every text without hypotheses on the numbers. C46_one_list: a text starts with one list at most."
  },
  {
   "property": "C47",
   "status": "proved",
   "theorems": [
    "Abu.C47_rectangle",
    "Abu.C47_no_rectangle",
    "Abu.C47_every_text",
    "Abu.C47_undefined",
    "Abu.C47_defined_iff"
   ],
   "note": "The behaviour is defined exactly if none of the first four numbers has a magnitude that does not fit int (C47_defined_iff); otherwise it is undefined (C47_undefined). A Rectangle is represented by its constructor arguments."
  },
  {
   "property": "C48",
   "status": "partial",
   "theorems": [
    "Abu.C48_nil_is_accepted_partial",
    "Abu.C48_nothing_is_generated_partial",
    "Abu.C48_same_answer_partial",
    "Abu.C48_writes_nothing",
    "Abu.C48_refuted"
   ],
   "note": "False for as<...>() with other than one argument, which does not compile with nil (C48_refuted). That nothing is written is proved for all patterns; the rest for patterns without as<...>() whose actions take no value (an action with an int parameter has a landing of its own, which can overflow). What Recur objects that are not used stand for does not matter; without actions the memory is the same altogether."
  },
  {
   "property": "C49",
   "status": "proved",
   "theorems": [
    "Abu.C49_pairs",
    "Abu.C49_every_text",
    "Abu.C49_one_reading"
   ],
   "note": ""
  },
  {
   "property": "C50",
   "status": "proved",
   "theorems": [
    "Abu.C50_player",
    "Abu.C50_no_player",
    "Abu.C50_every_text",
    "Abu.C50_one_reading"
   ],
   "note": "The score is stored modulo the range of unsigned, as C12 says."
  },
  {
   "property": "C51",
   "status": "proved",
   "theorems": [
    "Abu.C51_matched",
    "Abu.C51_found",
    "Abu.C51_mapped"
   ],
   "note": "Functions of the character; functions with a memory are covered by C34."
  },
  {
   "property": "C52",
   "status": "proved",
   "theorems": [
    "Abu.C52_nested",
    "Abu.C52_not_nested",
    "Abu.C52_every_text",
    "Abu.C52_one_reading"
   ],
   "note": "With destinations other than nil the parse may also end in an error of the destination (overflow of an int, a type that does not fit), as Yields says."
  },
  {
   "property": "C53",
   "status": "proved",
   "theorems": [
    "Abu.C53_patterns_that_compile",
    "Abu.C53_skippers_that_compile",
    "Abu.C53_no_good_skipper_is_rejected"
   ],
   "note": "For the checks listed in Model/Static.lean."
  },
  {
   "property": "C54",
   "status": "proved",
   "theorems": [
    "Abu.C54_visit_val",
    "Abu.C54_visit_val_out_of_range",
    "Abu.C54_parse_assumptions",
    "Abu.C54_parser_object_assumptions"
   ],
   "note": ""
  },
  {
   "property": "C55",
   "status": "proved",
   "theorems": [
    "Abu.C55_last_definition",
    "Abu.C55_every_variable_has_an_object",
    "Abu.C55_parsers_see_it",
    "Abu.C55_histories_without_error"
   ],
   "note": ""
  },
  {
   "property": "C56",
   "status": "proved",
   "theorems": [
    "Abu.C56_prefixed_hex",
    "Abu.C56_too_few_digits",
    "Abu.C56_no_prefix",
    "Abu.C56_every_text"
   ],
   "note": "With the missing parenthesis of the guide after lit(\"0X\")."
  },
  {
   "property": "C57",
   "status": "proved",
   "theorems": [
    "Abu.C57_ints",
    "Abu.C57_every_text",
    "Abu.C57_one_reading",
    "Abu.C57_undefined",
    "Abu.C57_defined_iff"
   ],
   "note": "If the magnitude of one of the numbers does not fit int, the behaviour is undefined (C57_undefined), otherwise it is defined (C57_defined_iff)."
  },
  {
   "property": "C58",
   "status": "proved",
   "theorems": [
    "Abu.C58_without_lexeme"
   ],
   "note": ""
  },
  {
   "property": "C59",
   "status": "proved",
   "theorems": [
    "Abu.C59_reading_loop",
    "Abu.C59_never_partial"
   ],
   "note": ""
  },
  {
   "property": "C60",
   "status": "partial",
   "theorems": [
    "Abu.C60_grammar_as_written_partial",
    "Abu.C60_parses_as_written_partial",
    "Abu.C60_what_compiles_partial",
    "Abu.C60_refuted",
    "Abu.C60_refuted_plus",
    "Abu.C60_refuted_minus"
   ],
   "note": "False when *, + or - is applied to a string literal without a pattern: the built-in operators of pointers apply (C60_refuted*). Proved for all other expressions; what the parser then recognises, for tidy patterns (C15)."
  },
  {
   "property": "C61",
   "status": "partial",
   "theorems": [
    "Abu.C61_streaming_holds_only_unread",
    "Abu.C61_streaming_holds_nothing_between",
    "Abu.C61_verdict_leaves_only_unread_partial",
    "Abu.C61_refuted",
    "Abu.C61_refuted_verdict"
   ],
   "note": "Proved in full for patterns decided one character at a time; for patterns that look ahead, after the verdict and for tidy patterns. False with an optional part that is present, which leaves a rollback point behind: all buffers are held for ever (C61_refuted)."
  },
  {
   "property": "C62",
   "status": "proved",
   "theorems": [
    "Abu.C62_parse",
    "Abu.C62_parser_object",
    "Abu.C62_no_error",
    "Abu.C62_parser_object_no_error",
    "Abu.C62_every_text",
    "Abu.C62_hypothesis_on_types",
    "Abu.C62_hypothesis_on_memory",
    "Abu.C62_hypothesis_on_recur",
    "Abu.C62_hypothesis_on_overflow"
   ],
   "note": "The types that suit a pattern are given by Pat.into (Spec/Compatible.lean), what functions of actions return by Act.Typed. Without error: for careful patterns (C42); every text answered: under the hypotheses of C38. The four hypothesis theorems show what happens without each of them."
  },
  {
   "property": "C63",
   "status": "partial",
   "theorems": [
    "Abu.C63_parse_partial",
    "Abu.C63_parser_object_partial",
    "Abu.C63_refuted_vector",
    "Abu.C63_refuted_single",
    "Abu.C63_refuted_class",
    "Abu.C63_refuted_symbol",
    "Abu.C63_refuted_alternative"
   ],
   "note": "False in five places (C63_refuted*): vectors given numbers item by item, a single tuple value next to patterns without value, classes made of the values of a sequence, symbols and actions with collections as values, alternatives of patterns without value. Proved for the rules without those parts (Documented with full = false); overflow and copies of unwritten scalars are C12 and C42."
  },
  {
   "property": "C64",
   "status": "proved",
   "theorems": [
    "Abu.C64_same_as_alone",
    "Abu.C64_goes_through",
    "Abu.C64_error_is_of_one_alone",
    "Abu.C64_order_is_not_observable",
    "Abu.C64_rest_is_unchanged",
    "Abu.C64_destinations_must_not_overlap",
    "Abu.C64_actions_must_not_share"
   ],
   "note": "Programs are sequences of creations and operations on parser objects (Model/Objects.lean); as in C25, an object is left alone after its verdict. Threads are not modelled. The last two theorems show that both conditions are needed."
  },
  {
   "property": "C65",
   "status": "partial",
   "theorems": [
    "Abu.C65_same_type",
    "Abu.C65_narrowed",
    "Abu.C65_widened",
    "Abu.C65_ascii_partial",
    "Abu.C65_refuted",
    "Abu.C65_refuted_not"
   ],
   "note": "False for sets of char on texts of char32_t: all sets but single characters see the character without its upper bits (C65_refuted, C65_refuted_not). Proved: texts of the same type, what exactly is accepted in the mixed cases, and ASCII characters in all cases. Symbol tables and literals: C73."
  },
  {
   "property": "C66",
   "status": "proved",
   "theorems": [
    "Abu.C66_parse",
    "Abu.C66_parser_object",
    "Abu.C66_no_overflow",
    "Abu.C66_hypothesis_on_repetitions",
    "Abu.C66_hypothesis_on_length",
    "Abu.C66_hypothesis_on_digits"
   ],
   "note": "For every largest value lim of the counters; INT_MAX is one of them. The hypotheses are those of C38 (Env.CountsFit) plus the length of the text; the hypothesis theorems show what happens without them."
  },
  {
   "property": "C67",
   "status": "partial",
   "theorems": [
    "Abu.C67_laws_partial",
    "Abu.C67_plain_laws_partial",
    "Abu.C67_refuted",
    "Abu.C67_alternatives_do_not_commute",
    "Abu.C67_common_ends_stay"
   ],
   "note": "False in general: -a and repeat<0,1>(a) are not interchangeable, since only the former leaves a rollback point behind (C67_refuted). Proved when the pattern is tidy before and after rewriting, in particular for plain patterns."
  },
  {
   "property": "C68",
   "status": "proved",
   "theorems": [
    "Abu.C68_parse_without_recursion",
    "Abu.C68_parser_object_without_recursion",
    "Abu.C68_parse",
    "Abu.C68_parser_object",
    "Abu.C68_depth_grows",
    "Abu.C68_hypothesis_on_recursion",
    "Abu.C68_destructors_nest",
    "Abu.C68_room_for_destructors"
   ],
   "note": "The depth is counted in nested calls of consume and of destructors of parser objects (Model/Stack.lean); what one such call takes depends on the pattern only. The hypotheses on recursion are those of C38."
  },
  {
   "property": "C69",
   "status": "partial",
   "theorems": [
    "Abu.C69_patterns_that_compile_partial",
    "Abu.C69_parts_of_sequences_partial",
    "Abu.C69_refuted",
    "Abu.C69_refuted_bind_dst"
   ],
   "note": "False: lexeme(p) and bind_dst(p), p without a value, compile on their own but not in a sequence, where their dst_behavior() is called; the example of docs/guide/03_skippers.md is one (C69_refuted). The partial theorems say that there is no other exception."
  },
  {
   "property": "C70",
   "status": "partial",
   "theorems": [
    "Abu.C70_gauge_is_passive",
    "Abu.C70_gauge_is_passive_in_parser_objects",
    "Abu.C70_parse_without_recursion_partial",
    "Abu.C70_parser_object_without_recursion_partial",
    "Abu.C70_parse_partial",
    "Abu.C70_parser_object_partial",
    "Abu.C70_parse_without_recursion_outside_loops_partial",
    "Abu.C70_parser_object_without_recursion_outside_loops_partial",
    "Abu.C70_parse_outside_loops_partial",
    "Abu.C70_parser_object_outside_loops_partial",
    "Abu.C70_parse_within_time_partial",
    "Abu.C70_parser_object_within_time_partial",
    "Abu.C70_parse_optionals_anywhere_partial",
    "Abu.C70_parser_object_optionals_anywhere_partial",
    "Abu.C70_parse_at_most_exponential_partial",
    "Abu.C70_refuted"
   ],
   "note": "False with optional parts: a part that is present leaves a rollback point, in a list or repetition one per item (C70_refuted). Proved in full for patterns without optional, skippers included; for patterns whose optionals are outside repetitions, lists, skippers and Recur (..._outside_loops_partial) the bounds on the number at the same time hold and at most one per optional is left. With optionals anywhere the number is at most a constant times the number of iterations of C71 (..._within_time_partial), hence polynomial in the length of the text without Recur and at most exponential with it. Rollback points are counted by a gauge on the data source that changes nothing else (C70_gauge_is_passive*); the hypotheses on recursion are those of C38."
  },
  {
   "property": "C71",
   "status": "partial",
   "theorems": [
    "Abu.C71_iterations_are_counted",
    "Abu.C71_parse_without_recursion_partial",
    "Abu.C71_streaming_is_linear_partial",
    "Abu.C71_resuming_is_cheap",
    "Abu.C71_parser_object_without_recursion_partial",
    "Abu.C71_parser_object_streaming_is_linear_partial",
    "Abu.C71_degree_is_reached",
    "Abu.C71_refuted",
    "Abu.C71_at_most_exponential_partial",
    "Abu.C71_resuming_with_recursion",
    "Abu.C71_parser_object_at_most_exponential_partial",
    "Abu.C71_resuming_grows"
   ],
   "note": "False with Recur: exponential already for three alternatives that begin alike (C71_refuted). Proved for patterns without Recur, under the hypotheses on loops of C38. With Recur, an exponential upper bound (C71_at_most_exponential_partial). The time is the number of iterations of consume(); the work of user types and actions is not counted. Parser objects: at most a constant more for every call of consume (C71_resuming_is_cheap); with Recur at most linear in the text for every call (C71_resuming_with_recursion, C71_resuming_grows)."
  },
  {
   "property": "C72",
   "status": "partial",
   "theorems": [
    "Abu.C72_result_is_right",
    "Abu.C72_nothing_else_goes_wrong",
    "Abu.C72_ends",
    "Abu.C72_streaming_works_partial",
    "Abu.C72_refuted",
    "Abu.C72_refuted_skipper"
   ],
   "note": "False for patterns that go back: an alternative, an optional part or a list that fails after reading something puts back an iterator that is no longer valid (C72_refuted, C72_refuted_skipper). Proved: it works for patterns decided one character at a time (Pat.streams, as in C61); for all patterns, a result that is returned is the right one, and the use of such an iterator is the only thing that goes wrong."
  },
  {
   "property": "C73",
   "status": "partial",
   "theorems": [
    "Abu.C73_literal_success",
    "Abu.C73_literal_failure",
    "Abu.C73_symbol_takes_converted",
    "Abu.C73_symbol_refuses_converted",
    "Abu.C73_char_symbol_takes_converted",
    "Abu.C73_char_symbol_refuses_converted",
    "Abu.C73_symbol_ascii_success_partial",
    "Abu.C73_symbol_ascii_failure_partial",
    "Abu.C73_refuted",
    "Abu.C73_refuted_char_symbol"
   ],
   "note": "False for symbol tables with char keys on texts of char32_t: find() drops the upper bits of the character first (C73_refuted*). Proved: literals in all cases; what exactly the tables take and refuse in all cases; the claim itself on ASCII texts."
  },
  {
   "property": "C74",
   "status": "partial",
   "theorems": [
    "Abu.C74_nothing_thrown",
    "Abu.C74_left_at_once",
    "Abu.C74_object_nothing_thrown",
    "Abu.C74_object_left_at_once",
    "Abu.C74_no_new_errors",
    "Abu.C74_object_no_new_errors",
    "Abu.C74_destination_kept_partial",
    "Abu.C74_object_destination_kept_partial",
    "Abu.C74_covers",
    "Abu.C74_refuted"
   ],
   "note": "False of the destination: a repetition has already added items to it when the action of a later item throws (C74_refuted). Proved: everything else for all patterns; the destination for patterns that write it only on success, such as p[act]."
  },
  {
   "property": "C75",
   "status": "proved",
   "theorems": [
    "Abu.C75_parse_follows_marks",
    "Abu.C75_marks_are_parsed",
    "Abu.C75_one_outcome",
    "Abu.C75_stale_point"
   ],
   "note": "For all patterns, tidy or not: C15 says when this is what the grammar says."
  },
  {
   "property": "C76",
   "status": "partial",
   "theorems": [
    "Abu.C76_match_value_partial",
    "Abu.C76_no_match_partial",
    "Abu.C76_calls_without_destination_partial",
    "Abu.C76_one_value_partial",
    "Abu.C76_trees_round_trip"
   ],
   "note": "Not covered: patterns that are not tidy, skippers, actions with an ActionParam or that throw, operands of |, -, repetitions and lists that may write a part of a value (C31, C35), what a failed parse leaves in the destination. The tree grammar is proved in full."
  },
  {
   "property": "C77",
   "status": "partial",
   "theorems": [
    "Abu.C77_match_value_partial",
    "Abu.C77_no_match_partial",
    "Abu.C77_calls_without_destination_partial",
    "Abu.C77_one_value_partial",
    "Abu.C77_spaced_trees_round_trip"
   ],
   "note": "Not covered: optional parts and other patterns that leave a stale rollback point, skippers that match more than one character or call actions, a skipper within another one, and what C76 does not cover. The text left unread is determined up to skipped characters. The tree grammar is proved in full."
  },
  {
   "property": "C78",
   "status": "partial",
   "theorems": [
    "Abu.C78_refuted",
    "Abu.C78_refuted_in_turns",
    "Abu.C78_a_copy_goes_on_partial",
    "Abu.C78_the_original_goes_on_partial",
    "Abu.C78_one_end",
    "Abu.C78_a_copy_cannot_be_fed",
    "Abu.C78_a_copy_needs_the_original",
    "Abu.C78_recur_cannot_be_copied",
    "Abu.C78_others_can_be_copied"
   ],
   "note": "False as stated (C78_refuted): a copy cannot be given text (C78_a_copy_cannot_be_fed) nor be used without the original (C78_a_copy_needs_the_original). Proved instead: a copy made at any point, with the text added to the original, does what the original would have done, and the original does what it would have done without being copied. When original and copy are both used after the copy is made, each misses what the other has read (C78_refuted_in_turns)."
  },
  {
   "property": "C79",
   "status": "partial",
   "theorems": [
    "Abu.C79_consume_again_partial",
    "Abu.C79_as_without_exceptions_partial",
    "Abu.C79_no_new_errors_partial",
    "Abu.C79_ends_partial",
    "Abu.C79_covers",
    "Abu.C79_covers_numbers_only",
    "Abu.C79_refuted",
    "Abu.C79_refuted_sign",
    "Abu.C79_refuted_moved",
    "Abu.C79_refuted_moved_tuple",
    "Abu.C79_refuted_moved_object",
    "Abu.C79_refuted_rollback",
    "Abu.C79_refuted_repeat",
    "Abu.C79_refuted_limit"
   ],
   "note": "False as stated (the C79_refuted theorems). Not covered: actions whose operand reads more, changes its value or uses up a rollback point when it is asked again after success, and actions on strings, collections and classes. The comparison with a run without exceptions is for actions that look at nothing but their value; C79_ends_partial is for actions that do not throw for ever."
  },
  {
   "property": "C80",
   "status": "partial",
   "theorems": [
    "Abu.C80_char_partial",
    "Abu.C80_lit_char_partial",
    "Abu.C80_char_symbol_partial",
    "Abu.C80_eoi_partial",
    "Abu.C80_literal_partial",
    "Abu.C80_symbol_partial",
    "Abu.C80_uint_partial",
    "Abu.C80_int_partial",
    "Abu.C80_tidy_partial",
    "Abu.C80_asks_for_more_partial",
    "Abu.C80_repeated_char_partial",
    "Abu.C80_never_too_early_partial",
    "Abu.C80_waits_iff_undecided_partial",
    "Abu.C80_skipper_partial",
    "Abu.C80_skipper_asks_for_more_partial",
    "Abu.C80_skipper_never_too_early_partial",
    "Abu.C80_refuted",
    "Abu.C80_refuted_empty_set"
   ],
   "note": "False in general (two witnesses). Proved as stated for leaf patterns with something to match (C80_waits_iff_undecided_partial), also as exact conditions on the text; for tidy patterns without skipper, recursive ones included, that no answer comes too early, and when exactly PARTIAL is returned, by a grammar semantics with three answers; the same under a skipper decided by one character, for the pattern with the skipping written out, and that no verdict comes too early under other skippers. Missing: exactly when objects under a skipper that looks at several characters wait, and symbols of one character inside other patterns."
  },
  {
   "property": "C81",
   "status": "partial",
   "theorems": [
    "Abu.C81_refuted",
    "Abu.C81_defined_is_right_partial",
    "Abu.C81_never_partial",
    "Abu.C81_reading_is_undefined",
    "Abu.C81_reading_is_undefined_reached",
    "Abu.C81_after_partial_is_undefined",
    "Abu.C81_after_partial_nothing",
    "Abu.C81_after_partial_reached",
    "Abu.C81_new_cannot_be_fed",
    "Abu.C81_new_can_be_fed",
    "Abu.C81_needs_the_original",
    "Abu.C81_one_end"
   ],
   "note": "False as stated (C81_refuted): the context of a moved object still refers to the data source of the object it was moved from. Proved: consume that would read text or return PARTIAL is undefined after a move (and that is reached), consume of an object that returned PARTIAL before the move always is, text cannot be given to the object in the new place when all text was read before the move, consume after the end of the old object is undefined, a moved object never returns PARTIAL; a program whose behaviour is defined ends as without the move, and reads no text after it. The end iterator of a list that was moved is taken to be unusable, as the standard allows; with a library that keeps it, more programs are defined."
  },
  {
   "property": "C82",
   "status": "partial",
   "theorems": [
    "Abu.C82_changes_nothing",
    "Abu.C82_peek_is_consume_partial",
    "Abu.C82_peek_or_partial_partial",
    "Abu.C82_always_answers",
    "Abu.C82_who_can_peek",
    "Abu.C82_no_peek_with_skipper",
    "Abu.C82_is_the_verdict",
    "Abu.C82_refuted"
   ],
   "note": "False for optional parts: their peek() says SUCCESS at once, while consume() may return PARTIAL first (C82_refuted). Proved for all other parsers with peek(), and for optional parts up to PARTIAL; that an answer is the final one, and that nothing is changed, for all."
  },
  {
   "property": "C83",
   "status": "partial",
   "theorems": [
    "Abu.C83_is_one_of",
    "Abu.C83_holds_both_partial",
    "Abu.C83_nothing_twice_partial",
    "Abu.C83_left_first_partial",
    "Abu.C83_one_by_one",
    "Abu.C83_refuted"
   ],
   "note": "False for two variants, which are ambiguous (C83_refuted). Proved in all other cases. The library itself does not use variant_cat."
  },
  {
   "property": "C84",
   "status": "partial",
   "theorems": [
    "Abu.C84_exactly",
    "Abu.C84_as_documented_partial",
    "Abu.C84_refuted",
    "Abu.C84_refuted_mutable",
    "Abu.C84_refuted_noexcept",
    "Abu.C84_auto_is_bound",
    "Abu.C84_two_parameters",
    "Abu.C84_three_parameters",
    "Abu.C84_arguments",
    "Abu.C84_every_action"
   ],
   "note": "False for parameters that are references, call operators that are not const and noexcept functions, which do not compile (C84_refuted*). Proved: which functions compile and what each is called with, exactly; for the others the claim. Functions with several call operators or default arguments are not modelled."
  },
  {
   "property": "C85",
   "status": "partial",
   "theorems": [
    "Abu.C85_refuted",
    "Abu.C85_replies_partial",
    "Abu.C85_expression",
    "Abu.C85_undefined",
    "Abu.C85_every_input",
    "Abu.C85_defined_iff",
    "Abu.C85_right_if_defined",
    "Abu.C85_ends"
   ],
   "note": "False as stated (C85_refuted): a line that is not an expression but starts with one, such as 1 +(, is answered with the value of that beginning. Proved with that answer, for lines without undefined arithmetic. C85_undefined: a line that is an expression without a value makes the program undefined. C85_every_input: whatever the input, all replies are right up to the end or to a line with undefined arithmetic. C85_defined_iff: there is no such line exactly if every expression met in the lines has a value."
  },
  {
   "property": "C86",
   "status": "proved",
   "theorems": [
    "Abu.C86_round_trip",
    "Abu.C86_no_value",
    "Abu.C86_injective",
    "Abu.C86_shortest",
    "Abu.C86_program"
   ],
   "note": "Arith.print (Spec/CalculatorPrint) prints without blanks and with parentheses only where needed: no way to write the expression is shorter (C86_shortest), and different expressions are printed differently (C86_injective). For expressions without a value (overflow, division by zero) the behaviour is undefined (C86_no_value). The value is that of the tree (Arith.value), so the theorem ties precedence and association to the tree structure rather than to the grammar Written used in C43."
  },
  {
   "property": "C87",
   "status": "partial",
   "theorems": [
    "Abu.C87_list_partial",
    "Abu.C87_rectangle_partial",
    "Abu.C87_injective",
    "Abu.C87_iff",
    "Abu.C87_least",
    "Abu.C87_least_rectangle",
    "Abu.C87_refuted"
   ],
   "note": "False of the least int, whose digits are read before the sign is applied (C87_refuted, C87_least). Proved for lists of all other ints; those are exactly the lists that are read back (C87_iff)."
  }
 ]
}