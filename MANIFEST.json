{
 "claims": [
  {
   "property": "C01",
   "status": "proved",
   "theorems": [
    "OniComb.c01_or_backtracks",
    "OniComb.c01_or_keeps",
    "OniComb.c01_or_success_iff",
    "OniComb.c01_or_assoc",
    "OniComb.c01_or_left_unit",
    "OniComb.c01_or_left_zero",
    "OniComb.c01_or_idem",
    "OniComb.c01_or_unit",
    "OniComb.c01_or_zero"
   ],
   "note": ""
  },
  {
   "property": "C02",
   "status": "proved",
   "theorems": [
    "OniComb.c02_left_identity",
    "OniComb.c02_right_identity",
    "OniComb.c02_assoc"
   ],
   "note": ""
  },
  {
   "property": "C03",
   "status": "proved",
   "theorems": [
    "OniComb.c03_map_id",
    "OniComb.c03_map_comp",
    "OniComb.c03_map_eq_flatMap",
    "OniComb.c03_map_success_iff",
    "OniComb.c03_map_failure_iff"
   ],
   "note": ""
  },
  {
   "property": "C04",
   "status": "proved",
   "theorems": [
    "OniComb.c04_in_bounds",
    "OniComb.c04_text",
    "OniComb.c04_parse_length"
   ],
   "note": ""
  },
  {
   "property": "C05",
   "status": "proved",
   "theorems": [
    "OniComb.c05_no_panic",
    "OniComb.c05_text",
    "OniComb.c05_any",
    "OniComb.c05_recursive"
   ],
   "note": ""
  },
  {
   "property": "C06",
   "status": "proved",
   "theorems": [
    "OniComb.c06_position_independent",
    "OniComb.c06_text",
    "OniComb.c06_prefix"
   ],
   "note": ""
  },
  {
   "property": "C07",
   "status": "proved",
   "theorems": [
    "OniComb.c07_andThen_success_iff",
    "OniComb.c07_andThen_failure_iff",
    "OniComb.c07_skipLeft_eq",
    "OniComb.c07_skipRight_eq",
    "OniComb.c07_surround_success_iff",
    "OniComb.c07_andThen_assoc"
   ],
   "note": ""
  },
  {
   "property": "C08",
   "status": "partial",
   "theorems": [
    "OniComb.c08_flatMap_commits",
    "OniComb.c08_andThen_violated",
    "OniComb.c08_skip_violated",
    "OniComb.c08_andThen_partial",
    "OniComb.c08_andThen_general_violated",
    "OniComb.c08_branch_after_consumption_differs"
   ],
   "note": "flat_map commits (proved); and_then/skip_left/skip_right do not: violated for all parsers whose second part fails without commitment behind something read, with exact condition; an alternative is then tried from the start."
  },
  {
   "property": "C09",
   "status": "proved",
   "theorems": [
    "OniComb.c09_attempt_never_commits",
    "OniComb.c09_attempt_success_iff",
    "OniComb.c09_attempt_failure_iff",
    "OniComb.c09_attempt_idem",
    "OniComb.c09_attempt_or",
    "OniComb.c09_attempt_other"
   ],
   "note": ""
  },
  {
   "property": "C10",
   "status": "proved",
   "theorems": [
    "OniComb.c10_opt_some_iff",
    "OniComb.c10_opt_none_iff",
    "OniComb.c10_opt_never_fails"
   ],
   "note": ""
  },
  {
   "property": "C11",
   "status": "proved",
   "theorems": [
    "OniComb.c11_peek_success_iff",
    "OniComb.c11_peek_failure_iff",
    "OniComb.c11_exists_iff",
    "OniComb.c11_exists_never_fails",
    "OniComb.c11_not_success_iff",
    "OniComb.c11_not_failure_iff",
    "OniComb.c11_exists_not"
   ],
   "note": ""
  },
  {
   "property": "C12",
   "status": "proved",
   "theorems": [
    "OniComb.c12_many0_sound",
    "OniComb.c12_many0_complete",
    "OniComb.c12_many0_never_fails",
    "OniComb.c12_run_unique"
   ],
   "note": ""
  },
  {
   "property": "C13",
   "status": "proved",
   "theorems": [
    "OniComb.c13_many1_fails_iff",
    "OniComb.c13_many1_eq"
   ],
   "note": ""
  },
  {
   "property": "C14",
   "status": "proved",
   "theorems": [
    "OniComb.c14_built_tame",
    "OniComb.c14_text_tame",
    "OniComb.c14_restLeft1_diverge_iff",
    "OniComb.c14_diverge_iff",
    "OniComb.c14_terminates",
    "OniComb.c14_no_progress",
    "OniComb.c14_bounded"
   ],
   "note": ""
  },
  {
   "property": "C15",
   "status": "partial",
   "theorems": [
    "OniComb.c15_ranges",
    "OniComb.c15_count_violated",
    "OniComb.c15_count_general_violated",
    "OniComb.c15_count_zero_violated",
    "OniComb.c15_count_partial",
    "OniComb.c15_manyNM_iff",
    "OniComb.c15_count_iff",
    "OniComb.c15_many_n_m",
    "OniComb.c15_failure"
   ],
   "note": "Violated for every parser and every range that excludes one element but not zero: one item is read wherever there is one; proved for every other range, with exact iff for closed ranges and for failures."
  },
  {
   "property": "C16",
   "status": "partial",
   "theorems": [
    "OniComb.c16_sep_violated",
    "OniComb.c16_many0Sep_partial",
    "OniComb.c16_many0Sep_complete",
    "OniComb.c16_sep_general_violated",
    "OniComb.c16_no_trailing",
    "OniComb.c16_many1Sep_iff",
    "OniComb.c16_many_n_m_sep",
    "OniComb.c16_count_sep"
   ],
   "note": "Violated: a trailing separator is consumed (behind all items). Exact behaviour proved in both directions, and absence of trailing separators under a lookahead hypothesis."
  },
  {
   "property": "C17",
   "status": "proved",
   "theorems": [
    "OniComb.c17_restLeft1_success_iff",
    "OniComb.c17_chainLeft1_success_iff",
    "OniComb.c17_chainLeft1_failure_iff"
   ],
   "note": ""
  },
  {
   "property": "C18",
   "status": "partial",
   "theorems": [
    "OniComb.c18_chainRight1_violated",
    "OniComb.c18_chainRight1_partial",
    "OniComb.c18_general_violated",
    "OniComb.c18_subtraction_violated"
   ],
   "note": "Violated: chain_right1 applies operators from the left (for every chain of two or more operators on which left and right application differ; witness 7-2-1). Proved: exact left application, equal to right application when the operators read associate."
  },
  {
   "property": "C19",
   "status": "partial",
   "theorems": [
    "OniComb.c19_restRight1_violated",
    "OniComb.c19_restRight1_partial",
    "OniComb.c19_general_violated"
   ],
   "note": "Violated: only one operator is applied (for every chain of two or more operators the rest is left unread). Exact behaviour proved."
  },
  {
   "property": "C20",
   "status": "proved",
   "theorems": [
    "OniComb.c20_chainLeft0_chain",
    "OniComb.c20_chainLeft0_default",
    "OniComb.c20_chainRight0_chain",
    "OniComb.c20_chainRight0_default",
    "OniComb.c20_chain0_committed",
    "OniComb.c20_failure_iff"
   ],
   "note": ""
  },
  {
   "property": "C21",
   "status": "partial",
   "theorems": [
    "OniComb.c21_takeWhile_violated",
    "OniComb.c21_takeWhile_misaligned",
    "OniComb.c21_takeWhile_partial",
    "OniComb.c21_takeWhile0_actual",
    "OniComb.c21_takeWhile1_actual",
    "OniComb.c21_takeWhile_general_violated"
   ],
   "note": "Violated: the scan continues over later matching elements. Exact: the longest matching prefix is taken if and only if nothing behind the first mismatch matches; what all three parsers compute otherwise is proved."
  },
  {
   "property": "C22",
   "status": "proved",
   "theorems": [
    "OniComb.c22_takeTill_match",
    "OniComb.c22_takeTill_no_match"
   ],
   "note": ""
  },
  {
   "property": "C23",
   "status": "proved",
   "theorems": [
    "OniComb.c23_take_success_iff",
    "OniComb.c23_take_incomplete",
    "OniComb.c23_skip_iff_take",
    "OniComb.c23_take_add",
    "OniComb.c23_take_add_conv",
    "OniComb.c23_skip_incomplete"
   ],
   "note": ""
  },
  {
   "property": "C24",
   "status": "proved",
   "theorems": [
    "OniComb.c24_seq_success_iff",
    "OniComb.c24_tag_success_iff",
    "OniComb.c24_seq_committed_iff",
    "OniComb.c24_seq_uncommitted_iff",
    "OniComb.c24_eqIgnoreAsciiCase_iff",
    "OniComb.c24_tagNoCase_success_iff",
    "OniComb.c24_seq_mismatch",
    "OniComb.c24_seq_incomplete",
    "OniComb.c24_tag_failure",
    "OniComb.c24_tagNoCase_failure"
   ],
   "note": ""
  },
  {
   "property": "C25",
   "status": "proved",
   "theorems": [
    "OniComb.c25_elmPred",
    "OniComb.c25_elmOfSet",
    "OniComb.c25_noneOfSet",
    "OniComb.c25_elm",
    "OniComb.c25_elmAny",
    "OniComb.c25_elmOf",
    "OniComb.c25_noneOf",
    "OniComb.c25_elmIn_char",
    "OniComb.c25_elmFromUntil_char",
    "OniComb.c25_elmIn_byte",
    "OniComb.c25_elmFromUntil_byte",
    "OniComb.c25_ranges_char",
    "OniComb.c25_ranges_byte",
    "OniComb.c25_noneOf_ranges"
   ],
   "note": ""
  },
  {
   "property": "C26",
   "status": "partial",
   "theorems": [
    "OniComb.c26_char_alpha",
    "OniComb.c26_char_digit",
    "OniComb.c26_char_alpha_digit",
    "OniComb.c26_char_hex",
    "OniComb.c26_char_space",
    "OniComb.c26_char_multi_space",
    "OniComb.c26_char_whitespace",
    "OniComb.c26_char_case",
    "OniComb.c26_char_punctuation",
    "OniComb.c26_char_partition",
    "OniComb.c26_digit_1_9",
    "OniComb.c26_byte_char_agree",
    "OniComb.c26_byte_ascii",
    "OniComb.c26_oct_violated",
    "OniComb.c26_oct_partial",
    "OniComb.c26_digit_non_zero_violated",
    "OniComb.c26_digit_non_zero_partial",
    "OniComb.c26_digit_non_zero_general_violated"
   ],
   "note": "Octal digit class contains '8' (the comments of the code say so too) and digit_non_zero contains non-digits (witnesses); every other class proved for the whole domain."
  },
  {
   "property": "C27",
   "status": "proved",
   "theorems": [
    "OniComb.c27_filter_success_iff",
    "OniComb.c27_filter_rejects",
    "OniComb.c27_filter_failure",
    "OniComb.c27_filterNot_complement"
   ],
   "note": ""
  },
  {
   "property": "C28",
   "status": "proved",
   "theorems": [
    "OniComb.c28_mapRes_success_iff",
    "OniComb.c28_mapRes_conversion_failure",
    "OniComb.c28_mapRes_failure",
    "OniComb.c28_mapOpt_success_iff",
    "OniComb.c28_mapOpt_conversion_failure",
    "OniComb.c28_mapOpt_failure"
   ],
   "note": ""
  },
  {
   "property": "C29",
   "status": "proved",
   "theorems": [
    "OniComb.c29_collect_success_iff",
    "OniComb.c29_collect_andThen",
    "OniComb.c29_collect_text"
   ],
   "note": ""
  },
  {
   "property": "C30",
   "status": "proved",
   "theorems": [
    "OniComb.c30_name_transparent",
    "OniComb.c30_expect_transparent",
    "OniComb.c30_name_innermost",
    "OniComb.c30_name_wraps",
    "OniComb.c30_name_or",
    "OniComb.c30_log",
    "OniComb.c30_anywhere"
   ],
   "note": ""
  },
  {
   "property": "C31",
   "status": "partial",
   "theorems": [
    "OniComb.c31_answers",
    "OniComb.c31_transparent_partial",
    "OniComb.c31_one_input_partial",
    "OniComb.c31_transparent_violated",
    "OniComb.c31_two_inputs_violated",
    "OniComb.c31_recursive_violated",
    "OniComb.Stateful.c31_grammar_partial",
    "OniComb.Stateful.c31_grammar_violated"
   ],
   "note": "Violated: the key is the address of the state, the previous offset and the address of the closure, not the input and the offset, so that offsets 0 and 1 (or two inputs) can share an entry, and a recursive cached parser is confused with itself (witnesses). Proved transparent when no two different calls share a key. For whole grammars, with any number of caches in any combinators: outcome as without caches, for all addresses, provided no cached parser is asked both at offset 0 and at offset 1; violated otherwise (grammar witness)."
  },
  {
   "property": "C32",
   "status": "partial",
   "theorems": [
    "OniComb.c32_excerpt_violated",
    "OniComb.c32_excerpt_partial",
    "OniComb.c32_second_half_violated",
    "OniComb.c32_second_half_any_violated",
    "OniComb.c32_shown_partial",
    "OniComb.c32_no_text"
   ],
   "note": "Violated: excerpt bounds are absolute while the stored slice is relative. For every grammar built from the combinators: the excerpt panics whenever less than half of the text is left at the place of the error, and otherwise shows text that lies behind that place by as much as had been read; holds for errors at the start of the input."
  },
  {
   "property": "C33",
   "status": "partial",
   "theorems": [
    "OniComb.c33_regex_value",
    "OniComb.c33_regex_violated",
    "OniComb.c33_regex_partial",
    "OniComb.c33_regex_out_of_bounds",
    "OniComb.c33_succeeds",
    "OniComb.c33_fails",
    "OniComb.c33_value",
    "OniComb.c33_alternatives_violated",
    "OniComb.c33_elsewhere_violated",
    "OniComb.c33_optional_violated",
    "OniComb.c33_bytes_violated",
    "OniComb.c33_consumption_violated",
    "OniComb.c33_ident",
    "OniComb.c33_integer",
    "OniComb.c33_number"
   ],
   "note": "Violated: the UTF-8 length of the match is consumed (the two agree iff the match is ASCII), and with alternatives at the top level the match can lie further on (theorems about the modelled engine, sound and complete for its matching relation, leftmost). Proved: for expressions with one branch the parser succeeds exactly if the expression matches at the position; for ASCII matches with an arbitrary engine that matches a prefix, exact consumption. The expressions of toys and the calculator are shown to match what their models assume."
  },
  {
   "property": "C34",
   "status": "proved",
   "theorems": [
    "OniComb.c34_whole_input",
    "OniComb.c34_end_iff"
   ],
   "note": ""
  },
  {
   "property": "C35",
   "status": "proved",
   "theorems": [
    "OniComb.Crond.c35_language",
    "OniComb.Crond.c35_round_trip"
   ],
   "note": ""
  },
  {
   "property": "C36",
   "status": "proved",
   "theorems": [
    "OniComb.Crond.c36_in_range",
    "OniComb.Crond.c36_image"
   ],
   "note": ""
  },
  {
   "property": "C37",
   "status": "proved",
   "theorems": [
    "OniComb.Crond.c37_total",
    "OniComb.Crond.c37_error_iff"
   ],
   "note": ""
  },
  {
   "property": "C38",
   "status": "partial",
   "theorems": [
    "OniComb.Crond.c38_eval_partial",
    "OniComb.Crond.c38_standard_partial",
    "OniComb.Crond.c38_weekday_violated",
    "OniComb.Crond.c38_weekday_unsound_violated",
    "OniComb.Crond.c38_step_violated",
    "OniComb.Crond.c38_last_violated",
    "OniComb.Crond.c38_weekday_general_violated",
    "OniComb.Crond.c38_step_general_violated",
    "OniComb.Crond.c38_last_general_violated"
   ],
   "note": "Violated for all expressions: the weekday is never looked at (the field is compared with the minute), `*/k` with k at least 2 in days and months never holds on the first day or month, ranges with L are never satisfied. Proved: the exact condition computed, and standard semantics for expressions outside these cases."
  },
  {
   "property": "C39",
   "status": "partial",
   "theorems": [
    "OniComb.Crond.c39_no_panic_partial",
    "OniComb.Crond.c39_zero_step_violated",
    "OniComb.Crond.c39_zero_steps_violated",
    "OniComb.Crond.c39_last_december_violated"
   ],
   "note": "Violated: step 0 is accepted and panics at every time, whatever the other fields are (c39_zero_steps_violated), and so does December of the last chrono year (witnesses). Proved: there is no other panic."
  },
  {
   "property": "C40",
   "status": "partial",
   "theorems": [
    "OniComb.Crond.c40_fuel",
    "OniComb.Crond.c40_increasing",
    "OniComb.Crond.c40_sound",
    "OniComb.Crond.c40_complete",
    "OniComb.Crond.c40_length",
    "OniComb.Crond.c40_returns",
    "OniComb.Crond.c40_returns_count",
    "OniComb.Crond.c40_start",
    "OniComb.Crond.c40_before_start_violated",
    "OniComb.Crond.c40_before_start_general_violated",
    "OniComb.Crond.c40_hangs"
   ],
   "note": "Order, soundness, completeness, number and existence of items proved for an arbitrary specification; violated only in that the start is rounded down to the millisecond: the first item precedes every start that is not a whole millisecond if that millisecond satisfies the specification."
  },
  {
   "property": "C41",
   "status": "partial",
   "theorems": [
    "OniComb.Crond.c41_bounded_partial",
    "OniComb.Crond.c41_exact_partial",
    "OniComb.Crond.c41_past_end_violated",
    "OniComb.Crond.c41_past_end_general_violated",
    "OniComb.Crond.c41_hangs_general_violated",
    "OniComb.Crond.c41_hangs_violated"
   ],
   "note": "Violated, for every interval whose last minute does not satisfy the specification: an item after the end is returned if a later minute satisfies it, and otherwise the search never ends. Proved: all other items are before the end, nothing is missing, and no item is after the end when the last minute satisfies."
  },
  {
   "property": "C42",
   "status": "proved",
   "theorems": [
    "OniComb.Crond.c42_days",
    "OniComb.Crond.c42_last_december"
   ],
   "note": ""
  },
  {
   "property": "C43",
   "status": "proved",
   "theorems": [
    "OniComb.Toys.c43_arithmetic",
    "OniComb.Toys.c43_conditions",
    "OniComb.Toys.c43_no_wrong_result"
   ],
   "note": ""
  },
  {
   "property": "C44",
   "status": "partial",
   "theorems": [
    "OniComb.Toys.c44_call_partial",
    "OniComb.Toys.c44_same_name_partial",
    "OniComb.Toys.c44_arguments_ignored_violated",
    "OniComb.Toys.c44_unbound_violated",
    "OniComb.Toys.c44_wrong_value_violated",
    "OniComb.Toys.c44_too_few"
   ],
   "note": "Violated: parameters are inserted into a copy and lost (witnesses, and a theorem that the passed numbers never matter). Proved: exact behaviour (the body sees the caller's variables), arity panic, and the case where the caller has variables of the same names and values."
  },
  {
   "property": "C45",
   "status": "proved",
   "theorems": [
    "OniComb.Toys.c45_no_leak",
    "OniComb.Toys.c45_no_leak_labelled",
    "OniComb.Toys.c45_only_arguments",
    "OniComb.Toys.c45_scope"
   ],
   "note": ""
  },
  {
   "property": "C46",
   "status": "partial",
   "theorems": [
    "OniComb.Toys.c46_assign_partial",
    "OniComb.Toys.c46_value",
    "OniComb.Toys.c46_outer_violated",
    "OniComb.Toys.c46_program_violated"
   ],
   "note": "Violated: assigning a variable of an enclosing scope panics (theorem for all such assignments, and a program). Proved for variables of the current scope and new variables."
  },
  {
   "property": "C47",
   "status": "proved",
   "theorems": [
    "OniComb.Toys.c47_while",
    "OniComb.Toys.c47_while_forever",
    "OniComb.Toys.c47_for",
    "OniComb.Toys.c47_range",
    "OniComb.Toys.c47_range_sorted",
    "OniComb.Toys.c47_for_prints",
    "OniComb.Toys.c47_bound_reevaluated"
   ],
   "note": ""
  },
  {
   "property": "C48",
   "status": "partial",
   "theorems": [
    "OniComb.Toys.c48_globals_partial",
    "OniComb.Toys.c48_lost_violated",
    "OniComb.Toys.c48_names_violated",
    "OniComb.Toys.c48_read_violated",
    "OniComb.Toys.c48_functions"
   ],
   "note": "Violated: globals are dropped; their names have no effect on any program, and every main that begins by reading a name panics. Proved: exact behaviour of the definitions, functions are visible."
  },
  {
   "property": "C49",
   "status": "proved",
   "theorems": [
    "OniComb.Uri.c49_show_consumed",
    "OniComb.Uri.c49_show_exact",
    "OniComb.Uri.c49_reparse",
    "OniComb.Uri.c49_reparse_ipv6"
   ],
   "note": ""
  },
  {
   "property": "C50",
   "status": "partial",
   "theorems": [
    "OniComb.Uri.c50_garbage_violated",
    "OniComb.Uri.c50_rest_violated",
    "OniComb.Uri.c50_rest_general_violated",
    "OniComb.Uri.c50_prefix_partial"
   ],
   "note": "Violated: whatever follows a URI is ignored (every URI and every garbage beginning with a foreign byte; and everything behind a host name and a colon that is neither a port nor the end of user info). Proved: the text begins with a URI of the returned components."
  },
  {
   "property": "C51",
   "status": "partial",
   "theorems": [
    "OniComb.Uri.c51_text_partial",
    "OniComb.Uri.c51_roundtrip_partial",
    "OniComb.Uri.c51_language",
    "OniComb.Uri.c51_roundtrip_iff_partial",
    "OniComb.Uri.c51_show_injective",
    "OniComb.Uri.c51_host_violated",
    "OniComb.Uri.c51_host_general_violated",
    "OniComb.Uri.c51_slashes_violated",
    "OniComb.Uri.c51_slashes_general_violated",
    "OniComb.Uri.c51_ipv6"
   ],
   "note": "Violated exactly for registered names that begin like an IPv4 address and for paths without authority that begin with two slashes and something like an authority (c51_roundtrip_iff_partial: a URI in the character sets is read back iff it is neither). Text level and value level round trip, exact language of completely consumed texts, printing is injective."
  },
  {
   "property": "C52",
   "status": "proved",
   "theorems": [
    "OniComb.Uri.c52_returns",
    "OniComb.Uri.c52_characters",
    "OniComb.Uri.c52_percent"
   ],
   "note": ""
  },
  {
   "property": "C53",
   "status": "proved",
   "theorems": [
    "OniComb.Uri.c53_ipv4",
    "OniComb.Uri.c53_roundtrip",
    "OniComb.Uri.c53_unique"
   ],
   "note": ""
  },
  {
   "property": "C54",
   "status": "proved",
   "theorems": [
    "OniComb.Uri.c54_params",
    "OniComb.Uri.c54_show",
    "OniComb.Uri.c54_roundtrip"
   ],
   "note": ""
  },
  {
   "property": "C55",
   "status": "partial",
   "theorems": [
    "OniComb.Hocon.c55_object_last_definition",
    "OniComb.Hocon.c55_object_lookup",
    "OniComb.Hocon.c55_top_level_first_definition_violated",
    "OniComb.Hocon.c55_witness_violated",
    "OniComb.Hocon.c55_top_level_definitions_partial"
   ],
   "note": "Violated at top level: the first scalar definition is kept (theorem for all documents of the textual specification). Proved inside braces for all lists of definitions, and what top level definitions give instead."
  },
  {
   "property": "C56",
   "status": "proved",
   "theorems": [
    "OniComb.Hocon.c56_merge",
    "OniComb.Hocon.c56_merge_unique",
    "OniComb.Hocon.c56_merge_wf",
    "OniComb.Hocon.c56_merge_order",
    "OniComb.Hocon.c56_keys",
    "OniComb.Hocon.c56_keep_left"
   ],
   "note": ""
  },
  {
   "property": "C57",
   "status": "partial",
   "theorems": [
    "OniComb.Hocon.c57_undotted_keys_lost_violated",
    "OniComb.Hocon.c57_iteration_order_violated",
    "OniComb.Hocon.c57_no_dots_partial",
    "OniComb.Hocon.c57_dotted_keys_partial",
    "OniComb.Hocon.c57_only_partial"
   ],
   "note": "Violated: undotted keys are dropped as soon as a dotted key exists (theorem for all objects), and with overlapping dotted keys the result depends on the map order. Proved: unchanged without dotted keys, right values for dotted keys that do not overlap."
  },
  {
   "property": "C58",
   "status": "proved",
   "theorems": [
    "OniComb.Hocon.c58_get_value",
    "OniComb.Hocon.c58_get_value_any",
    "OniComb.Hocon.c58_get_value_returns",
    "OniComb.Hocon.c58_has_path",
    "OniComb.Hocon.c58_dot_panics"
   ],
   "note": ""
  },
  {
   "property": "C59",
   "status": "partial",
   "theorems": [
    "OniComb.Hocon.c59_cycle_violated",
    "OniComb.Hocon.c59_self_reference_violated",
    "OniComb.Hocon.c59_self_reference_diverges_violated",
    "OniComb.Hocon.c59_optional_missing_violated",
    "OniComb.Hocon.c59_optional_fallback_partial",
    "OniComb.Hocon.c59_mandatory_missing",
    "OniComb.Hocon.c59_sound_partial",
    "OniComb.Hocon.c59_complete",
    "OniComb.Hocon.c59_unique",
    "OniComb.Hocon.c59_terminates_partial",
    "OniComb.Hocon.c59_no_reference_left",
    "OniComb.Hocon.c59_same_value",
    "OniComb.Hocon.c59_dot_panics_violated",
    "OniComb.Hocon.c59_document_partial"
   ],
   "note": "Violated for cycles (never returns, for every cyclic set of paths), for optional references to nothing (panic) and for paths with a dot behind them (panic). Proved: sound, complete, unique, terminating for ranked references, no reference left; c59_document_partial from any parsed text without includes to what get_value answers (Spec/HoconAnswers), with dotted keys, repeated keys, several values, concatenations and optional references. Missing there: includes."
  },
  {
   "property": "C60",
   "status": "partial",
   "theorems": [
    "OniComb.Hocon.c60_sign_dropped_violated",
    "OniComb.Hocon.c60_minus_one_violated",
    "OniComb.Hocon.c60_exponent_panics_violated",
    "OniComb.Hocon.c60_unsigned_partial",
    "OniComb.Hocon.c60_scientific_violated"
   ],
   "note": "Violated: the sign is dropped for every negative number, an exponent without fraction panics, a fraction with an exponent panics unless Decimal::from_str accepts the text (then the sign is dropped). Proved for unsigned numbers without exponent."
  },
  {
   "property": "C61",
   "status": "partial",
   "theorems": [
    "OniComb.Hocon.c61_long_units_violated",
    "OniComb.Hocon.c61_short_units_partial",
    "OniComb.Hocon.c61_std_duration_partial",
    "OniComb.Hocon.c61_fraction_violated",
    "OniComb.Hocon.c61_overflow_violated",
    "OniComb.Hocon.c61_chrono_duration_partial"
   ],
   "note": "Violated for the 17 longer spellings (document rejected, for every amount), for fractions (truncated) and on overflow. Proved for the ten short spellings and for whole amounts in range."
  },
  {
   "property": "C62",
   "status": "proved",
   "theorems": [
    "OniComb.Json.c62_roundtrip_char",
    "OniComb.Json.c62_roundtrip_byte"
   ],
   "note": "For both example grammars (characters and bytes), every value with UTF-8 strings, distinct keys and numbers that the formatter writes in JSON syntax. f64 parsing and formatting are parameters."
  },
  {
   "property": "C63",
   "status": "proved",
   "theorems": [
    "OniComb.Calc.c63_language",
    "OniComb.Calc.c63_total",
    "OniComb.Calc.c63_depth",
    "OniComb.Calc.c63_unambiguous",
    "OniComb.Calc.c63_value"
   ],
   "note": "Exact language against a left recursive grammar, totality, depth independence, unambiguity, and the value of arithmetic printed with minimal parentheses. Decimal is a parameter; the value theorem assumes that multiplying by -1 negates."
  },
  {
   "property": "C64",
   "status": "partial",
   "theorems": [
    "OniComb.Toys.c64_literals_partial",
    "OniComb.Toys.c64_literals_violated"
   ],
   "note": "Violated for boolean and array literals, which always panic; proved for integers and strings."
  },
  {
   "property": "C65",
   "status": "partial",
   "theorems": [
    "OniComb.Toys.c65_short_circuit_violated",
    "OniComb.Toys.c65_value_partial"
   ],
   "note": "Violated: the right operand is always evaluated (theorem for all operands). Proved: the value is right when both return."
  },
  {
   "property": "C66",
   "status": "proved",
   "theorems": [
    "OniComb.Toys.c66_append_only",
    "OniComb.Toys.c66_println",
    "OniComb.Toys.c66_deterministic",
    "OniComb.Toys.c66_if",
    "OniComb.Toys.c66_if_any",
    "OniComb.Toys.c66_if_number"
   ],
   "note": ""
  },
  {
   "property": "C67",
   "status": "proved",
   "theorems": [
    "OniComb.c67_nextOffset",
    "OniComb.c67_lastOffset",
    "OniComb.c67_offsets_failure"
   ],
   "note": ""
  },
  {
   "property": "C68",
   "status": "proved",
   "theorems": [
    "OniComb.Uri.c68_add",
    "OniComb.Uri.c68_addOpt_some",
    "OniComb.Uri.c68_addOpt_none",
    "OniComb.Uri.c68_add_show"
   ],
   "note": ""
  },
  {
   "property": "C69",
   "status": "partial",
   "theorems": [
    "OniComb.Uri.c69_empty_violated",
    "OniComb.Uri.c69_addParts_partial",
    "OniComb.Uri.c69_conversions"
   ],
   "note": "Violated for the empty path (theorem for all parts). Proved for all other paths."
  },
  {
   "property": "C70",
   "status": "partial",
   "theorems": [
    "OniComb.Uri.c70_ipv6_partial",
    "OniComb.Uri.c70_seven_violated",
    "OniComb.Uri.c70_seven_is_address",
    "OniComb.Uri.c70_printed",
    "OniComb.Uri.c70_printed_injective"
   ],
   "note": "Violated for seven groups before a final double colon (theorem for all of them). Proved: exactly the other addresses are read; the texts that the standard library prints are never of that kind, so every address is read back from its printed form."
  },
  {
   "property": "C71",
   "status": "partial",
   "theorems": [
    "OniComb.Uri.c71_password_violated",
    "OniComb.Uri.c71_colon_violated",
    "OniComb.Uri.c71_password_general_violated",
    "OniComb.Uri.c71_colon_general_violated",
    "OniComb.Uri.c71_digits_violated",
    "OniComb.Uri.c71_userInfo_partial"
   ],
   "note": "Violated for every empty password and every password with a colon: the user is taken for the host (and digits for the port), the real host is dropped. Proved for all other user infos, with any host and port."
  },
  {
   "property": "C72",
   "status": "partial",
   "theorems": [
    "OniComb.Json.c72_rfc_accepted_char",
    "OniComb.Json.c72_rfc_accepted_byte",
    "OniComb.Json.c72_language_char_partial",
    "OniComb.Json.c72_language_byte_partial",
    "OniComb.Json.c72_only_rfc_violated",
    "OniComb.Json.c72_trailing_accepted_violated",
    "OniComb.Json.c72_trailing_accepted_byte_violated",
    "OniComb.Json.c72_trailing_outside_violated"
   ],
   "note": "Violated: every non-empty array is also accepted with a comma behind its last element (c72_trailing_accepted_violated, c72_trailing_accepted_byte_violated), which no text of the RFC has (c72_trailing_outside_violated), and control characters in strings are accepted (witness). Proved: every text of the RFC is accepted with its value, and the exact accepted language is the RFC grammar with these two liberties."
  },
  {
   "property": "C73",
   "status": "proved",
   "theorems": [
    "OniComb.Json.c73_total_char",
    "OniComb.Json.c73_total_byte",
    "OniComb.Json.c73_depth_char",
    "OniComb.Json.c73_depth_byte"
   ],
   "note": ""
  },
  {
   "property": "C74",
   "status": "proved",
   "theorems": [
    "OniComb.Json.c74_last_wins_char",
    "OniComb.Json.c74_last_wins_byte"
   ],
   "note": ""
  },
  {
   "property": "C75",
   "status": "partial",
   "theorems": [
    "OniComb.Calc.c75_blanks_partial",
    "OniComb.Calc.c75_blanks_violated",
    "OniComb.Calc.c75_blanks_general_violated"
   ],
   "note": "Violated: a blank in front of or behind any text without parentheses is an error. Proved: any blanks around binary operators and parentheses."
  },
  {
   "property": "C76",
   "status": "proved",
   "theorems": [
    "OniComb.Toys.Parse.c76_program",
    "OniComb.Toys.Parse.c76_lines",
    "OniComb.Toys.Parse.c76_expression"
   ],
   "note": "Soundness against the lax language of Spec/ToysText."
  },
  {
   "property": "C77",
   "status": "proved",
   "theorems": [
    "OniComb.Toys.Parse.c77_program",
    "OniComb.Toys.Parse.c77_lines",
    "OniComb.Toys.Parse.c77_expression"
   ],
   "note": "Completeness for the strict language of Spec/ToysText, which says in its header how it differs from the lax one."
  },
  {
   "property": "C78",
   "status": "partial",
   "theorems": [
    "OniComb.Toys.Parse.c78_program_violated",
    "OniComb.Toys.Parse.c78_dropped_violated",
    "OniComb.Toys.Parse.c78_lines_partial"
   ],
   "note": "Violated: `program` succeeds on every input (theorem), and whatever follows a program and does not begin with a definition is dropped (theorem for every such text). Proved for `lines`."
  },
  {
   "property": "C79",
   "status": "proved",
   "theorems": [
    "OniComb.Toys.Parse.c79_depth",
    "OniComb.Toys.Parse.c79_total"
   ],
   "note": ""
  },
  {
   "property": "C80",
   "status": "partial",
   "theorems": [
    "OniComb.Toys.Parse.c80_names_partial",
    "OniComb.Toys.Parse.c80_names_violated"
   ],
   "note": "Violated: no expression that the parser returns, for any input, mentions a variable beginning with `f` or `true` (except f, fa, fal, fals, which can be read at the very end of the input). Proved for all other names."
  },
  {
   "property": "C81",
   "status": "partial",
   "theorems": [
    "OniComb.Toys.Parse.c81_arithmetic_partial",
    "OniComb.Toys.Parse.c81_mod_violated",
    "OniComb.Toys.Parse.c81_mod_value_violated",
    "OniComb.Toys.Parse.c81_and_violated"
   ],
   "note": "Violated for `%` (theorem for all integers) and for `&&` against `<` (every such expression panics). Proved from program text to output for + - * / and parentheses with any layout."
  },
  {
   "property": "C82",
   "status": "partial",
   "theorems": [
    "OniComb.Toys.Parse.c82_else_violated",
    "OniComb.Toys.Parse.c82_else_partial"
   ],
   "note": "Violated: theorem for every condition, statement and name. Proved where no word beginning with `else` follows."
  },
  {
   "property": "C83",
   "status": "proved",
   "theorems": [
    "OniComb.Toys.Parse.c83_for"
   ],
   "note": "For every name that can be read (see C80)."
  },
  {
   "property": "C84",
   "status": "proved",
   "theorems": [
    "OniComb.Toys.Parse.c84_program",
    "OniComb.Toys.Parse.c84_expression"
   ],
   "note": ""
  },
  {
   "property": "C85",
   "status": "proved",
   "theorems": [
    "OniComb.Hocon.c85_decode",
    "OniComb.Hocon.c85_parsed",
    "OniComb.Hocon.c85_loaded"
   ],
   "note": "Environment variables are assumed to be text, as std::env::var guarantees."
  },
  {
   "property": "C86",
   "status": "proved",
   "theorems": [
    "OniComb.Hocon.c86_parsed",
    "OniComb.Hocon.c86_loaded"
   ],
   "note": ""
  },
  {
   "property": "C87",
   "status": "partial",
   "theorems": [
    "OniComb.Hocon.c87_lines_violated",
    "OniComb.Hocon.c87_merge_partial",
    "OniComb.Hocon.c87_first_wins_violated",
    "OniComb.Hocon.c87_meaning"
   ],
   "note": "Violated: a scalar setting of the first object stays (theorem for all documents), and an object on a line of its own is taken for a key (theorem for all such objects and all blocks behind them). Proved: the merge order, and for every parsed text the first pass gives what its values stand for, with dotted keys and includes (c87_meaning, Spec/HoconExpand)."
  },
  {
   "property": "C88",
   "status": "partial",
   "theorems": [
    "OniComb.Hocon.c88_dotted_partial",
    "OniComb.Hocon.c88_dotted_in_braces_violated",
    "OniComb.Hocon.c88_load_partial",
    "OniComb.Hocon.c88_file_partial",
    "OniComb.Hocon.c88_get_value_partial",
    "OniComb.Hocon.c88_undotted_lost_violated"
   ],
   "note": "Violated with a dotted key: undotted keys beside it are lost, and in braces it is not found (theorems for all documents). Proved for settings whose dotted keys do not overlap, in any layout, without references; from text to answer for documents of distinct undotted keys as in Spec/HoconText, with comments and, for loading, with references; for any parsed text see c59_document_partial."
  },
  {
   "property": "C89",
   "status": "proved",
   "theorems": [
    "OniComb.Hocon.c89_returns",
    "OniComb.Hocon.c89_depth",
    "OniComb.Hocon.c89_load_depth",
    "OniComb.Hocon.c89_panic_number"
   ],
   "note": "Termination of loading itself is not claimed: cyclic references and includes never return (C59)."
  },
  {
   "property": "C90",
   "status": "partial",
   "theorems": [
    "OniComb.Hocon.c90_empty_panics_violated",
    "OniComb.Hocon.c90_missing_file_panics_violated"
   ],
   "note": "Violated: theorems for every text of blanks and comment lines, and for every missing file."
  },
  {
   "property": "C91",
   "status": "partial",
   "theorems": [
    "OniComb.Hocon.c91_include_panics_violated",
    "OniComb.Hocon.c91_include_partial"
   ],
   "note": "Violated: theorem for every name, both methods (file and url are treated alike) and every file system without a file whose name has quotes in it. Proved: a file with such a name is loaded."
  },
  {
   "property": "C92",
   "status": "partial",
   "theorems": [
    "OniComb.Hocon.c92_std_partial",
    "OniComb.Hocon.c92_std_violated",
    "OniComb.Hocon.c92_chrono",
    "OniComb.Hocon.c92_chrono_panics_violated"
   ],
   "note": "Violated: theorems for all durations from 2^64 (std) and 2^63 (chrono) nanoseconds on. Proved below."
  },
  {
   "property": "C93",
   "status": "partial",
   "theorems": [
    "OniComb.Hocon.c93_empty_string_violated",
    "OniComb.Hocon.c93_bracket_violated",
    "OniComb.Hocon.c93_leading_blanks_violated",
    "OniComb.Hocon.c93_string_partial"
   ],
   "note": "Violated: theorems for the empty string, for strings with brackets or single quotes, and for leading blanks. Proved for the other strings without escapes."
  },
  {
   "property": "C94",
   "status": "partial",
   "theorems": [
    "OniComb.Hocon.c94_value_violated",
    "OniComb.Hocon.c94_indented_violated",
    "OniComb.Hocon.c94_comments_partial",
    "OniComb.Hocon.c94_crlf_violated"
   ],
   "note": "Violated for two comment lines with CR LF, for three with indentation, and for comments between the sign and an indented value (theorems for all comments, values and documents). Proved for LF line ends and the documents of Spec/HoconText."
  },
  {
   "property": "C95",
   "status": "partial",
   "theorems": [
    "OniComb.Hocon.c95_escapes_partial",
    "OniComb.Hocon.c95_bad_escape",
    "OniComb.Hocon.c95_bracket_violated"
   ],
   "note": "Proved for strings of bytes that are UTF-8 after replacing the escapes, without brackets, raw quotes and line ends (ItemsOk) and not beginning with a blank or a comment sign (FirstOk); both kinds of quotes. Violated: theorem for every string with a bracket or a single quote. Unknown escapes: syntax error, all strings."
  },
  {
   "property": "C96",
   "status": "partial",
   "theorems": [
    "OniComb.Hocon.c96_dropped_violated",
    "OniComb.Hocon.c96_concat_partial",
    "OniComb.Hocon.c96_reference_violated",
    "OniComb.Hocon.c96_string_violated",
    "OniComb.Hocon.c96_unquoted_violated"
   ],
   "note": "Violated: theorems for a reference or a quoted string behind any value of the layout grammar, in front of any settings, for references in unquoted strings, up to get_value, and for parts that are not strings, which the resolution drops. Proved: the resolution of a concatenation value of strings, which the parser hardly ever builds."
  },
  {
   "property": "C97",
   "status": "partial",
   "theorems": [
    "OniComb.Hocon.c97_layout_partial",
    "OniComb.Hocon.c97_unambiguous",
    "OniComb.Hocon.c97_load_partial",
    "OniComb.Hocon.c97_get_value_partial",
    "OniComb.Hocon.c97_references_partial",
    "OniComb.Hocon.c97_repeated_partial",
    "OniComb.Hocon.c97_repeated_value_partial",
    "OniComb.Hocon.c97_comma_violated",
    "OniComb.Hocon.c97_comma_string_violated"
   ],
   "note": "Grammar Doc in Spec/HoconLayout (its conditions on what follows numbers, unquoted strings and braces are part of the grammar; repeated keys in braces by Gathered, repeated settings by Combined). References from the text to get_value: c97_references_partial, for single definitions. Violated: commas between settings outside of braces (c97_comma_violated, c97_comma_string_violated). Not in the grammar: includes (C91), signed numbers, exponents and longer unit names (violations in C60, C61)."
  },
  {
   "property": "C98",
   "status": "partial",
   "theorems": [
    "OniComb.Hocon.c98_compact_partial",
    "OniComb.Hocon.c98_agreement_partial",
    "OniComb.Hocon.c98_get_value_partial",
    "OniComb.Hocon.c98_spaced_partial",
    "OniComb.Hocon.c98_spaced_agreement_partial",
    "OniComb.Hocon.c98_spaced_get_value_partial",
    "OniComb.Hocon.c98_json_violated"
   ],
   "note": "Violated: theorem for every first object, every second object or array, every layout around them and every continuation. Proved for all JSON texts, with any white space, in which strings are not empty, have no raw brackets and single quotes and do not begin with a blank or comment sign, numbers have no sign and exponent, keys differ, and what comes behind an object in an array does not look like a setting: same value as in the JSON example, up to get_value."
  },
  {
   "property": "C99",
   "status": "partial",
   "theorems": [
    "OniComb.Hocon.c99_roundtrip_partial",
    "OniComb.Hocon.c99_array_partial",
    "OniComb.Hocon.c99_get_value_partial",
    "OniComb.Hocon.c99_array_violated",
    "OniComb.Hocon.c99_escape_violated"
   ],
   "note": "Violated: theorems for every configuration whose map gives an array first, and for all strings that look like escapes. Proved for all configurations without arrays, strings without escapes and keys without quotes, in any map order, up to get_value. Display of Decimal is a parameter."
  },
  {
   "property": "C100",
   "status": "partial",
   "theorems": [
    "OniComb.Hocon.c100_duration_violated",
    "OniComb.Hocon.c100_duration_type",
    "OniComb.Hocon.c100_duration_partial",
    "OniComb.Hocon.c100_panics",
    "OniComb.Hocon.c100_json_partial"
   ],
   "note": "Violated: theorem for all documents with a duration of 2^64 (2^63) units or more. Proved: no other value makes an accessor panic; exact values for durations in range and for the JSON documents of C98, from text to accessor."
  },
  {
   "property": "C101",
   "status": "partial",
   "theorems": [
    "OniComb.Hocon.c101_reported_partial",
    "OniComb.Hocon.c101_nothing_read_partial",
    "OniComb.Hocon.c101_brace_violated",
    "OniComb.Hocon.c101_included_violated"
   ],
   "note": "Violated: theorems for all settings documents followed by a closing brace and for all includes of files with errors. Proved: exactly when the error is reported, for every text; in particular if nothing could be read."
  },
  {
   "property": "C102",
   "status": "proved",
   "theorems": [
    "OniComb.c102_text",
    "OniComb.c102_any"
   ],
   "note": "All grammars of the closure Built, in which `failed` is given errors that carry no text of their own."
  },
  {
   "property": "C103",
   "status": "partial",
   "theorems": [
    "OniComb.c103_parse_partial",
    "OniComb.c103_error_violated",
    "OniComb.c103_filter_partial",
    "OniComb.c103_filter_violated"
   ],
   "note": "Violated in general form: all errors of all grammars become equal, and every value that filter rejects blocks an alternative. Proved: same values, and failures, panics and divergence on the same inputs; filter accepts the same."
  },
  {
   "property": "C104",
   "status": "proved",
   "theorems": [
    "OniComb.Json.c104_cached_char",
    "OniComb.Json.c104_cached_accepts",
    "OniComb.Json.c104_cached_byte"
   ],
   "note": ""
  },
  {
   "property": "C105",
   "status": "partial",
   "theorems": [
    "OniComb.Json.c105_bytes_partial",
    "OniComb.Json.c105_escapes_violated",
    "OniComb.Json.c105_unicode_violated"
   ],
   "note": "Violated in general form: every string literal with an escape other than \\u comes out as written, and every one with a \\u escape is rejected. Proved for all UTF-8 texts without backslashes."
  },
  {
   "property": "C106",
   "status": "proved",
   "theorems": [
    "OniComb.c106_crond",
    "OniComb.c106_program",
    "OniComb.c106_lines"
   ],
   "note": ""
  },
  {
   "property": "C107",
   "status": "proved",
   "theorems": [
    "OniComb.c107_accessors",
    "OniComb.c107_constructors",
    "OniComb.c107_flat_map_left",
    "OniComb.c107_flat_map_right",
    "OniComb.c107_flat_map_assoc",
    "OniComb.c107_map_id",
    "OniComb.c107_map_comp",
    "OniComb.c107_failures_pass",
    "OniComb.c107_map_err",
    "OniComb.c107_map_err_comp",
    "OniComb.c107_with_uncommitted",
    "OniComb.c107_add_commit",
    "OniComb.c107_add_commit_twice",
    "OniComb.c107_advance",
    "OniComb.c107_status",
    "OniComb.c107_combinators",
    "OniComb.c107_runner"
   ],
   "note": ""
  },
  {
   "property": "C108",
   "status": "partial",
   "theorems": [
    "OniComb.c108_kinds",
    "OniComb.c108_layers",
    "OniComb.c108_offset",
    "OniComb.c108_expect",
    "OniComb.c108_name_partial",
    "OniComb.c108_second_name_violated",
    "OniComb.c108_filter_name_violated",
    "OniComb.c108_input_string_partial",
    "OniComb.c108_no_text_violated",
    "OniComb.c108_one_byte_violated"
   ],
   "note": "Violated: `name` on a parser with a name or filter is dropped (all parsers), `input_string` over bytes is empty for excerpts that are not UTF-8 (all errors). Proved: kinds, layers and offsets in `Display`, `expect`, `name` on errors without a name, `input_string` of UTF-8 excerpts."
  },
  {
   "property": "C109",
   "status": "partial",
   "theorems": [
    "OniComb.Crond.c109_clock",
    "OniComb.Crond.c109_finds",
    "OniComb.Crond.c109_soon",
    "OniComb.Crond.c109_text_partial",
    "OniComb.Crond.c109_never_violated",
    "OniComb.Crond.c109_impossible_day_violated",
    "OniComb.Crond.c109_february_violated",
    "OniComb.Crond.c109_zone_clock",
    "OniComb.Crond.c109_zone",
    "OniComb.Crond.c109_zone_skipped_violated"
   ],
   "note": "Violated: where no date that exists satisfies the expression (for instance every day that its month never has), `next` never returns. Proved for clocks with a fixed offset from UTC: existence within eight years, soundness and completeness of the items; from the text for the class of texts whose evaluation is standard (C38). Zones whose offset changes (summer time): existence within nine years for times the clocks do not skip, soundness and completeness; violated for times the clocks of the zone never show (next never returns)."
  },
  {
   "property": "C110",
   "status": "partial",
   "theorems": [
    "OniComb.Hocon.c110_adds",
    "OniComb.Hocon.c110_single_violated",
    "OniComb.Hocon.c110_definitions",
    "OniComb.Hocon.c110_associative_partial",
    "OniComb.Hocon.c110_associative_violated",
    "OniComb.Hocon.c110_neutral_violated",
    "OniComb.Hocon.c110_objects",
    "OniComb.Hocon.c110_objects_wf",
    "OniComb.Hocon.c110_objects_associative_partial",
    "OniComb.Hocon.c110_objects_neutral"
   ],
   "note": "Violated: theorems for all right sides with one definition, and for all triples. Proved: exactly which triples are associative, what combining chains gives, and that objects keep all keys."
  },
  {
   "property": "C111",
   "status": "partial",
   "theorems": [
    "OniComb.Uri.c111_alphabetic",
    "OniComb.Uri.c111_order",
    "OniComb.Uri.c111_equal_violated",
    "OniComb.Uri.c111_empty_violated",
    "OniComb.Uri.c111_equal_partial",
    "OniComb.Uri.c111_parsed_partial"
   ],
   "note": "Violated: theorem for every query with a value. Proved: alphabetic, total, consistent; agreement with `==` for the queries of parsed URIs (under StdOk) and all queries in the character set. The order of `str` is the order of bytes."
  },
  {
   "property": "C112",
   "status": "partial",
   "theorems": [
    "OniComb.Uri.c112_joined_violated",
    "OniComb.Uri.c112_slash_violated",
    "OniComb.Uri.c112_text_partial",
    "OniComb.Uri.c112_parsed",
    "OniComb.Uri.c112_empty_violated"
   ],
   "note": "Violated: theorem for every list of parts whose length is not one. Proved for the paths of the RFC grammar, in particular those of parsed URIs."
  },
  {
   "property": "C113",
   "status": "proved",
   "theorems": [
    "OniComb.Toys.Parse.c113_demo",
    "OniComb.Toys.Parse.c113_main"
   ],
   "note": "From the text of the program to the printed values, for both settings of overflow checks."
  },
  {
   "property": "C114",
   "status": "partial",
   "theorems": [
    "OniComb.Toys.c114_int",
    "OniComb.Toys.c114_no_leading_zero",
    "OniComb.Toys.c114_text_violated",
    "OniComb.Toys.c114_array_violated",
    "OniComb.Toys.c114_injective_partial",
    "OniComb.Toys.c114_lines"
   ],
   "note": "Violated: theorem for every value without texts. Proved for values without texts; integers are read back; output can be split into lines. `Display for i64` and `bool` is modelled."
  },
  {
   "property": "C115",
   "status": "proved",
   "theorems": [
    "OniComb.Toys.c115_output",
    "OniComb.Toys.c115_reset",
    "OniComb.Toys.c115_keep",
    "OniComb.Toys.c115_without_reset",
    "OniComb.Toys.c115_functions"
   ],
   "note": ""
  },
  {
   "property": "C116",
   "status": "partial",
   "theorems": [
    "OniComb.Uri.c116_scheme",
    "OniComb.Uri.c116_colon",
    "OniComb.Uri.c116_fragment",
    "OniComb.Uri.c116_scheme_violated"
   ],
   "note": "Violated: theorem for every URI with its scheme taken away. Proved: what stands in front of the first colon is the scheme, texts without colon are rejected, and `is_absolute` means that no number sign was read (under StdOk)."
  },
  {
   "property": "C117",
   "status": "proved",
   "theorems": [
    "OniComb.c117_add_add",
    "OniComb.c117_mul_mul",
    "OniComb.c117_sub_sub",
    "OniComb.c117_sub_mul",
    "OniComb.c117_mul_drop",
    "OniComb.c117_mul_sub",
    "OniComb.c117_add_sub",
    "OniComb.c117_mul_add",
    "OniComb.c117_sub_add",
    "OniComb.c117_surround",
    "OniComb.c117_terms",
    "OniComb.c117_regroup",
    "OniComb.c117_factor_add",
    "OniComb.c117_factor_mul",
    "OniComb.c117_factor_sub",
    "OniComb.c117_factor_right_fails",
    "OniComb.c117_not"
   ],
   "note": ""
  },
  {
   "property": "C118",
   "status": "partial",
   "theorems": [
    "OniComb.c118_begin_violated",
    "OniComb.c118_begin_behind_violated",
    "OniComb.c118_begin_partial",
    "OniComb.c118_empty"
   ],
   "note": "Violated everywhere but at the beginning. Proved: begin consumes nothing and is neutral in front of and behind every parser."
  },
  {
   "property": "C119",
   "status": "partial",
   "theorems": [
    "OniComb.Hocon.c119_document",
    "OniComb.Hocon.c119_empty_string_violated"
   ],
   "note": "Document and Made in Spec/HoconShape; the theorem has no hypothesis but that the parse succeeded. Violated: theorem for all texts."
  },
  {
   "property": "C120",
   "status": "partial",
   "theorems": [
    "OniComb.Hocon.c120_override_partial",
    "OniComb.Hocon.c120_entry_partial",
    "OniComb.Hocon.c120_second_default_violated",
    "OniComb.Hocon.c120_settings_violated"
   ],
   "note": "Proved in braces for one value without references in front of the reference, among any entries without references, in any layout: references to variables, and to constants of the same object. Violated: theorems for all pairs of constants in braces, and for all settings."
  },
  {
   "property": "C121",
   "status": "partial",
   "theorems": [
    "OniComb.Uri.c121_longest",
    "OniComb.Uri.c121_language",
    "OniComb.Uri.c121_absolute",
    "OniComb.Uri.c121_noscheme",
    "OniComb.Uri.c121_printed",
    "OniComb.Uri.c121_kind_violated",
    "OniComb.Uri.c121_noscheme_violated",
    "OniComb.Uri.c121_uri_kind"
   ],
   "note": "Violated: theorems for all texts of path-absolute and path-noscheme, and for all parsed URIs. Proved: everything but the kind, for all inputs."
  },
  {
   "property": "C122",
   "status": "partial",
   "theorems": [
    "OniComb.Hocon.c122_whole",
    "OniComb.Hocon.c122_roundtrip_partial",
    "OniComb.Hocon.c122_narrow",
    "OniComb.Hocon.c122_wide_violated",
    "OniComb.Hocon.c122_fraction_violated",
    "OniComb.Hocon.c122_document"
   ],
   "note": "Violated: theorems for all integers from 2^96 on and for all numbers with a fraction. Proved: all integers below 2^96 and all pairs of types; all documents of one setting whose number is an integer. `rust_decimal` is modelled on the numbers it represents; f32 and f64 are not modelled."
  },
  {
   "property": "C123",
   "status": "proved",
   "theorems": [
    "OniComb.Toys.c123_only_mentioned",
    "OniComb.Toys.c123_variables"
   ],
   "note": ""
  },
  {
   "property": "C124",
   "status": "proved",
   "theorems": [
    "OniComb.Toys.c124_rename"
   ],
   "note": ""
  },
  {
   "property": "C125",
   "status": "partial",
   "theorems": [
    "OniComb.Toys.c125_caller_violated",
    "OniComb.Toys.c125_program_violated",
    "OniComb.Toys.c125_call_partial"
   ],
   "note": "Violated for every function whose body reads a variable that the caller sees. Proved: if the caller sees none of the variables that occur in the functions, a call does what the body does where no variable is visible."
  },
  {
   "property": "C126",
   "status": "partial",
   "theorems": [
    "OniComb.Hocon.c126_get",
    "OniComb.Hocon.c126_resolve",
    "OniComb.Hocon.c126_expand_partial",
    "OniComb.Hocon.c126_load_partial",
    "OniComb.Hocon.c126_load_violated"
   ],
   "note": "Violated if a dotted key is the beginning of another one (the order of the map decides whether a.b is a boolean or an object). Proved for all other documents, with includes whose files load alike; lookup and replacement of references do not depend on the order at all."
  },
  {
   "property": "C127",
   "status": "partial",
   "theorems": [
    "OniComb.Toys.c127_reached",
    "OniComb.Toys.c127_unused",
    "OniComb.Toys.c127_swap",
    "OniComb.Toys.c127_swap_global",
    "OniComb.Toys.c127_order_partial",
    "OniComb.Toys.c127_last",
    "OniComb.Toys.c127_global_violated",
    "OniComb.Toys.c127_order_violated"
   ],
   "note": "Violated for every program that begins with a global variable whose expression is a call. Proved: any order of functions with different names, moves of functions over functions and over global variables that do not call them, unused functions left out, only reached functions matter."
  },
  {
   "property": "C128",
   "status": "proved",
   "theorems": [
    "OniComb.c128_twins",
    "OniComb.c128_recursive",
    "OniComb.c128_or",
    "OniComb.c128_andThen",
    "OniComb.c128_skip",
    "OniComb.c128_flatMap",
    "OniComb.c128_opt",
    "OniComb.c128_attempt_peek",
    "OniComb.c128_filter",
    "OniComb.c128_repeat",
    "OniComb.c128_many",
    "OniComb.c128_forget",
    "OniComb.c128_chain"
   ],
   "note": ""
  },
  {
   "property": "C129",
   "status": "proved",
   "theorems": [
    "OniComb.Peg.c129_success",
    "OniComb.Peg.c129_failure",
    "OniComb.Peg.c129_stable",
    "OniComb.Peg.c129_unique",
    "OniComb.Peg.c129_endless",
    "OniComb.Peg.c129_left_recursion"
   ],
   "note": ""
  },
  {
   "property": "C130",
   "status": "proved",
   "theorems": [
    "OniComb.Peg.c130_answers",
    "OniComb.Peg.c130_total",
    "OniComb.Peg.c130_idle"
   ],
   "note": ""
  },
  {
   "property": "C131",
   "status": "proved",
   "theorems": [
    "OniComb.Peg.c131_agree",
    "OniComb.Peg.c131_reads",
    "OniComb.Peg.c131_exact",
    "OniComb.Peg.c131_lost",
    "OniComb.Peg.c131_text_lost",
    "OniComb.Peg.c131_plus"
   ],
   "note": ""
  },
  {
   "property": "C132",
   "status": "proved",
   "theorems": [
    "OniComb.Toys.c132_unique",
    "OniComb.Toys.c132_ends",
    "OniComb.Toys.c132_wrong",
    "OniComb.Toys.c132_forever",
    "OniComb.Toys.c132_text",
    "OniComb.Toys.c132_missing"
   ],
   "note": ""
  },
  {
   "property": "C133",
   "status": "proved",
   "theorems": [
    "OniComb.Toys.c133_type",
    "OniComb.Toys.c133_wrong"
   ],
   "note": ""
  },
  {
   "property": "C134",
   "status": "proved",
   "theorems": [
    "OniComb.Toys.c134_ends",
    "OniComb.Toys.c134_recursion",
    "OniComb.Toys.c134_counter"
   ],
   "note": ""
  },
  {
   "property": "C135",
   "status": "proved",
   "theorems": [
    "OniComb.Peg.c135_accepts",
    "OniComb.Peg.c135_rejects",
    "OniComb.Peg.c135_attempt",
    "OniComb.Peg.c135_reads",
    "OniComb.Peg.c135_sound",
    "OniComb.Peg.c135_unambiguous",
    "OniComb.Peg.c135_hidden",
    "OniComb.Peg.c135_greedy"
   ],
   "note": ""
  },
  {
   "property": "C136",
   "status": "proved",
   "theorems": [
    "OniComb.Operators.c136_language",
    "OniComb.Operators.c136_answers",
    "OniComb.Operators.c136_unambiguous",
    "OniComb.Operators.c136_print"
   ],
   "note": ""
  },
  {
   "property": "C137",
   "status": "partial",
   "theorems": [
    "OniComb.c137_runs",
    "OniComb.c137_once_partial",
    "OniComb.c137_bound_partial",
    "OniComb.c137_once_violated",
    "OniComb.c137_memory"
   ],
   "note": "The code violates it: the address of the state is part of the key, so that the wrapped parser may run at every call at one place (c137_once_violated, for every parser, place and number of calls). Proved: exactly which calls run it, at most once for each address and offset, the bound this gives, and that the map keeps an entry for every run that returned."
  },
  {
   "property": "C138",
   "status": "partial",
   "theorems": [
    "OniComb.Peg.c138_unique",
    "OniComb.Peg.c138_position_partial",
    "OniComb.Peg.c138_not_late",
    "OniComb.Peg.c138_hidden_violated",
    "OniComb.Peg.c138_position_violated"
   ],
   "note": "The code violates it where something longer than an element is repeated or left out, for `of_many1`, `seq` and sequences written with `+` (c138_hidden_violated, c138_position_violated). Proved for LL(1) grammars of single elements, `flat_map`, `|`, `lazy`, `of_many0` and `opt` of single elements; and for all grammars, that the elements before the displayed one are the beginning of a text."
  },
  {
   "property": "C139",
   "status": "proved",
   "theorems": [
    "OniComb.Peg.c139_clock",
    "OniComb.Peg.c139_linear_clock",
    "OniComb.Peg.c139_exponential_clock",
    "OniComb.Peg.c139_counts",
    "OniComb.Peg.c139_linear",
    "OniComb.Peg.c139_exponential"
   ],
   "note": ""
  },
  {
   "property": "C140",
   "status": "proved",
   "theorems": [
    "OniComb.Toys.c140_inside",
    "OniComb.Toys.c140_program",
    "OniComb.Toys.c140_parentheses",
    "OniComb.Toys.c140_fold",
    "OniComb.Toys.c140_then",
    "OniComb.Toys.c140_else",
    "OniComb.Toys.c140_unroll",
    "OniComb.Toys.c140_single",
    "OniComb.Toys.c140_unused",
    "OniComb.Toys.c140_braces",
    "OniComb.Toys.c140_commute",
    "OniComb.Toys.c140_effects"
   ],
   "note": ""
  },
  {
   "property": "C141",
   "status": "proved",
   "theorems": [
    "OniComb.c141_anywhere",
    "OniComb.c141_parse",
    "OniComb.c141_recursive",
    "OniComb.c141_errors",
    "OniComb.c141_elements",
    "OniComb.c141_ascii",
    "OniComb.c141_ascii_needed"
   ],
   "note": ""
  },
  {
   "property": "C142",
   "status": "partial",
   "theorems": [
    "OniComb.c142_appended",
    "OniComb.c142_parse",
    "OniComb.c142_degrees",
    "OniComb.c142_elements",
    "OniComb.c142_or",
    "OniComb.c142_sequence",
    "OniComb.c142_flat_map",
    "OniComb.c142_values",
    "OniComb.c142_attempt",
    "OniComb.c142_filter",
    "OniComb.c142_predicates",
    "OniComb.c142_repeat",
    "OniComb.c142_recursive",
    "OniComb.c142_take_till",
    "OniComb.c142_json_number",
    "OniComb.c142_json_number_sharp",
    "OniComb.c142_take_while_violated",
    "OniComb.c142_repeat_violated",
    "OniComb.c142_or_violated"
   ],
   "note": "Violated by take_while0 and take_while1 (they look at the whole text), by repetitions of parts of any length and by alternatives that begin with a sequence written with `+` or with `attempt` (c142_take_while_violated, c142_repeat_violated, c142_or_violated). Proved for elements, literals, take, take_till, sequences, flat_map, alternatives, options and repetitions of parts whose failure is decided within k elements, predicates and recursion."
  },
  {
   "property": "C143",
   "status": "partial",
   "theorems": [
    "OniComb.Crond.c143_equivalence",
    "OniComb.Crond.c143_schedule",
    "OniComb.Crond.c143_spelling",
    "OniComb.Crond.c143_order_partial",
    "OniComb.Crond.c143_values_partial",
    "OniComb.Crond.c143_ranges",
    "OniComb.Crond.c143_lists",
    "OniComb.Crond.c143_range_values",
    "OniComb.Crond.c143_join",
    "OniComb.Crond.c143_star",
    "OniComb.Crond.c143_weekday_violated",
    "OniComb.Crond.c143_step_violated",
    "OniComb.Crond.c143_order_violated"
   ],
   "note": "Violated in the weekday field, where `*`, `1-7` and `*/1` differ (it is compared with the minute), in the day and month fields, where `*/k` counts from 0 and `1-31/k` from 1, and by steps of 0, with which the order of a list decides whether evaluation panics. Proved for all other fields: numeric ends, steps other than 0, no `*/k` for days and months, no `*` for weekdays; spelling and trailing commas without any restriction; order and repetitions for lists without a zero step."
  },
  {
   "property": "C144",
   "status": "proved",
   "theorems": [
    "OniComb.Json.Counting.c144_counts",
    "OniComb.Json.Counting.c144_char",
    "OniComb.Json.Counting.c144_byte",
    "OniComb.Json.Counting.c144_least_char",
    "OniComb.Json.Counting.c144_least_byte",
    "OniComb.Json.Ticking.c144_clock_char",
    "OniComb.Json.Ticking.c144_clock_byte"
   ],
   "note": ""
  },
  {
   "property": "C145",
   "status": "partial",
   "theorems": [
    "OniComb.Calc.Counting.c145_counts",
    "OniComb.Calc.Counting.c145_runs_linear_partial",
    "OniComb.Calc.Counting.c145_quadratic_partial",
    "OniComb.Calc.Counting.c145_ones_violated",
    "OniComb.Calc.Counting.c145_linear_violated",
    "OniComb.Calc.Ticking.c145_clock_partial",
    "OniComb.Calc.Ticking.c145_clock_violated"
   ],
   "note": "Violated: `regex` copies the whole rest of the text whenever it is run, so that a sum of k+1 ones takes at least k*k steps (c145_ones_violated) and no factor suffices for all texts that are read (c145_linear_violated). Proved: the number of runs of parsers, copying aside, is at most 10 times the length and one more, for every text; with copying at most (length+10)*(length+1)."
  },
  {
   "property": "C146",
   "status": "proved",
   "theorems": [
    "OniComb.Crond.CacheTicking.c146_cached",
    "OniComb.Crond.Counting.c146_counts",
    "OniComb.Crond.Counting.c146_linear",
    "OniComb.Crond.Counting.c146_least",
    "OniComb.Crond.Ticking.c146_clock"
   ],
   "note": ""
  },
  {
   "property": "C147",
   "status": "proved",
   "theorems": [
    "OniComb.Uri.Counting.c147_counts",
    "OniComb.Uri.Counting.c147_linear",
    "OniComb.Uri.Counting.c147_least",
    "OniComb.Uri.Ticking.c147_clock"
   ],
   "note": ""
  },
  {
   "property": "C148",
   "status": "proved",
   "theorems": [
    "OniComb.Stateful.Ticking.c148_cost",
    "OniComb.Stateful.Ticking.c148_text",
    "OniComb.Stateful.Ticking.c148_found"
   ],
   "note": ""
  },
  {
   "property": "C149",
   "status": "partial",
   "theorems": [
    "OniComb.Hocon.Counting.c149_document_partial",
    "OniComb.Hocon.Counting.c149_comments_partial",
    "OniComb.Hocon.Counting.c149_counts",
    "OniComb.Hocon.Counting.c149_lines_violated",
    "OniComb.Hocon.Counting.c149_refused_violated",
    "OniComb.Hocon.Counting.c149_exponential_violated",
    "OniComb.Hocon.Ticking.c149_clock_violated",
    "OniComb.Hocon.Ticking.c149_clock_refused_violated",
    "OniComb.Hocon.Ticking.c149_clock_document_partial"
   ],
   "note": "Violated: a document of k+1 lines `a={` (4*(k+1) bytes, nothing closed) is accepted, every brace being a string, and takes at least 2^k steps (c149_lines_violated for any keys, c149_exponential_violated, c149_clock_violated): an object that turns out not to be closed is read again as a string, and the lines behind it are read again at each level. A document with k+1 nested objects, properly closed, is refused only after 2^k steps if the innermost one holds a line that is no property for the parser, such as `include \"file\"` or `list += value` (c149_refused_violated, c149_clock_refused_violated). Proved: a document of definitions on lines of their own, with objects closed on lines of their own, nested to any depth, is accepted within K*(length+1)^4 steps, K the same for all documents (c149_document_partial, with comments c149_comments_partial, c149_clock_document_partial); the exponent is not the best one, and other layouts have no upper bound here. Proved besides: the counted parser is the parser, and the steps are what the clock shows."
  },
  {
   "property": "C150",
   "status": "proved",
   "theorems": [
    "OniComb.Plain.c150_polynomial",
    "OniComb.Plain.c150_exponent",
    "OniComb.Plain.c150_exponent_needed"
   ],
   "note": ""
  },
  {
   "property": "C151",
   "status": "proved",
   "theorems": [
    "OniComb.Operators.c151_linear",
    "OniComb.Operators.c151_textbook"
   ],
   "note": ""
  },
  {
   "property": "C152",
   "status": "partial",
   "theorems": [
    "OniComb.Toys.Calls.c152_open_blocks_violated"
   ],
   "note": "Violated: with d blocks opened one inside another by `if(a)if(b)x;else{` and none closed, `program()` calls `r#if` at least 2^d - 1 times, on a text whose length grows by a constant with d (c152_open_blocks_violated, for all conditions, all statements without `}` and all names of the function). The `else` is tried for the inner `if`, its block turns out to be open, and the same block is read again for the outer `if`. No upper bound is proved, neither for all texts nor for closed programs."
  },
  {
   "property": "C153",
   "status": "partial",
   "theorems": [
    "OniComb.Depth.c153_flat_partial",
    "OniComb.Depth.c153_linear_partial",
    "OniComb.Depth.c153_chain_violated",
    "OniComb.Depth.c153_chainRight_violated",
    "OniComb.Depth.c153_restRight_partial"
   ],
   "note": "Violated for `chain_left1`: every run over k operators in a row nests at least 2k + 3 calls (c153_chain_violated), and so for `chain_right1`, which runs the same closures (c153_chainRight_violated); `rest_right1` is flat (c153_restRight_partial). Without chains the bound holds for texts of every length (c153_flat_partial); with chains, for parsers without recursion, the depth is at most linear in the length (c153_linear_partial). Counted are the closures of parsers, not the bytes of the native stack nor the frames of other functions that they call; `flat_map` is covered where all the parsers that it may choose have the same bound. Recursive grammars are left out."
  }
 ]
}