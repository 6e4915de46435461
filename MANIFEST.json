{
 "claims": [
  {
   "property": "C01",
   "status": "proved",
   "theorems": [
    "SM.Props.C01_factorial_fold",
    "SM.Props.C01_factorial_value",
    "SM.Props.C01_factorial_negative",
    "SM.Props.C01_factorial_overflow",
    "SM.Props.C01_factorial_total"
   ],
   "note": ""
  },
  {
   "property": "C02",
   "status": "proved",
   "theorems": [
    "SM.Props.C02_fibonacci_fold",
    "SM.Props.C02_fibonacci_fast",
    "SM.Props.C02_fast_eq_fold",
    "SM.Props.C02_fibonacci_value",
    "SM.Props.C02_fibonacci_overflow"
   ],
   "note": ""
  },
  {
   "property": "C03",
   "status": "proved",
   "theorems": [
    "SM.Props.C03_fibonacci_negative_even",
    "SM.Props.C03_fibonacci_negative_odd",
    "SM.Props.C03_fibonacci_negative_wrong",
    "SM.Props.C03_witness"
   ],
   "note": "The code violates the property at every negative index; the theorems give its exact behaviour and the negation."
  },
  {
   "property": "C04",
   "status": "proved",
   "theorems": [
    "SM.Props.C04_fibonacci_work",
    "SM.Props.C04_fibonacci_calls"
   ],
   "note": ""
  },
  {
   "property": "C05",
   "status": "proved",
   "theorems": [
    "SM.Props.C05_power_value",
    "SM.Props.C05_power_trivial_base",
    "SM.Props.C05_power_zero_zero",
    "SM.Props.C05_power_overflow",
    "SM.Props.C05_power_zero_exponent",
    "SM.Props.C05_power_one_exponent",
    "SM.Props.C05_power_correct_iff"
   ],
   "note": "Exact set of arguments with a right answer; a^0 and a^1 are wrong in the code."
  },
  {
   "property": "C06",
   "status": "proved",
   "theorems": [
    "SM.Props.C06_extended_gcd",
    "SM.Props.C06_coefficient_bound"
   ],
   "note": ""
  },
  {
   "property": "C07",
   "status": "proved",
   "theorems": [
    "SM.Props.C07_inverse_exists",
    "SM.Props.C07_inverse_sound",
    "SM.Props.C07_inverse_range",
    "SM.Props.C07_inverse_zero_modulus"
   ],
   "note": ""
  },
  {
   "property": "C08",
   "status": "proved",
   "theorems": [
    "SM.Props.C08_division_panic",
    "SM.Props.C08_division_exists",
    "SM.Props.C08_division_solves_swapped",
    "SM.Props.C08_division_wrong"
   ],
   "note": "Presence test right, answer wrong: the code solves the swapped congruence (witness theorem)."
  },
  {
   "property": "C09",
   "status": "proved",
   "theorems": [
    "SM.Props.C09_is_coprime",
    "SM.Props.C09_coprime_iff_inverse"
   ],
   "note": ""
  },
  {
   "property": "C10",
   "status": "proved",
   "theorems": [
    "SM.Props.C10_crt_sound"
   ],
   "note": ""
  },
  {
   "property": "C11",
   "status": "proved",
   "theorems": [
    "SM.Props.C11_crt_complete",
    "SM.Props.C11_crt_length",
    "SM.Props.C11_crt_empty",
    "SM.Props.C11_crt_zero_modulus"
   ],
   "note": ""
  },
  {
   "property": "C12",
   "status": "proved",
   "theorems": [
    "SM.Props.C12_prime_sum"
   ],
   "note": ""
  },
  {
   "property": "C13",
   "status": "proved",
   "theorems": [
    "SM.Props.C13_builtin",
    "SM.Props.C13_builtin_checked",
    "SM.Props.C13_builtin_wrong",
    "SM.Props.C13_builtin_other",
    "SM.Props.C13_prime_sum_zero",
    "SM.Props.C13_prime_sum_checked_overflow",
    "SM.Props.C13_prime_sum_assertion",
    "SM.Props.C13_prime_sum_release",
    "SM.Props.C13_prime_sum_release_exact",
    "SM.Props.C13_prime_sum_release_wrong",
    "SM.Props.C13_prime_sum_negative",
    "SM.Props.C13_prime_sum_huge",
    "SM.Props.C13_prime_sum_untabulated",
    "SM.Props.C13_prime_sum_i_zero",
    "SM.Props.C13_prime_sum_i_checked"
   ],
   "note": "Violated by the code at 0 and from 2^32 on; exact behaviour in both build modes."
  },
  {
   "property": "C14",
   "status": "partial",
   "theorems": [
    "SM.Props.C14_prime_count_size",
    "SM.Props.C14_prime_sum_size",
    "SM.Props.C14_parity",
    "SM.Props.C14_prime_count_domain",
    "SM.Props.C14_prime_count_rejects",
    "SM.Props.C14_prime_count_values_partial",
    "SM.Props.C14_prime_sum_values_partial"
   ],
   "note": "Dispatch proved for all integers; the tabulated values are proved to be the true counts and sums up to 10^7; of the larger entries it is proved that counts are within a factor 2 and sums within a factor 6 of the true ones, and that both are right or wrong in the same parity. Missing: the exact larger values."
  },
  {
   "property": "C15",
   "status": "proved",
   "theorems": [
    "SM.Props.C15_order_lawful",
    "SM.Props.C15_equal_iff_eq",
    "SM.Props.C15_eq_equivalence",
    "SM.Props.C15_decimal_by_value",
    "SM.Props.C15_kinds_first",
    "SM.Props.C15_kinds_listed",
    "SM.Props.C15_symbol_kinds_listed"
   ],
   "note": ""
  },
  {
   "property": "C16",
   "status": "proved",
   "theorems": [
    "SM.Props.C16_text_round_trip",
    "SM.Props.C16_symbol_round_trip",
    "SM.Props.C16_injective"
   ],
   "note": ""
  },
  {
   "property": "C17",
   "status": "proved",
   "theorems": [
    "SM.Props.C17_arguments",
    "SM.Props.C17_order"
   ],
   "note": ""
  },
  {
   "property": "C18",
   "status": "proved",
   "theorems": [
    "SM.Props.C18_display_iff_prints",
    "SM.Props.C18_unary_pattern",
    "SM.Props.C18_multiary_pattern"
   ],
   "note": ""
  },
  {
   "property": "C19",
   "status": "proved",
   "theorems": [
    "SM.Props.C19_round_trip",
    "SM.Props.C19_accepted",
    "SM.Props.C19_sums_collide",
    "SM.Props.C19_powers_collide",
    "SM.Props.C19_quotients_collide",
    "SM.Props.C19_prefixes_collide",
    "SM.Props.C19_suffixes_collide",
    "SM.Props.C19_factorials_collide",
    "SM.Props.C19_negative"
   ],
   "note": "Exact characterisation (iff) for the stated class; n-ary products, calls (printing panics), strings (printed without quotes) and negative integer literals are outside it, the last one is settled by C19_negative."
  },
  {
   "property": "C20",
   "status": "proved",
   "theorems": [
    "SM.Props.C20_rewrite",
    "SM.Props.C20_atoms_evaluate_to_themselves",
    "SM.Props.C20_result_is_atom",
    "SM.Props.C20_results_are_final"
   ],
   "note": ""
  },
  {
   "property": "C21",
   "status": "proved",
   "theorems": [
    "SM.Props.C21_product",
    "SM.Props.C21_power",
    "SM.Props.C21_power_out_of_range",
    "SM.Props.C21_power_wrong_witness",
    "SM.Props.C21_plus",
    "SM.Props.C21_add_unimplemented",
    "SM.Props.C21_factorial",
    "SM.Props.C21_fibonacci"
   ],
   "note": "Violated by the code for out-of-range exponents and for '+'; both are proved as stated."
  },
  {
   "property": "C22",
   "status": "proved",
   "theorems": [
    "SM.Props.C22_outcome_independent_of_history",
    "SM.Props.C22_sessions_agree",
    "SM.Props.C22_records_are_kept"
   ],
   "note": ""
  },
  {
   "property": "C23",
   "status": "proved",
   "theorems": [
    "SM.Props.C23_session_state",
    "SM.Props.C23_nothing_beyond_index"
   ],
   "note": ""
  },
  {
   "property": "C24",
   "status": "proved",
   "theorems": [
    "SM.Props.C24_last",
    "SM.Props.C24_last_is_pure"
   ],
   "note": ""
  },
  {
   "property": "C25",
   "status": "proved",
   "theorems": [
    "SM.Props.C25_answered_iff",
    "SM.Props.C25_no_panic_all_answered",
    "SM.Props.C25_witness_tex_first",
    "SM.Props.C25_witness_empty_input"
   ],
   "note": "The code violates the headline claim; the exact behaviour (answered iff no earlier panic) and two poisoning witnesses are proved, relative to the parser and the TeX renderer as parameters."
  },
  {
   "property": "C26",
   "status": "proved",
   "theorems": [
    "SM.Props.C26_forward_panics_iff",
    "SM.Props.C26_result_printable"
   ],
   "note": ""
  },
  {
   "property": "C27",
   "status": "proved",
   "theorems": [
    "SM.Props.C27_first_last",
    "SM.Props.C27_first_last_empty",
    "SM.Props.C27_length",
    "SM.Props.C27_length_ascii"
   ],
   "note": ""
  },
  {
   "property": "C28",
   "status": "proved",
   "theorems": [
    "SM.Props.C28_tex_panics_iff",
    "SM.Props.C28_display_panics_iff"
   ],
   "note": ""
  },
  {
   "property": "C29",
   "status": "proved",
   "theorems": [
    "SM.Props.C29_tex_braces_balanced",
    "SM.Props.C29_unbalanced_string"
   ],
   "note": ""
  },
  {
   "property": "C30",
   "status": "proved",
   "theorems": [
    "SM.Props.C30_expression_height",
    "SM.Props.C30_parameter_height",
    "SM.Props.C30_no_stretched_delimiters"
   ],
   "note": ""
  },
  {
   "property": "C31",
   "status": "proved",
   "theorems": [
    "SM.Props.C31_call",
    "SM.Props.C31_call_spine",
    "SM.Props.C31_atoms",
    "SM.Props.C31_namespace_lost"
   ],
   "note": ""
  },
  {
   "property": "C32",
   "status": "proved",
   "theorems": [
    "SM.Props.C32_head_call",
    "SM.Props.C32_head_iterate",
    "SM.Props.C32_head_atom",
    "SM.Props.C32_head_kind"
   ],
   "note": ""
  },
  {
   "property": "C33",
   "status": "proved",
   "theorems": [
    "SM.Props.C33_parse_terminates",
    "SM.Props.C33_fuel_irrelevant"
   ],
   "note": ""
  },
  {
   "property": "C34",
   "status": "proved",
   "theorems": [
    "SM.Props.C34_derivation",
    "SM.Props.C34_spans"
   ],
   "note": ""
  },
  {
   "property": "C35",
   "status": "proved",
   "theorems": [
    "SM.Props.C35_shadowed_never_parsed"
   ],
   "note": ""
  },
  {
   "property": "C36",
   "status": "proved",
   "theorems": [
    "SM.Props.C36_split",
    "SM.Props.C36_split_unique",
    "SM.Props.C36_left",
    "SM.Props.C36_powers",
    "SM.Props.C36_grouping"
   ],
   "note": "Stated on texts and on the pairs that the grammar hands to the expression builder."
  },
  {
   "property": "C37",
   "status": "proved",
   "theorems": [
    "SM.Props.C37_texts",
    "SM.Props.C37_answers",
    "SM.Props.C37_numbers",
    "SM.Props.C37_dropped",
    "SM.Props.C37_dropping_operators",
    "SM.Props.C37_nothing_dropped"
   ],
   "note": "Violated by operators outside the precedence table; exact description and the positive case. Stated on the pairs that the grammar hands to the expression builder."
  },
  {
   "property": "C38",
   "status": "proved",
   "theorems": [
    "SM.Props.C38_integers",
    "SM.Props.C38_numerals",
    "SM.Props.C38_leading_zeros"
   ],
   "note": ""
  },
  {
   "property": "C39",
   "status": "proved",
   "theorems": [
    "SM.Props.C39_radix",
    "SM.Props.C39_underscore"
   ],
   "note": "A leading underscore panics: proved for all literals."
  },
  {
   "property": "C40",
   "status": "proved",
   "theorems": [
    "SM.Props.C40_decimals",
    "SM.Props.C40_leading_zero",
    "SM.Props.C40_leading_zeros"
   ],
   "note": ""
  },
  {
   "property": "C41",
   "status": "proved",
   "theorems": [
    "SM.Props.C41_strings",
    "SM.Props.C41_tagged",
    "SM.Props.C41_blocks",
    "SM.Props.C41_tagged_blocks",
    "SM.Props.C41_plain_block"
   ],
   "note": ""
  },
  {
   "property": "C42",
   "status": "proved",
   "theorems": [
    "SM.Props.C42_identifiers",
    "SM.Props.C42_paths",
    "SM.Props.C42_trueish",
    "SM.Props.C42_letter",
    "SM.Props.C42_constants",
    "SM.Props.C42_naming",
    "SM.Props.C42_control",
    "SM.Props.C42_return",
    "SM.Props.C42_symbols",
    "SM.Props.C42_words",
    "SM.Props.C42_exact"
   ],
   "note": "Violations for identifiers that begin with a reserved word are witnesses."
  },
  {
   "property": "C43",
   "status": "proved",
   "theorems": [
    "SM.Props.C43_products"
   ],
   "note": ""
  },
  {
   "property": "C44",
   "status": "proved",
   "theorems": [
    "SM.Props.C44_whitespace",
    "SM.Props.C44_parentheses",
    "SM.Props.C44_spaced"
   ],
   "note": "Inside parentheses the code violates the property, proved for all texts (C44_spaced)."
  },
  {
   "property": "C45",
   "status": "proved",
   "theorems": [
    "SM.Props.C45_inside_out",
    "SM.Props.C45_panics",
    "SM.Props.C45_derivative"
   ],
   "note": "The suffix ' is a witness; the other panics are proved for all terms."
  },
  {
   "property": "C46",
   "status": "proved",
   "theorems": [
    "SM.Props.C46_first",
    "SM.Props.C46_blank",
    "SM.Props.C46_any",
    "SM.Props.C46_let"
   ],
   "note": ""
  },
  {
   "property": "C47",
   "status": "proved",
   "theorems": [
    "SM.Props.C47_positions",
    "SM.Props.C47_start_before_end"
   ],
   "note": ""
  },
  {
   "property": "C48",
   "status": "proved",
   "theorems": [
    "SM.Props.C48_only_target",
    "SM.Props.C48_untouched",
    "SM.Props.C48_success",
    "SM.Props.C48_crash",
    "SM.Props.C48_panic",
    "SM.Props.C48_possible"
   ],
   "note": "The serialiser of the dependency wolfram_wxf is a parameter; no concurrent writers."
  },
  {
   "property": "C49",
   "status": "proved",
   "theorems": [
    "SM.Props.C49_dot"
   ],
   "note": ""
  },
  {
   "property": "C50",
   "status": "proved",
   "theorems": [
    "SM.Props.C50_index",
    "SM.Props.C50_spans"
   ],
   "note": ""
  },
  {
   "property": "C51",
   "status": "proved",
   "theorems": [
    "SM.Props.C51_missing",
    "SM.Props.C51_operands",
    "SM.Props.C51_error_translation",
    "SM.Props.C51_error_translation_injective",
    "SM.Props.C51_factorial_errors"
   ],
   "note": ""
  },
  {
   "property": "C52",
   "status": "proved",
   "theorems": [
    "SM.Props.C52_back",
    "SM.Props.C52_index"
   ],
   "note": ""
  },
  {
   "property": "C53",
   "status": "proved",
   "theorems": [
    "SM.Props.C53_expressions"
   ],
   "note": ""
  },
  {
   "property": "C54",
   "status": "proved",
   "theorems": [
    "SM.Props.C54_expressions",
    "SM.Props.C54_literals",
    "SM.Props.C54_times",
    "SM.Props.C54_power",
    "SM.Props.C54_power_large",
    "SM.Props.C54_operators",
    "SM.Props.C54_juxtaposition",
    "SM.Props.C54_products",
    "SM.Props.C54_factorial",
    "SM.Props.C54_factorial_other",
    "SM.Props.C54_prefixes",
    "SM.Props.C54_calls",
    "SM.Props.C54_blank",
    "SM.Props.C54_page",
    "SM.Props.C54_numbers"
   ],
   "note": "End to end: session, parser and evaluator together; the violations are theorems of their own."
  },
  {
   "property": "C55",
   "status": "proved",
   "theorems": [
    "SM.Props.C55_brackets",
    "SM.Props.C55_unbalanced_refused",
    "SM.Props.C55_counts"
   ],
   "note": ""
  },
  {
   "property": "C56",
   "status": "proved",
   "theorems": [
    "SM.Props.C56_answers_are_readings"
   ],
   "note": "Stated for the beginning of the text that the answer comes from; the statements after it do not enter the answer."
  },
  {
   "property": "C57",
   "status": "proved",
   "theorems": [
    "SM.Props.C57_shape",
    "SM.Props.C57_panics",
    "SM.Props.C57_no_negative_answer"
   ],
   "note": ""
  },
  {
   "property": "C58",
   "status": "proved",
   "theorems": [
    "SM.Props.C58_nested_indices",
    "SM.Props.C58_unfinished_calls",
    "SM.Props.C58_accepted",
    "SM.Props.C58_refused"
   ],
   "note": "Counts calls of parser functions; time per call is not modelled."
  },
  {
   "property": "C59",
   "status": "proved",
   "theorems": [
    "SM.Props.C59_generated",
    "SM.Props.C59_rule_pairs",
    "SM.Props.C59_rule_error",
    "SM.Props.C59_accepts",
    "SM.Props.C59_rejects",
    "SM.Props.C59_decided"
   ],
   "note": "StringText, PEEK and POP are excluded as start rules: they look at the parser's stack, which is empty at the start, and pest panics."
  },
  {
   "property": "C60",
   "status": "proved",
   "theorems": [
    "SM.Props.C60_panics",
    "SM.Props.C60_nameless",
    "SM.Props.C60_statements",
    "SM.Props.C60_pieces"
   ],
   "note": ""
  },
  {
   "property": "C61",
   "status": "proved",
   "theorems": [
    "SM.Props.C61_clicks",
    "SM.Props.C61_errors_end_the_page",
    "SM.Props.C61_fine_iff",
    "SM.Props.C61_answered",
    "SM.Props.C61_unanswered",
    "SM.Props.C61_sums_end_the_page",
    "SM.Props.C61_offered"
   ],
   "note": "The violations are theorems of their own."
  },
  {
   "property": "C62",
   "status": "proved",
   "theorems": [
    "SM.Props.C62_atoms",
    "SM.Props.C62_named",
    "SM.Props.C62_call",
    "SM.Props.C62_list",
    "SM.Props.C62_infix",
    "SM.Props.C62_operands_lost",
    "SM.Props.C62_brackets_lost",
    "SM.Props.C62_options_lost"
   ],
   "note": "The violations are theorems of their own; which expressions have no TeX form at all is C28."
  },
  {
   "property": "C63",
   "status": "proved",
   "theorems": [
    "SM.Props.C63_integers",
    "SM.Props.C63_decimals",
    "SM.Props.C63_unique",
    "SM.Props.C63_injective"
   ],
   "note": ""
  },
  {
   "property": "C64",
   "status": "proved",
   "theorems": [
    "SM.Props.C64_exact",
    "SM.Props.C64_nothing_nested",
    "SM.Props.C64_right",
    "SM.Props.C64_worth_unique",
    "SM.Props.C64_numbers",
    "SM.Props.C64_large_powers",
    "SM.Props.C64_deviations"
   ],
   "note": "The violations are theorems of their own."
  },
  {
   "property": "C65",
   "status": "proved",
   "theorems": [
    "SM.Props.C65_rendering",
    "SM.Props.C65_leading",
    "SM.Props.C65_file_name",
    "SM.Props.C65_rejected",
    "SM.Props.C65_value",
    "SM.Props.C65_answers",
    "SM.Props.C65_page"
   ],
   "note": ""
  },
  {
   "property": "C66",
   "status": "proved",
   "theorems": [
    "SM.Props.C66_alphabet",
    "SM.Props.C66_begin",
    "SM.Props.C66_end",
    "SM.Props.C66_operators",
    "SM.Props.C66_equals",
    "SM.Props.C66_point",
    "SM.Props.C66_colon",
    "SM.Props.C66_neighbours",
    "SM.Props.C66_borders",
    "SM.Props.C66_unknown_refused",
    "SM.Props.C66_unfinished_refused",
    "SM.Props.C66_operators_refused",
    "SM.Props.C66_foreign_refused",
    "SM.Props.C66_arrow_refused",
    "SM.Props.C66_pipe_refused",
    "SM.Props.C66_assign_refused",
    "SM.Props.C66_range_refused"
   ],
   "note": ""
  },
  {
   "property": "C67",
   "status": "proved",
   "theorems": [
    "SM.Props.C67_never",
    "SM.Props.C67_odd",
    "SM.Props.C67_even",
    "SM.Props.C67_only_comments",
    "SM.Props.C67_work"
   ],
   "note": ""
  },
  {
   "property": "C68",
   "status": "proved",
   "theorems": [
    "SM.Props.C68_line",
    "SM.Props.C68_semicolon",
    "SM.Props.C68_operator"
   ],
   "note": ""
  },
  {
   "property": "C69",
   "status": "proved",
   "theorems": [
    "SM.Props.C69_coefficient",
    "SM.Props.C69_divisor",
    "SM.Props.C69_sign"
   ],
   "note": ""
  },
  {
   "property": "C70",
   "status": "proved",
   "theorems": [
    "SM.Props.C70_panics"
   ],
   "note": ""
  },
  {
   "property": "C71",
   "status": "proved",
   "theorems": [
    "SM.Props.C71_beside",
    "SM.Props.C71_brackets",
    "SM.Props.C71_coefficient",
    "SM.Props.C71_answer"
   ],
   "note": ""
  },
  {
   "property": "C72",
   "status": "proved",
   "theorems": [
    "SM.Props.C72_again",
    "SM.Props.C72_numbers",
    "SM.Props.C72_names",
    "SM.Props.C72_not_again"
   ],
   "note": ""
  },
  {
   "property": "C73",
   "status": "proved",
   "theorems": [
    "SM.Props.C73_panics_iff"
   ],
   "note": ""
  },
  {
   "property": "C74",
   "status": "proved",
   "theorems": [
    "SM.Props.C74_work_bounded",
    "SM.Props.C74_work_polynomial"
   ],
   "note": ""
  },
  {
   "property": "C75",
   "status": "proved",
   "theorems": [
    "SM.Props.C75_panics",
    "SM.Props.C75_forgotten",
    "SM.Props.C75_else"
   ],
   "note": ""
  },
  {
   "property": "C76",
   "status": "proved",
   "theorems": [
    "SM.Props.C76_never"
   ],
   "note": ""
  },
  {
   "property": "C77",
   "status": "proved",
   "theorems": [
    "SM.Props.C77_work",
    "SM.Props.C77_table"
   ],
   "note": ""
  },
  {
   "property": "C78",
   "status": "proved",
   "theorems": [
    "SM.Props.C78_fib",
    "SM.Props.C78_digits",
    "SM.Props.C78_worst",
    "SM.Props.C78_inverse",
    "SM.Props.C78_crt"
   ],
   "note": ""
  },
  {
   "property": "C79",
   "status": "proved",
   "theorems": [
    "SM.Props.C79_export",
    "SM.Props.C79_texts",
    "SM.Props.C79_rule",
    "SM.Props.C79_collide"
   ],
   "note": ""
  },
  {
   "property": "C80",
   "status": "proved",
   "theorems": [
    "SM.Props.C80_bounded",
    "SM.Props.C80_flat",
    "SM.Props.C80_brackets",
    "SM.Props.C80_calls",
    "SM.Props.C80_sharp",
    "SM.Props.C80_wrapped",
    "SM.Props.C80_overflow"
   ],
   "note": ""
  },
  {
   "property": "C81",
   "status": "proved",
   "theorems": [
    "SM.Props.C81_printed",
    "SM.Props.C81_answers",
    "SM.Props.C81_large"
   ],
   "note": ""
  },
  {
   "property": "C82",
   "status": "proved",
   "theorems": [
    "SM.Props.C82_options",
    "SM.Props.C82_comment",
    "SM.Props.C82_backslash",
    "SM.Props.C82_exponent",
    "SM.Props.C82_caller",
    "SM.Props.C82_shebang"
   ],
   "note": ""
  },
  {
   "property": "C83",
   "status": "proved",
   "theorems": [
    "SM.Props.C83_work",
    "SM.Props.C83_large"
   ],
   "note": ""
  },
  {
   "property": "C84",
   "status": "proved",
   "theorems": [
    "SM.Props.C84_renaming",
    "SM.Props.C84_evaluation",
    "SM.Props.C84_exchange",
    "SM.Props.C84_after_zero"
   ],
   "note": ""
  },
  {
   "property": "C85",
   "status": "proved",
   "theorems": [
    "SM.Props.C85_substitution",
    "SM.Props.C85_after_dot"
   ],
   "note": ""
  },
  {
   "property": "C86",
   "status": "proved",
   "theorems": [
    "SM.Props.C86_round",
    "SM.Props.C86_settles",
    "SM.Props.C86_products",
    "SM.Props.C86_drifts",
    "SM.Props.C86_grows"
   ],
   "note": ""
  },
  {
   "property": "C87",
   "status": "proved",
   "theorems": [
    "SM.Props.C87_reported",
    "SM.Props.C87_inside",
    "SM.Props.C87_place",
    "SM.Props.C87_finished",
    "SM.Props.C87_before",
    "SM.Props.C87_unknown",
    "SM.Props.C87_closing",
    "SM.Props.C87_surplus",
    "SM.Props.C87_alien"
   ],
   "note": ""
  },
  {
   "property": "C88",
   "status": "proved",
   "theorems": [
    "SM.Props.C88_end",
    "SM.Props.C88_operator",
    "SM.Props.C88_bracket",
    "SM.Props.C88_moves"
   ],
   "note": ""
  },
  {
   "property": "C89",
   "status": "proved",
   "theorems": [
    "SM.Props.C89_named",
    "SM.Props.C89_sentence",
    "SM.Props.C89_listed",
    "SM.Props.C89_iff",
    "SM.Props.C89_operand",
    "SM.Props.C89_operator"
   ],
   "note": ""
  },
  {
   "property": "C90",
   "status": "proved",
   "theorems": [
    "SM.Props.C90_alike",
    "SM.Props.C90_rejected",
    "SM.Props.C90_value",
    "SM.Props.C90_answers",
    "SM.Props.C90_unify",
    "SM.Props.C90_crlf"
   ],
   "note": ""
  },
  {
   "property": "C91",
   "status": "proved",
   "theorems": [
    "SM.Props.C91_positions",
    "SM.Props.C91_crlf"
   ],
   "note": ""
  },
  {
   "property": "C92",
   "status": "proved",
   "theorems": [
    "SM.Props.C92_missing",
    "SM.Props.C92_absent",
    "SM.Props.C92_end"
   ],
   "note": ""
  },
  {
   "property": "C93",
   "status": "proved",
   "theorems": [
    "SM.Props.C93_sentence",
    "SM.Props.C93_place",
    "SM.Props.C93_crlf"
   ],
   "note": ""
  },
  {
   "property": "C94",
   "status": "proved",
   "theorems": [
    "SM.Props.C94_same",
    "SM.Props.C94_report",
    "SM.Props.C94_mended",
    "SM.Props.C94_typing",
    "SM.Props.C94_stays"
   ],
   "note": ""
  },
  {
   "property": "C95",
   "status": "proved",
   "theorems": [
    "SM.Props.C95_trailing",
    "SM.Props.C95_rejected",
    "SM.Props.C95_value",
    "SM.Props.C95_answers",
    "SM.Props.C95_around"
   ],
   "note": ""
  },
  {
   "property": "C96",
   "status": "proved",
   "theorems": [
    "SM.Props.C96_respaced",
    "SM.Props.C96_rejected",
    "SM.Props.C96_gap",
    "SM.Props.C96_value",
    "SM.Props.C96_answers"
   ],
   "note": ""
  },
  {
   "property": "C97",
   "status": "proved",
   "theorems": [
    "SM.Props.C97_comments",
    "SM.Props.C97_lines",
    "SM.Props.C97_behind",
    "SM.Props.C97_rejected",
    "SM.Props.C97_answers"
   ],
   "note": ""
  }
 ]
}