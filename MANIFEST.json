{
 "claims": [
  {
   "property": "C01",
   "status": "proved",
   "theorems": [
    "Pip.C01_scan_total",
    "Pip.C01_scan_bound"
   ],
   "note": "scan returns proper tokens plus one end marker, or IncompleteSyntax; the pass bound of the model is proved irrelevant."
  },
  {
   "property": "C02",
   "status": "proved",
   "theorems": [
    "Pip.C02_scan_lines"
   ],
   "note": "full statement"
  },
  {
   "property": "C03",
   "status": "proved",
   "theorems": [
    "Pip.C03_listing_rescans",
    "Pip.C03_leading_semicolon"
   ],
   "note": "full statement; the exception is shown necessary by C03_leading_semicolon."
  },
  {
   "property": "C04",
   "status": "proved",
   "theorems": [
    "Pip.C04_capital_runs",
    "Pip.C04_pip"
   ],
   "note": "full statement, in any following context; the exceptional run PIP is C04_pip."
  },
  {
   "property": "C05",
   "status": "proved",
   "theorems": [
    "Pip.C05_parse_total",
    "Pip.C05_parse_tokens",
    "Pip.C05_parse_budget"
   ],
   "note": ""
  },
  {
   "property": "C06",
   "status": "proved",
   "theorems": [
    "Pip.C06_bad_stays_bad",
    "Pip.C06_bad_text"
   ],
   "note": ""
  },
  {
   "property": "C07",
   "status": "proved",
   "theorems": [
    "Pip.C07_incomplete_completable",
    "Pip.C07_repl_no_dead_end",
    "Pip.C07_pattern_dead_end"
   ],
   "note": ""
  },
  {
   "property": "C08",
   "status": "proved",
   "theorems": [
    "Pip.C08_precedence",
    "Pip.C08_assoc_by_level"
   ],
   "note": ""
  },
  {
   "property": "C09",
   "status": "proved",
   "theorems": [
    "Pip.C09_tree_spells_tokens"
   ],
   "note": ""
  },
  {
   "property": "C10",
   "status": "proved",
   "theorems": [
    "Pip.C10_brace_truncates"
   ],
   "note": ""
  },
  {
   "property": "C11",
   "status": "proved",
   "theorems": [
    "Pip.C11_display_parses",
    "Pip.C11_display_roundtrip",
    "Pip.C11_display_fixpoint",
    "Pip.C11_display_fails_iff",
    "Pip.C11_display_evaluates",
    "Pip.C11_assign_counterexample",
    "Pip.C11_loop_counterexample",
    "Pip.C11_escaped_counterexample",
    "Pip.C11_name_counterexample",
    "Pip.C11_empty_counterexample"
   ],
   "note": "Functions written in a program, at any depth, and the program itself. Equality is up to parentheses around operands (Block.__eq__ compares trees, so the function read back is not == to the original if parentheses were added). Failure by the last literal is characterised exactly; the other ambiguous displays excluded by Faithful have counterexamples."
  },
  {
   "property": "C12",
   "status": "proved",
   "theorems": [
    "Pip.C12_index_string",
    "Pip.C12_index_list",
    "Pip.C12_index_range",
    "Pip.C12_index_range_zero",
    "Pip.C12_index_empty"
   ],
   "note": ""
  },
  {
   "property": "C13",
   "status": "proved",
   "theorems": [
    "Pip.C13_slice_window",
    "Pip.C13_slice_values",
    "Pip.C13_slice_plain"
   ],
   "note": ""
  },
  {
   "property": "C14",
   "status": "proved",
   "theorems": [
    "Pip.C14_members",
    "Pip.C14_same_observations",
    "Pip.C14_same_index",
    "Pip.C14_same_slice",
    "Pip.C14_same_membership",
    "Pip.C14_membership_deviation",
    "Pip.C14_infinite",
    "Pip.C14_infinite_negative"
   ],
   "note": ""
  },
  {
   "property": "C15",
   "status": "proved",
   "theorems": [
    "Pip.C15_scalar",
    "Pip.C15_others",
    "Pip.C15_integer"
   ],
   "note": ""
  },
  {
   "property": "C16",
   "status": "proved",
   "theorems": [
    "Pip.C16_integers_as_text",
    "Pip.C16_decimal"
   ],
   "note": ""
  },
  {
   "property": "C17",
   "status": "proved",
   "theorems": [
    "Pip.C17_reads",
    "Pip.C17_roundtrip",
    "Pip.C17_negative",
    "Pip.C17_exact",
    "Pip.C17_interpolation",
    "Pip.C17_pattern",
    "Pip.C17_unquotable"
   ],
   "note": "Texts of data are scanned, parsed and evaluated back: equal for all data without mixed texts and with canonical signed numbers; signed numbers and interpolated texts characterised. Patterns come back with all flags if every backslash in the regex is paired; C17_unquotable is a witness of a deviation."
  },
  {
   "property": "C18",
   "status": "proved",
   "theorems": [
    "Pip.C18_call"
   ],
   "note": "same proviso as C19"
  },
  {
   "property": "C19",
   "status": "proved",
   "theorems": [
    "Pip.C19_eval",
    "Pip.C19_exec",
    "Pip.C19_leak"
   ],
   "note": "amended: true unless SK or DK swallowed a TypeError; C19_leak shows the exception"
  },
  {
   "property": "C20",
   "status": "proved",
   "theorems": [
    "Pip.C20_eval",
    "Pip.C20_exec",
    "Pip.C20_program",
    "Pip.C20_printed"
   ],
   "note": "also when the run ends with an error"
  },
  {
   "property": "C21",
   "status": "proved",
   "theorems": [
    "Pip.C21_arguments",
    "Pip.C21_read"
   ],
   "note": ""
  },
  {
   "property": "C22",
   "status": "proved",
   "theorems": [
    "Pip.C22_assign"
   ],
   "note": ""
  },
  {
   "property": "C23",
   "status": "proved",
   "theorems": [
    "Pip.C23_and",
    "Pip.C23_or",
    "Pip.C23_ifte",
    "Pip.C23_skip"
   ],
   "note": "As equivalences over all outcomes (values, deaths, states); C23_skip replaces the unevaluated operand by an arbitrary one."
  },
  {
   "property": "C24",
   "status": "proved",
   "theorems": [
    "Pip.C24_chain",
    "Pip.C24_conjunction"
   ],
   "note": "Operands that are not functions; C24_chain is the stopping rule over all outcomes for chains of any length, C24_conjunction the truth of the result for the comparisons without effects (all but ~=)."
  },
  {
   "property": "C25",
   "status": "proved",
   "theorems": [
    "Pip.C25_left",
    "Pip.C25_right",
    "Pip.C25_chain",
    "Pip.C25_single",
    "Pip.C25_empty",
    "Pip.C25_assoc"
   ],
   "note": "Folding evaluates the tree that nests the operator to the left or right, up to the kind of failure; chains, one item, no items, and associativity."
  },
  {
   "property": "C26",
   "status": "proved",
   "theorems": [
    "Pip.C26_left",
    "Pip.C26_right",
    "Pip.C26_left_fold",
    "Pip.C26_right_fold",
    "Pip.C26_chain",
    "Pip.C26_empty"
   ],
   "note": "Scans yield the folds of the prefixes, in order."
  },
  {
   "property": "C27",
   "status": "proved",
   "theorems": [
    "Pip.C27_unary",
    "Pip.C27_both",
    "Pip.C27_left",
    "Pip.C27_right",
    "Pip.C27_shape_unary",
    "Pip.C27_shape_binary",
    "Pip.C27_table"
   ],
   "note": "Item-wise application for one and two operands, shapes of nested results, and the table of operators it covers."
  },
  {
   "property": "C28",
   "status": "proved",
   "theorems": [
    "Pip.C28_call",
    "Pip.C28_commutes",
    "Pip.C28_table"
   ],
   "note": "For the 164 of 192 function-building operators that act on values without effects (C28_table); the others take lvalues, choose at random or use regexes. A function that calls itself is covered by C28_call, which says what the running function is."
  },
  {
   "property": "C29",
   "status": "proved",
   "theorems": [
    "Pip.C29_loop",
    "Pip.C29_loop_fail",
    "Pip.C29_for",
    "Pip.C29_for_var",
    "Pip.C29_while",
    "Pip.C29_till",
    "Pip.C29_if",
    "Pip.C29_block",
    "Pip.C29_regex"
   ],
   "note": "Equivalences over all outcomes; the loop specifications are the inductive relations in Spec/Loops.lean."
  },
  {
   "property": "C30",
   "status": "proved",
   "theorems": [
    "Pip.C30_destructure",
    "Pip.C30_infinite"
   ],
   "note": "including infinite ranges on the right"
  },
  {
   "property": "C31",
   "status": "proved",
   "theorems": [
    "Pip.C31_swap",
    "Pip.C31_twice"
   ],
   "note": ""
  },
  {
   "property": "C32",
   "status": "proved",
   "theorems": [
    "Pip.C32_push",
    "Pip.C32_pushBack",
    "Pip.C32_pop",
    "Pip.C32_dequeue",
    "Pip.C32_empty",
    "Pip.C32_pick",
    "Pip.C32_undo"
   ],
   "note": "on plain variables holding lists; the pushed value is not a function (then PU/PB build a function)"
  },
  {
   "property": "C33",
   "status": "proved",
   "theorems": [
    "Pip.C33_computeAssign",
    "Pip.C33_error"
   ],
   "note": "for every operator; errors too (C33_error)"
  },
  {
   "property": "C34",
   "status": "proved",
   "theorems": [
    "Pip.C34_numeric",
    "Pip.C34_integers",
    "Pip.C34_permutation",
    "Pip.C34_strings",
    "Pip.C34_characters",
    "Pip.C34_keyed",
    "Pip.C34_keyed_permutation",
    "Pip.C34_keyed_exception",
    "Pip.C34_lists"
   ],
   "note": "SK and DK: the evaluator calls the key function once per item in order; integer keys give a stable sort, other keys a permutation or nil, a TypeError in the key function nil."
  },
  {
   "property": "C35",
   "status": "proved",
   "theorems": [
    "Pip.C35_list",
    "Pip.C35_string"
   ],
   "note": ""
  },
  {
   "property": "C36",
   "status": "proved",
   "theorems": [
    "Pip.C36_reverse",
    "Pip.C36_reflect",
    "Pip.C36_palindrome",
    "Pip.C36_quad"
   ],
   "note": ""
  },
  {
   "property": "C37",
   "status": "proved",
   "theorems": [
    "Pip.C37_string",
    "Pip.C37_list",
    "Pip.C37_range",
    "Pip.C37_default"
   ],
   "note": ""
  },
  {
   "property": "C38",
   "status": "proved",
   "theorems": [
    "Pip.C38_text",
    "Pip.C38_round_trip",
    "Pip.C38_bad_base"
   ],
   "note": ""
  },
  {
   "property": "C39",
   "status": "proved",
   "theorems": [
    "Pip.C39_digits",
    "Pip.C39_round_trip"
   ],
   "note": ""
  },
  {
   "property": "C40",
   "status": "proved",
   "theorems": [
    "Pip.C40_exact",
    "Pip.C40_sign",
    "Pip.C40_division",
    "Pip.C40_parity",
    "Pip.C40_zero",
    "Pip.C40_power"
   ],
   "note": ""
  },
  {
   "property": "C41",
   "status": "proved",
   "theorems": [
    "Pip.C41_bits",
    "Pip.C41_bits_determine",
    "Pip.C41_bit_length"
   ],
   "note": ""
  },
  {
   "property": "C42",
   "status": "proved",
   "theorems": [
    "Pip.C42_chunks",
    "Pip.C42_chunks_right",
    "Pip.C42_ranges",
    "Pip.C42_zero"
   ],
   "note": "negative sizes give the chunks of the right-to-left cut in that order."
  },
  {
   "property": "C43",
   "status": "proved",
   "theorems": [
    "Pip.C43_pieces",
    "Pip.C43_ranges",
    "Pip.C43_single"
   ],
   "note": ""
  },
  {
   "property": "C44",
   "status": "proved",
   "theorems": [
    "Pip.C44_split_join",
    "Pip.C44_join_split",
    "Pip.C44_join_split_char"
   ],
   "note": ""
  },
  {
   "property": "C45",
   "status": "proved",
   "theorems": [
    "Pip.C45_zip",
    "Pip.C45_forms",
    "Pip.C45_infinite",
    "Pip.C45_involution",
    "Pip.C45_zip_default"
   ],
   "note": ""
  },
  {
   "property": "C46",
   "status": "proved",
   "theorems": [
    "Pip.C46_product",
    "Pip.C46_combinations",
    "Pip.C46_permutations"
   ],
   "note": ""
  },
  {
   "property": "C47",
   "status": "proved",
   "theorems": [
    "Pip.C47_enumerate",
    "Pip.C47_filter",
    "Pip.C47_true",
    "Pip.C47_map"
   ],
   "note": ""
  },
  {
   "property": "C48",
   "status": "proved",
   "theorems": [
    "Pip.C48_list",
    "Pip.C48_string",
    "Pip.C48_range"
   ],
   "note": "Strings, lists (any value but a function), and integers in Ranges; equality is Pip's, which on values without functions is identity."
  },
  {
   "property": "C49",
   "status": "proved",
   "theorems": [
    "Pip.C49_list",
    "Pip.C49_plain",
    "Pip.C49_string",
    "Pip.C49_range",
    "Pip.C49_several",
    "Pip.C49_several_range"
   ],
   "note": "Strings count non-overlapping occurrences from the left; integers in Ranges."
  },
  {
   "property": "C50",
   "status": "proved",
   "theorems": [
    "Pip.C50_strip",
    "Pip.C50_strip_list",
    "Pip.C50_trim",
    "Pip.C50_trim_deviation",
    "Pip.C50_trim_default",
    "Pip.C50_strip_nil"
   ],
   "note": ""
  },
  {
   "property": "C51",
   "status": "proved",
   "theorems": [
    "Pip.C51_members",
    "Pip.C51_nil_bounds",
    "Pip.C51_shift",
    "Pip.C51_shift_infinite_deviation",
    "Pip.C51_inclusive_range_deviation"
   ],
   "note": ""
  },
  {
   "property": "C52",
   "status": "proved",
   "theorems": [
    "Pip.C52_grids",
    "Pip.C52_square",
    "Pip.C52_mapcoords"
   ],
   "note": "MC: square sizes from a Scalar, two sizes from a List or Range; negative sizes count as 0."
  },
  {
   "property": "C53",
   "status": "proved",
   "theorems": [
    "Pip.C53_delete",
    "Pip.C53_transliterate",
    "Pip.C53_lists",
    "Pip.C53_codes"
   ],
   "note": "transliteration uses the last position among the first |new| positions of old."
  },
  {
   "property": "C54",
   "status": "proved",
   "theorems": [
    "Pip.C54_max",
    "Pip.C54_min",
    "Pip.C54_empty",
    "Pip.C54_not_vacuous"
   ],
   "note": ""
  },
  {
   "property": "C55",
   "status": "proved",
   "theorems": [
    "Pip.C55_integers",
    "Pip.C55_lists",
    "Pip.C55_linear_order",
    "Pip.C55_all_values",
    "Pip.C55_mixed_deviation",
    "Pip.C55_empty_range_deviation"
   ],
   "note": ""
  },
  {
   "property": "C56",
   "status": "proved",
   "theorems": [
    "Pip.C56_strings",
    "Pip.C56_lists",
    "Pip.C56_all_values",
    "Pip.C56_pattern_deviation"
   ],
   "note": ""
  },
  {
   "property": "C57",
   "status": "proved",
   "theorems": [
    "Pip.C57_flatten_all",
    "Pip.C57_all_finite",
    "Pip.C57_flatten"
   ],
   "note": ""
  },
  {
   "property": "C58",
   "status": "proved",
   "theorems": [
    "Pip.C58_map",
    "Pip.C58_map_length",
    "Pip.C58_filter",
    "Pip.C58_partition",
    "Pip.C58_truth"
   ],
   "note": "C58_partition needs the function to leave the state alone."
  },
  {
   "property": "C59",
   "status": "proved",
   "theorems": [
    "Pip.C59_list",
    "Pip.C59_string",
    "Pip.C59_assign_list",
    "Pip.C59_assign_string",
    "Pip.C59_each",
    "Pip.C59_each_string",
    "Pip.C59_all",
    "Pip.C59_written",
    "Pip.C59_other",
    "Pip.C59_slice",
    "Pip.C59_slice_string",
    "Pip.C59_slice_same",
    "Pip.C59_slice_deviation"
   ],
   "note": "RA and assignment to an index, on lists and strings RA with lists of indices (new values repeated cyclically, later writes win) and with Ranges (Python slice ends) included; C59_slice_deviation: a slice that goes past the end is read around the end but written only up to it."
  },
  {
   "property": "C60",
   "status": "proved",
   "theorems": [
    "Pip.C60_lists",
    "Pip.C60_strings",
    "Pip.C60_items"
   ],
   "note": ""
  },
  {
   "property": "C61",
   "status": "proved",
   "theorems": [
    "Pip.C61_shuffle",
    "Pip.C61_shuffle_string",
    "Pip.C61_shuffle_all",
    "Pip.C61_choice",
    "Pip.C61_choice_empty",
    "Pip.C61_range"
   ],
   "note": "For every random source; every permutation is reachable. ValueError for empty choices and intervals is a deviation."
  },
  {
   "property": "C62",
   "status": "proved",
   "theorems": [
    "Pip.C62_list",
    "Pip.C62_string",
    "Pip.C62_variable",
    "Pip.C62_brackets",
    "Pip.C62_several",
    "Pip.C62_several_variable"
   ],
   "note": "on values, on variables, and the deviation on bracketed variables"
  },
  {
   "property": "C63",
   "status": "proved",
   "theorems": [
    "Pip.C63_split",
    "Pip.C63_join",
    "Pip.C63_inverse",
    "Pip.C63_unclosed"
   ],
   "note": "splitArgs against quoted and bare pieces; every argument list can be written; lost unclosed argument exhibited for all such command lines"
  },
  {
   "property": "C64",
   "status": "proved",
   "theorems": [
    "Pip.C64_flag",
    "Pip.C64_leaves",
    "Pip.C64_repr",
    "Pip.C64_lines",
    "Pip.C64_range_lines",
    "Pip.C64_main"
   ],
   "note": "Flag order, leaves for the default, -s and -n at any nesting, canonical text for -p, lines for -P, -l and -S; deviation for Ranges inside lists with -l and -S"
  },
  {
   "property": "C65",
   "status": "proved",
   "theorems": [
    "Pip.C65_refines",
    "Pip.C65_values",
    "Pip.C65_independent",
    "Pip.C65_map_counterexample",
    "Pip.C65_map_not_separate",
    "Pip.C65_one_counterexample"
   ],
   "note": "Heap model of mutable objects (Model/Heap.lean): any sequence of assignments (of new values, variables or parts of them, destructuring) and swaps has on the heap the results and values of the model with values, and keeps the variables separate; so no statement changes a variable it does not assign to. Exceptions proved: the items of a MAP with a constant are one object, and $<[5] is the interpreter's own constant one."
  },
  {
   "property": "C66",
   "status": "proved",
   "theorems": [
    "Pip.C66_eval",
    "Pip.C66_exec",
    "Pip.C66_program",
    "Pip.C66_outcome"
   ],
   "note": "for expressions, statements and whole programs"
  },
  {
   "property": "C67",
   "status": "proved",
   "theorems": [
    "Pip.C67_value",
    "Pip.C67_once",
    "Pip.C67_operand"
   ],
   "note": ""
  },
  {
   "property": "C68",
   "status": "proved",
   "theorems": [
    "Pip.C68_call",
    "Pip.C68_session"
   ],
   "note": "A call that raises leaves the caller's scope suspended; the REPL goes on in that state"
  },
  {
   "property": "C69",
   "status": "proved",
   "theorems": [
    "Pip.C69_history",
    "Pip.C69_command"
   ],
   "note": ""
  },
  {
   "property": "C70",
   "status": "proved",
   "theorems": [
    "Pip.C70_wipe"
   ],
   "note": ""
  },
  {
   "property": "C71",
   "status": "proved",
   "theorems": [
    "Pip.C71_read",
    "Pip.C71_parse",
    "Pip.C71_hopeless",
    "Pip.C71_command",
    "Pip.C71_session",
    "Pip.C71_display"
   ],
   "note": "readCode reads the fewest lines; the loop is equivalent to the inductive relation Session"
  },
  {
   "property": "C72",
   "status": "proved",
   "theorems": [
    "Pip.C72_args",
    "Pip.C72_input"
   ],
   "note": "the command line itself is in C110, the arguments under -x in C111"
  },
  {
   "property": "C73",
   "status": "proved",
   "theorems": [
    "Pip.C73_unary",
    "Pip.C73_binary",
    "Pip.C73_ternary",
    "Pip.C73_value_unary",
    "Pip.C73_value_binary",
    "Pip.C73_value_ternary",
    "Pip.C73_items_unary",
    "Pip.C73_items_left",
    "Pip.C73_items_right",
    "Pip.C73_items_both",
    "Pip.C73_integers"
   ],
   "note": "the tables of symbols in Spec/Symbols.lean are written out independently of opsByArity; operators with effects and CHOP are not in them"
  },
  {
   "property": "C74",
   "status": "proved",
   "theorems": [
    "Pip.C74_chr_asc",
    "Pip.C74_asc_chr",
    "Pip.C74_failures"
   ],
   "note": "lone surrogates are outside the model (error there)"
  },
  {
   "property": "C75",
   "status": "proved",
   "theorems": [
    "Pip.C75_len",
    "Pip.C75_compare",
    "Pip.C75_none"
   ],
   "note": ""
  },
  {
   "property": "C76",
   "status": "proved",
   "theorems": [
    "Pip.C76_data",
    "Pip.C76_equivalence",
    "Pip.C76_not"
   ],
   "note": ""
  },
  {
   "property": "C77",
   "status": "proved",
   "theorems": [
    "Pip.C77_eager",
    "Pip.C77_agree"
   ],
   "note": ""
  },
  {
   "property": "C78",
   "status": "proved",
   "theorems": [
    "Pip.C78_wrap",
    "Pip.C78_joinwrap",
    "Pip.C78_join_then_wrap",
    "Pip.C78_joinwrap_string",
    "Pip.C78_text",
    "Pip.C78_lines",
    "Pip.C78_pair",
    "Pip.C78_transpose"
   ],
   "note": ""
  },
  {
   "property": "C79",
   "status": "proved",
   "theorems": [
    "Pip.C79_replace",
    "Pip.C79_range",
    "Pip.C79_total",
    "Pip.C79_total_several",
    "Pip.C79_remove_string",
    "Pip.C79_remove_several",
    "Pip.C79_remove_items"
   ],
   "note": "patterns as old strings are in C97"
  },
  {
   "property": "C80",
   "status": "proved",
   "theorems": [
    "Pip.C80_concat",
    "Pip.C80_either",
    "Pip.C80_times",
    "Pip.C80_plus",
    "Pip.C80_star",
    "Pip.C80_group",
    "Pip.C80_string",
    "Pip.C80_string_exact",
    "Pip.C80_strings",
    "Pip.C80_range",
    "Pip.C80_flags",
    "Pip.C80_flags_twice",
    "Pip.C80_fullmatch",
    "Pip.C80_search",
    "Pip.C80_repeat_error",
    "Pip.C80_concat_bar",
    "Pip.C80_star_empty",
    "Pip.C80_strmul_flags",
    "Pip.C95_faithful"
   ],
   "note": "for every engine with the laws ReFaithful, which C95_faithful proves of the concrete engine; C80_concat_bar, C80_star_empty and C80_repeat_error prove the exceptions"
  },
  {
   "property": "C81",
   "status": "proved",
   "theorems": [
    "Pip.match_vars",
    "Pip.C81_first",
    "Pip.C81_full"
   ],
   "note": ""
  },
  {
   "property": "C82",
   "status": "proved",
   "theorems": [
    "Pip.C82_map_join",
    "Pip.C82_map_flatten",
    "Pip.C82_filter_join",
    "Pip.C82_join_strings",
    "Pip.C82_sum",
    "Pip.C82_sum_integers",
    "Pip.C82_sum_fold"
   ],
   "note": "the equalities hold for all operands; C82_sum_fold: the documented MS = $+ of M is false for a single result that is no number"
  },
  {
   "property": "C83",
   "status": "proved",
   "theorems": [
    "Pip.C83_unpack",
    "Pip.C83_unpack_pattern",
    "Pip.C83_filter_unpack",
    "Pip.C83_filter_first",
    "Pip.C83_zip",
    "Pip.C83_pairs",
    "Pip.C83_nested",
    "Pip.C83_matches",
    "Pip.C83_functions"
   ],
   "note": "infinite Ranges as the mapped iterable (never ends) are not covered"
  },
  {
   "property": "C84",
   "status": "proved",
   "theorems": [
    "Pip.C84_output",
    "Pip.C84_print",
    "Pip.C84_yank",
    "Pip.C84_yank_output",
    "Pip.C84_yank_print",
    "Pip.C84_failing"
   ],
   "note": "the text of a value is the subject of C64 and C16"
  },
  {
   "property": "C85",
   "status": "proved",
   "theorems": [
    "Pip.C85_variable",
    "Pip.C85_integer",
    "Pip.C85_value"
   ],
   "note": "operands that are functions build functions (C28)"
  },
  {
   "property": "C86",
   "status": "proved",
   "theorems": [
    "Pip.C86_recurse",
    "Pip.C86_running",
    "Pip.C86_factorial"
   ],
   "note": "the running function is unchanged by statements unless SK or DK swallow an error (C19_leak)"
  },
  {
   "property": "C87",
   "status": "proved",
   "theorems": [
    "Pip.C87_call",
    "Pip.C87_items",
    "Pip.C87_variable"
   ],
   "note": "indexing with Ranges, lists and Patterns is covered by C13, C81"
  },
  {
   "property": "C88",
   "status": "proved",
   "theorems": [
    "Pip.C88_block",
    "Pip.C88_text",
    "Pip.C88_syntax",
    "Pip.C88_call",
    "Pip.C88_call_text"
   ],
   "note": ""
  },
  {
   "property": "C89",
   "status": "proved",
   "theorems": [
    "Pip.C89_read",
    "Pip.C89_read_inf",
    "Pip.C89_write",
    "Pip.C89_write_inj",
    "Pip.C89_write_int",
    "Pip.C89_write_large",
    "Pip.C89_inf"
   ],
   "note": "in the environment of binary64 floats (Model/Double.lean); C89_write_large: from 10^16 on a text like 1e+16 is no integer, as an index it means 1"
  },
  {
   "property": "C90",
   "status": "proved",
   "theorems": [
    "Pip.C90_add",
    "Pip.C90_sub",
    "Pip.C90_mul",
    "Pip.C90_div",
    "Pip.C90_div_int",
    "Pip.C90_div_exact",
    "Pip.C90_add_twice",
    "Pip.C90_beyond",
    "Pip.C90_beyond_both"
   ],
   "note": "C90_add_twice is the witness of double rounding; C90_beyond is about decimal numbers beyond the largest float"
  },
  {
   "property": "C91",
   "status": "proved",
   "theorems": [
    "Pip.C91_compare",
    "Pip.C91_truth",
    "Pip.C91_beyond"
   ],
   "note": ""
  },
  {
   "property": "C92",
   "status": "proved",
   "theorems": [
    "Pip.C92_round",
    "Pip.C92_nearest",
    "Pip.C92_nearest_large",
    "Pip.C92_halve",
    "Pip.C92_halve_small",
    "Pip.C92_halve_large"
   ],
   "note": "C92_halve_large: HU of 9007199254740993 is one too small, HV of 9007199254740995 one too large. Rounding to multiples is in C106"
  },
  {
   "property": "C93",
   "status": "proved",
   "theorems": [
    "Pip.C93_mod",
    "Pip.C93_mod_exact",
    "Pip.C93_mod_large",
    "Pip.C93_intdiv",
    "Pip.C93_zero",
    "Pip.C93_beyond"
   ],
   "note": "C93_mod_large: -1e-20 % 1 is 1; integer operands are covered by C40"
  },
  {
   "property": "C94",
   "status": "proved",
   "theorems": [
    "Pip.C94_chop",
    "Pip.C94_chop_right",
    "Pip.C94_equal",
    "Pip.C94_eleven",
    "Pip.C94_group"
   ],
   "note": "in the environment of binary64 floats; C94_eleven is the witness that the number of pieces can be exceeded"
  },
  {
   "property": "C95",
   "status": "proved",
   "theorems": [
    "Pip.C95_faithful"
   ],
   "note": "in the environment Ext.withRe; back-references are in C98; named groups, conditionals, atomic groups, possessive quantifiers and look-behinds with alternatives are not in the grammar; which match is found is in C108, groups in C109"
  },
  {
   "property": "C96",
   "status": "proved",
   "theorems": [
    "Pip.C96_at",
    "Pip.C96_findall",
    "Pip.C96_count",
    "Pip.C96_find",
    "Pip.C96_all"
   ],
   "note": "for any engine; with C95_faithful the matches are those of the meaning"
  },
  {
   "property": "C97",
   "status": "proved",
   "theorems": [
    "Pip.C97_string",
    "Pip.C97_remove",
    "Pip.C97_pattern",
    "Pip.C97_function",
    "Pip.C97_text"
   ],
   "note": "with a string or Pattern as third operand in the environment Ext.withRe; C97_function for any engine; at most 98 groups"
  },
  {
   "property": "C98",
   "status": "proved",
   "theorems": [
    "Pip.C98_text",
    "Pip.C98_twice",
    "Pip.C98_missing"
   ],
   "note": "examples beside the theorems show \\99 and \\123 being taken for back-references"
  },
  {
   "property": "C99",
   "status": "proved",
   "theorems": [
    "Pip.C99_pop_string",
    "Pip.C99_pop_range",
    "Pip.C99_dequeue_string",
    "Pip.C99_dequeue_range",
    "Pip.C99_pick_string",
    "Pip.C99_pick_range",
    "Pip.C99_none",
    "Pip.C99_push_nil",
    "Pip.C99_push_string",
    "Pip.C99_push_range"
   ],
   "note": "plain variables; Lists are C32"
  },
  {
   "property": "C100",
   "status": "proved",
   "theorems": [
    "Pip.cycItem_total",
    "Pip.C100_value",
    "Pip.C100_variable",
    "Pip.C100_first",
    "Pip.C100_first_variable",
    "Pip.C100_rest",
    "Pip.C100_rest_variable",
    "Pip.C100_brackets",
    "Pip.C100_brackets_assign",
    "Pip.C100_select",
    "Pip.C100_select_variable",
    "Pip.C100_select_total"
   ],
   "note": ""
  },
  {
   "property": "C101",
   "status": "proved",
   "theorems": [
    "Pip.C101_numbers",
    "Pip.C101_texts",
    "Pip.C101_alphabets",
    "Pip.C101_functions",
    "Pip.C101_patterns",
    "Pip.C101_letters",
    "Pip.C101_letter",
    "Pip.C101_version",
    "Pip.C101_pi"
   ],
   "note": "Patterns in the environment Ext.withRe, PI in the environment Ext.withDbl"
  },
  {
   "property": "C102",
   "status": "proved",
   "theorems": [
    "Pip.C102_strip",
    "Pip.C102_suffix",
    "Pip.C102_prefix",
    "Pip.C102_clean",
    "Pip.C102_alternation",
    "Pip.C102_newline",
    "Pip.C102_flags"
   ],
   "note": "in the environment Ext.withRe; C102_alternation, C102_newline and C102_flags are witnesses of deviations"
  },
  {
   "property": "C103",
   "status": "proved",
   "theorems": [
    "Pip.C103_split",
    "Pip.C103_keep",
    "Pip.C103_count",
    "Pip.C103_complete",
    "Pip.C103_none",
    "Pip.C103_groups"
   ],
   "note": "in the environment Ext.withRe; the number of groups is the one counted by the compiler; C103_none is a witness of a deviation"
  },
  {
   "property": "C104",
   "status": "proved",
   "theorems": [
    "Pip.C104_lower",
    "Pip.C104_upper",
    "Pip.C104_swap",
    "Pip.C104_capitalize",
    "Pip.C104_title",
    "Pip.C104_swap_swap",
    "Pip.C104_last",
    "Pip.C104_other"
   ],
   "note": "in the environment Ext.withCase (ASCII strings); Lists item by item by C73 and C27"
  },
  {
   "property": "C105",
   "status": "proved",
   "theorems": [
    "Pip.C105_quit",
    "Pip.C105_help",
    "Pip.C105_comment"
   ],
   "note": "in the environment Ext.withCase; the effect of ;warnings is on warnings only, which are not modelled"
  },
  {
   "property": "C106",
   "status": "proved",
   "theorems": [
    "Pip.C106_floor",
    "Pip.C106_ceil",
    "Pip.C106_zero",
    "Pip.C106_nearest",
    "Pip.C106_nearest_float",
    "Pip.C106_large",
    "Pip.C106_none",
    "Pip.C106_other"
   ],
   "note": "in the environment Ext.withDbl; C106_large is a witness of a deviation"
  },
  {
   "property": "C107",
   "status": "proved",
   "theorems": [
    "Pip.C107_function",
    "Pip.C107_log",
    "Pip.C107_log_none",
    "Pip.C107_reciprocal",
    "Pip.C107_reciprocal_zero",
    "Pip.C107_sqrt_none",
    "Pip.C107_sqrt",
    "Pip.C107_radians",
    "Pip.C107_degrees",
    "Pip.C107_pi",
    "Pip.C107_atan2",
    "Pip.C107_root_zero",
    "Pip.C107_root_none",
    "Pip.C107_root",
    "Pip.C107_pow_none",
    "Pip.C107_pow",
    "Pip.C107_ten",
    "Pip.C107_other"
   ],
   "note": "in the environment Ext.withDbl; the library (Libm) is a parameter; C107_reciprocal_zero is a deviation"
  },
  {
   "property": "C108",
   "status": "proved",
   "theorems": [
    "Pip.C108_run",
    "Pip.C108_alternative"
   ],
   "note": "in the environment Ext.withRe; for repetitions of one character, in terms of lengths; nested repetitions are in C117"
  },
  {
   "property": "C109",
   "status": "proved",
   "theorems": [
    "Pip.C109_groups"
   ],
   "note": "in the environment Ext.withRe; parts without nested capturing groups, groups not repeated"
  },
  {
   "property": "C110",
   "status": "proved",
   "theorems": [
    "Pip.CmdLine.C110_accepts",
    "Pip.CmdLine.C110_only",
    "Pip.CmdLine.C110_exclusive",
    "Pip.CmdLine.C110_help",
    "Pip.CmdLine.C110_unique"
   ],
   "note": "argparse of Python 3.11 is transcribed in Model/Cli.lean"
  },
  {
   "property": "C111",
   "status": "proved",
   "theorems": [
    "Pip.CmdLine.C111_rejected",
    "Pip.CmdLine.C111_version",
    "Pip.CmdLine.C111_repl",
    "Pip.CmdLine.C111_program",
    "Pip.CmdLine.C111_values",
    "Pip.CmdLine.C111_broken",
    "Pip.CmdLine.C111_interactive"
   ],
   "note": "for -v see C114; the help text and standard error are not modelled"
  },
  {
   "property": "C112",
   "status": "proved",
   "theorems": [
    "Pip.C112_expression",
    "Pip.C112_function",
    "Pip.CmdLine.C112_calculator"
   ],
   "note": "two spaces start a comment and -- is one operator, so the notation has at most one space in a place and no two adjacent minus signs; division by zero is C40"
  },
  {
   "property": "C113",
   "status": "proved",
   "theorems": [
    "Pip.C113_text",
    "Pip.C113_same",
    "Pip.C113_unchanged",
    "Pip.C113_sixteen"
   ],
   "note": "integers below 10^16 are C89; str of a float is Python's repr, modelled in Model/Double.lean (trusted to be Python's algorithm: shortest digits, nearest of them)"
  },
  {
   "property": "C114",
   "status": "proved",
   "theorems": [
    "Pip.CmdLine.C114_verbose"
   ],
   "note": "the text of the parse tree (pprint of Python) is a parameter of the model"
  },
  {
   "property": "C115",
   "status": "proved",
   "theorems": [
    "Pip.Wh.C115_text",
    "Pip.Wh.C115_function",
    "Pip.CmdLine.C115_program",
    "Pip.CmdLine.C115_execute",
    "Pip.CmdLine.C115_gcd",
    "Pip.CmdLine.C115_factorial"
   ],
   "note": "for programs that end without an error"
  },
  {
   "property": "C116",
   "status": "proved",
   "theorems": [
    "Pip.C116_execute",
    "Pip.C116_process",
    "Pip.C116_evals",
    "Pip.C116_calls",
    "Pip.C116_silent",
    "Pip.C116_end"
   ],
   "note": "C116_end shows why a line must be left: the end of the input can be seen"
  },
  {
   "property": "C117",
   "status": "proved",
   "theorems": [
    "Pip.C117_search",
    "Pip.C117_finditer",
    "Pip.C117_unique",
    "Pip.C117_fullmatch",
    "Pip.C117_meaning",
    "Pip.C117_star"
   ],
   "note": "in the environment Ext.withRe, grammar of Spec/Regex.lean; what groups capture is in C109"
  },
  {
   "property": "C118",
   "status": "proved",
   "theorems": [
    "Pip.C118_search",
    "Pip.C118_finditer",
    "Pip.C118_unique",
    "Pip.C118_fullmatch",
    "Pip.C118_prefer",
    "Pip.C118_total",
    "Pip.C118_count",
    "Pip.C118_replace"
   ],
   "note": "in the environment Ext.withRe, grammar of Spec/Capture.lean (that of Spec/Regex.lean with back-references)"
  },
  {
   "property": "C119",
   "status": "proved",
   "theorems": [
    "Pip.C119_items",
    "Pip.C119_second",
    "Pip.C119_first",
    "Pip.C119_strip"
   ],
   "note": "pure operators; stripping with nil or a function as second operand (unchanged, nil) is excluded and covered by C50_strip_nil"
  }
 ]
}