{
 "claims": [
  {
   "property": "C01",
   "status": "proved",
   "theorems": [
    "Verif.Byacc.C01_transitive_closure",
    "Verif.Byacc.C01_reflexive_transitive_closure",
    "Verif.Byacc.C01_frame"
   ],
   "note": ""
  },
  {
   "property": "C02",
   "status": "proved",
   "theorems": [
    "Verif.Byacc.C02_nullable"
   ],
   "note": ""
  },
  {
   "property": "C22",
   "status": "proved",
   "theorems": [
    "Verif.Byacc.C22_readback",
    "Verif.Byacc.C22_walk"
   ],
   "note": ""
  },
  {
   "property": "C23",
   "status": "proved",
   "theorems": [
    "Verif.Byacc.C23_explicit",
    "Verif.Byacc.C23_yacc",
    "Verif.Byacc.C23_lemon",
    "Verif.Byacc.C23_ignore",
    "Verif.Byacc.C23_declarations",
    "Verif.Lemon.C23_mark",
    "Verif.Lemon.C23_first",
    "Verif.Lemon.C23_last",
    "Verif.Lemon.C23_none"
   ],
   "note": ""
  },
  {
   "property": "C30",
   "status": "proved",
   "theorems": [
    "Verif.Lemon.C30_first_sets"
   ],
   "note": ""
  },
  {
   "property": "C31",
   "status": "proved",
   "theorems": [
    "Verif.Lemon.C31_propagation",
    "Verif.Lemon.C31_fuel"
   ],
   "note": ""
  },
  {
   "property": "C32",
   "status": "proved",
   "theorems": [
    "Verif.Lemon.C32_lookaheads",
    "Verif.Lemon.C32_plain",
    "Verif.Lemon.C32_same_as_yacc",
    "Verif.Lemon.C32_fuel"
   ],
   "note": "the action lists made from the sets are in C33; agreement with byacc needs that the start symbol is on no right-hand side, which lemon checks"
  },
  {
   "property": "C03",
   "status": "proved",
   "theorems": [
    "Verif.Byacc.C03_closure",
    "Verif.Byacc.C03_closure_least"
   ],
   "note": ""
  },
  {
   "property": "C04",
   "status": "proved",
   "theorems": [
    "Verif.Byacc.C04_automaton"
   ],
   "note": ""
  },
  {
   "property": "C05",
   "status": "partial",
   "theorems": [
    "Verif.Byacc.C05_lookup",
    "Verif.Byacc.C05_absent_violated"
   ],
   "note": "lookup of existing transitions proved; the claim about absent transitions is false of the code and its negation is proved"
  },
  {
   "property": "C06",
   "status": "proved",
   "theorems": [
    "Verif.Byacc.C06_digraph"
   ],
   "note": ""
  },
  {
   "property": "C07",
   "status": "proved",
   "theorems": [
    "Verif.Byacc.C07_transpose"
   ],
   "note": ""
  },
  {
   "property": "C08",
   "status": "proved",
   "theorems": [
    "Verif.Byacc.C08_lalr_lookaheads"
   ],
   "note": ""
  },
  {
   "property": "C55",
   "status": "partial",
   "theorems": [
    "Verif.Byacc.C55_states_partial",
    "Verif.Byacc.C55_reads_partial",
    "Verif.Byacc.C55_includes_violated"
   ],
   "note": "state and reads buffers proved large enough; the includes buffer is overrun, shown on a concrete grammar"
  },
  {
   "property": "C09",
   "status": "proved",
   "theorems": [
    "Verif.Byacc.C09_rows"
   ],
   "note": ""
  },
  {
   "property": "C10",
   "status": "proved",
   "theorems": [
    "Verif.Byacc.C10_kept",
    "Verif.Byacc.C10_table"
   ],
   "note": ""
  },
  {
   "property": "C11",
   "status": "proved",
   "theorems": [
    "Verif.Byacc.C11_totals",
    "Verif.Byacc.C11_no_precedence"
   ],
   "note": ""
  },
  {
   "property": "C12",
   "status": "partial",
   "theorems": [
    "Verif.Byacc.C12_expect_partial",
    "Verif.Byacc.C12_violated"
   ],
   "note": "holds when there is at least one conflict; false without conflicts, shown on a concrete grammar"
  },
  {
   "property": "C13",
   "status": "proved",
   "theorems": [
    "Verif.Byacc.C13_default_reductions"
   ],
   "note": ""
  },
  {
   "property": "C24",
   "status": "proved",
   "theorems": [
    "Verif.Byacc.C24_unused"
   ],
   "note": ""
  },
  {
   "property": "C15",
   "status": "proved",
   "theorems": [
    "Verif.Byacc.C15_lookup",
    "Verif.Byacc.C15_generated"
   ],
   "note": ""
  },
  {
   "property": "C16",
   "status": "partial",
   "theorems": [
    "Verif.Byacc.C16_bounds_partial",
    "Verif.Byacc.C16_generated_partial",
    "Verif.Byacc.C16_violated"
   ],
   "note": "proved below 1200 entries; the scan for a free slot can leave the array, shown on a concrete vector"
  },
  {
   "property": "C17",
   "status": "proved",
   "theorems": [
    "Verif.Byacc.C17_sound"
   ],
   "note": ""
  },
  {
   "property": "C18",
   "status": "proved",
   "theorems": [
    "Verif.Byacc.C18_complete"
   ],
   "note": ""
  },
  {
   "property": "C19",
   "status": "partial",
   "theorems": [
    "Verif.Byacc.C19_stack_partial",
    "Verif.Byacc.C19_maximum_violated"
   ],
   "note": "everything but the bound by YYMAXDEPTH, which holds only if YYINITSTACKSIZE does not exceed it; the violation is shown"
  },
  {
   "property": "C14",
   "status": "partial",
   "theorems": [
    "Verif.Byacc.C14_nonassoc_partial",
    "Verif.Byacc.C14_violated"
   ],
   "note": "holds in states without default reduction (byacc); violated otherwise, shown on a concrete grammar"
  },
  {
   "property": "C20",
   "status": "proved",
   "theorems": [
    "Verif.Byacc.C20_three_tokens",
    "Verif.Byacc.C20_no_action",
    "Verif.Byacc.C20_recovery_ends",
    "Verif.Byacc.C20_input_consumed_once",
    "Verif.Byacc.C20_recovery_is_bounded"
   ],
   "note": ""
  },
  {
   "property": "C56",
   "status": "partial",
   "theorems": [
    "Verif.Byacc.C56_unambiguous_partial",
    "Verif.Byacc.C56_violated"
   ],
   "note": "unambiguous if the accepting state has no reduction at the end of input; violated otherwise"
  },
  {
   "property": "C57",
   "status": "partial",
   "theorems": [
    "Verif.Byacc.C57_raise_partial",
    "Verif.Byacc.C57_violated"
   ],
   "note": "violated when the lookahead has not been read"
  },
  {
   "property": "C52",
   "status": "proved",
   "theorems": [
    "Verif.Byacc.C52_default_goto"
   ],
   "note": ""
  },
  {
   "property": "C58",
   "status": "proved",
   "theorems": [
    "Verif.Byacc.C58_macros",
    "Verif.Byacc.C58_success",
    "Verif.Byacc.C58_failure"
   ],
   "note": ""
  },
  {
   "property": "C21",
   "status": "proved",
   "theorems": [
    "Verif.Byacc.C21_codes",
    "Verif.Byacc.C21_unique",
    "Verif.Byacc.C21_error_code_violated",
    "Verif.Byacc.C21_indices"
   ],
   "note": "the remark about code 256 is shown by C21_error_code_violated"
  },
  {
   "property": "C50",
   "status": "proved",
   "theorems": [
    "Verif.Byacc.C50_rules",
    "Verif.Byacc.C50_language",
    "Verif.Byacc.C50_layout"
   ],
   "note": ""
  },
  {
   "property": "C54",
   "status": "partial",
   "theorems": [
    "Verif.Byacc.C54_drops",
    "Verif.Byacc.C54_empty_partial",
    "Verif.Byacc.C54_violated"
   ],
   "note": "violated: everything after %empty is dropped"
  },
  {
   "property": "C51",
   "status": "proved",
   "theorems": [
    "Verif.Byacc.C51_roundtrip"
   ],
   "note": ""
  },
  {
   "property": "C60",
   "status": "proved",
   "theorems": [
    "Verif.Byacc.C60_literal_names",
    "Verif.Byacc.C60_literals_distinct"
   ],
   "note": ""
  },
  {
   "property": "C59",
   "status": "proved",
   "theorems": [
    "Verif.Byacc.C59_case",
    "Verif.Byacc.C59_literal"
   ],
   "note": ""
  },
  {
   "property": "C29",
   "status": "partial",
   "theorems": [
    "Verif.Byacc.C29_defined_partial",
    "Verif.Byacc.C29_violated"
   ],
   "note": "violated exactly for two character literals"
  },
  {
   "property": "C28",
   "status": "partial",
   "theorems": [
    "Verif.Byacc.C28_distinct_partial",
    "Verif.Byacc.C28_violated"
   ],
   "note": "violated for long names, dots and some literals; holds for plain names"
  },
  {
   "property": "C25",
   "status": "partial",
   "theorems": [
    "Verif.Byacc.C25_lines_partial",
    "Verif.Byacc.C25_violated"
   ],
   "note": "all of a line but the first left side of a reduce/reduce conflict is right; that one is wrong, shown on a concrete grammar"
  },
  {
   "property": "C26",
   "status": "proved",
   "theorems": [
    "Verif.Byacc.C26_nulls"
   ],
   "note": ""
  },
  {
   "property": "C61",
   "status": "partial",
   "theorems": [
    "Verif.Byacc.C61_lines_partial",
    "Verif.Byacc.C61_violated"
   ],
   "note": "holds in states where precedence discarded nothing; violated otherwise"
  },
  {
   "property": "C27",
   "status": "proved",
   "theorems": [
    "Verif.Byacc.C27_map",
    "Verif.Lemon.C27_table",
    "Verif.Lemon.C27_lemon",
    "Verif.Lemon.C27_strings"
   ],
   "note": ""
  },
  {
   "property": "C44",
   "status": "partial",
   "theorems": [
    "Verif.Lemon.C44_msort_partial",
    "Verif.Lemon.C44_msort_perm_partial",
    "Verif.Lemon.C44_violated",
    "Verif.Lemon.C44_rule_sort_partial"
   ],
   "note": "proved below 2^30 elements (2^32 for the rule list); a list of exactly 2^30 elements loses half of them"
  },
  {
   "property": "C45",
   "status": "proved",
   "theorems": [
    "Verif.Lemon.C45_order",
    "Verif.Lemon.C45_bijection",
    "Verif.Lemon.C45_table_partial"
   ],
   "note": "the sorted list is exact below 2^32 rules; nrule is an int, so that is no restriction on the code"
  },
  {
   "property": "C33",
   "status": "proved",
   "theorems": [
    "Verif.Lemon.C33_resolution"
   ],
   "note": ""
  },
  {
   "property": "C34",
   "status": "partial",
   "theorems": [
    "Verif.Lemon.C34_abort_iff",
    "Verif.Lemon.C34_no_abort_partial",
    "Verif.Lemon.C34_violated"
   ],
   "note": "violated; the exact condition for the abort is C34_abort_iff"
  },
  {
   "property": "C53",
   "status": "proved",
   "theorems": [
    "Verif.Lemon.C53_lemon",
    "Verif.Byacc.C11_no_precedence"
   ],
   "note": ""
  },
  {
   "property": "C35",
   "status": "proved",
   "theorems": [
    "Verif.Lemon.C35_compress"
   ],
   "note": "shift becomes shift-and-reduce and chains of rules A -> B without code are skipped, as stated there"
  },
  {
   "property": "C62",
   "status": "partial",
   "theorems": [
    "Verif.Lemon.C62_ends_partial",
    "Verif.Lemon.C62_violated"
   ],
   "note": "holds if no nonterminal derives itself by rules A -> B without code; violated otherwise, shown on two concrete grammars"
  },
  {
   "property": "C36",
   "status": "proved",
   "theorems": [
    "Verif.Lemon.C36_pack",
    "Verif.Lemon.C36_tables"
   ],
   "note": ""
  },
  {
   "property": "C37",
   "status": "partial",
   "theorems": [
    "Verif.Lemon.C37_bounds_partial",
    "Verif.Lemon.C37_violated"
   ],
   "note": "indices into yy_lookahead and yy_action are in bounds; the index into yy_shift_ofst need not be, shown on a concrete grammar"
  },
  {
   "property": "C38",
   "status": "partial",
   "theorems": [
    "Verif.Lemon.C38_lookup_partial",
    "Verif.Lemon.C38_chains_partial",
    "Verif.Lemon.C38_violated",
    "Verif.Lemon.C38_cycle_violated"
   ],
   "note": "exact if no fallback has a fallback (without assertions: for all fallbacks); cycles of fallbacks make the lookup hang, and a reduction that became the default is hidden by a fallback"
  },
  {
   "property": "C63",
   "status": "partial",
   "theorems": [
    "Verif.Lemon.C63_report_partial",
    "Verif.Lemon.C63_enough_partial",
    "Verif.Lemon.C63_violated"
   ],
   "note": "holds under a condition on the set inserted last, in particular if there are at least as many nonterminals as tokens"
  },
  {
   "property": "C41",
   "status": "proved",
   "theorems": [
    "Verif.Lemon.C41_bound",
    "Verif.Lemon.C41_runs",
    "Verif.Lemon.C41_overflow",
    "Verif.Lemon.C41_agree"
   ],
   "note": ""
  },
  {
   "property": "C42",
   "status": "partial",
   "theorems": [
    "Verif.Lemon.C42_peak_partial",
    "Verif.Lemon.C42_assert_partial",
    "Verif.Lemon.C42_violated"
   ],
   "note": "holds if no rule is empty and the stack grows as needed; violated otherwise"
  },
  {
   "property": "C43",
   "status": "partial",
   "theorems": [
    "Verif.Lemon.C43_type",
    "Verif.Lemon.C43_narrow",
    "Verif.Lemon.C43_tables",
    "Verif.Lemon.C43_stack",
    "Verif.Lemon.C43_lengths_partial",
    "Verif.Lemon.C43_violated"
   ],
   "note": "holds for all tables but that of rule lengths; those do not fit if a rule has more than 128 symbols"
  },
  {
   "property": "C39",
   "status": "partial",
   "theorems": [
    "Verif.Lemon.C39_derivation_partial",
    "Verif.Lemon.C39_sentence_partial",
    "Verif.Lemon.C39_plain_partial"
   ],
   "note": "for rules of at most 255 symbols; the table of rule lengths has elements of type signed char"
  },
  {
   "property": "C40",
   "status": "partial",
   "theorems": [
    "Verif.Lemon.C40_accepts_partial",
    "Verif.Lemon.C40_reported_partial",
    "Verif.Lemon.C40_language_partial",
    "Verif.Lemon.C40_violated"
   ],
   "note": "holds without compression (-c) for all fallbacks and wildcards; with compression it is violated if there are fallbacks or a wildcard, shown on concrete grammars, and holds otherwise if each state has a row of actions on tokens"
  },
  {
   "property": "C46",
   "status": "partial",
   "theorems": [
    "Verif.Lemon.C46_bytes",
    "Verif.Lemon.C46_selected_partial",
    "Verif.Lemon.C46_define",
    "Verif.Lemon.C46_violated"
   ],
   "note": "a last line %endif without a line break is not recognized"
  },
  {
   "property": "C47",
   "status": "partial",
   "theorems": [
    "Verif.Lemon.C47_value",
    "Verif.Lemon.C47_accepted_partial",
    "Verif.Lemon.C47_position",
    "Verif.Lemon.C47_line",
    "Verif.Lemon.C47_violated"
   ],
   "note": "well-formed conditions evaluate as claimed; the accepted texts are characterized exactly, and contain malformed ones"
  },
  {
   "property": "C49",
   "status": "partial",
   "theorems": [
    "Verif.Lemon.C49_violated",
    "Verif.Lemon.C49_rest_partial",
    "Verif.Lemon.C49_lines"
   ],
   "note": "violated for every file name and every set of options"
  },
  {
   "property": "C64",
   "status": "partial",
   "theorems": [
    "Verif.Lemon.C64_unterminated_partial",
    "Verif.Lemon.C64_violated"
   ],
   "note": "only conditionals not taken are reported"
  },
  {
   "property": "C48",
   "status": "partial",
   "theorems": [
    "Verif.Lemon.C48_partial",
    "Verif.Lemon.C48_sound_partial",
    "Verif.Lemon.C48_overrun",
    "Verif.Lemon.C48_violated"
   ],
   "note": "The claim is false: C48_violated gives a grammar with two multi-terminals in a rule whose printed file loses sentences, and one whose declared start symbol is replaced. C48_partial proves it for grammars with at most one multi-terminal per rule whose start symbol is that of the first rule: printed text, tokens, precedences, order of rules and the language. C48_overrun says exactly when memory behind a list is read."
  },
  {
   "property": "C65",
   "status": "proved",
   "theorems": [
    "Verif.Byacc.C65_prefix",
    "Verif.Byacc.C65_error"
   ],
   "note": ""
  },
  {
   "property": "C66",
   "status": "partial",
   "theorems": [
    "Verif.Lemon.C66_prefix_partial",
    "Verif.Lemon.C66_error_partial",
    "Verif.Lemon.C66_exact_partial",
    "Verif.Lemon.C66_violated"
   ],
   "note": "exact for grammars without fallbacks and wildcard; false with compressed tables and fallbacks or a wildcard"
  },
  {
   "property": "C67",
   "status": "partial",
   "theorems": [
    "Verif.Lemon.C67_partial",
    "Verif.Lemon.C67_errsym_partial",
    "Verif.Lemon.C67_violated"
   ],
   "note": "as claimed for parsers without an error symbol; with one, the exact condition is proved, and that it differs from the claim"
  },
  {
   "property": "C68",
   "status": "partial",
   "theorems": [
    "Verif.Lemon.C68_tokens_partial",
    "Verif.Lemon.C68_symbols",
    "Verif.Lemon.C68_symbols_end",
    "Verif.Lemon.C68_tokens_violated"
   ],
   "note": "symbols as claimed (rules of at most 128 symbols); tokens as claimed unless the stack overflows"
  },
  {
   "property": "C69",
   "status": "partial",
   "theorems": [
    "Verif.Lemon.C69_partial",
    "Verif.Lemon.C69_hwm",
    "Verif.Lemon.C69_violated"
   ],
   "note": "as claimed for grammars without an error symbol whose rules have at most 255 symbols; false with an error symbol"
  },
  {
   "property": "C70",
   "status": "partial",
   "theorems": [
    "Verif.Lemon.C70_repair_partial",
    "Verif.Lemon.C70_nearest_partial",
    "Verif.Lemon.C70_bottom_violated",
    "Verif.Lemon.C70_violated",
    "Verif.Lemon.C36_goto_partial",
    "Verif.Lemon.errExact_of"
   ],
   "note": "as claimed, the bottom of the stack apart, if no row of the tables with an entry for the error symbol has the offset of another row; false otherwise, and false for the bottom of the stack"
  },
  {
   "property": "C71",
   "status": "partial",
   "theorems": [
    "Verif.Lemon.C71_words",
    "Verif.Lemon.C71_unique",
    "Verif.Lemon.C71_open",
    "Verif.Lemon.C71_lines",
    "Verif.Lemon.C71_violated",
    "Verif.Lemon.C71_comment_violated"
   ],
   "note": "as claimed for every text that is divided into words, and for open strings and braces; false for code with an open comment or literal, and for an open comment"
  },
  {
   "property": "C72",
   "status": "partial",
   "theorems": [
    "Verif.Lemon.C72_says",
    "Verif.Lemon.C72_valid",
    "Verif.Lemon.C72_first",
    "Verif.Lemon.C72_recover",
    "Verif.Lemon.C72_unended_violated",
    "Verif.Lemon.C72_class_violated",
    "Verif.Lemon.C72_fallback_violated",
    "Verif.Lemon.C72_status_violated"
   ],
   "note": "as claimed for files that end with a complete rule or declaration; false for others, and three further defects are shown"
  },
  {
   "property": "C73",
   "status": "partial",
   "theorems": [
    "Verif.Lemon.C73_numbers",
    "Verif.Lemon.C73_grammar",
    "Verif.Lemon.C73_data",
    "Verif.Lemon.C73_start",
    "Verif.Lemon.C73_parser_partial",
    "Verif.Lemon.C73_accepted_partial",
    "Verif.Lemon.C73_class_violated",
    "Verif.Lemon.C73_start_violated",
    "Verif.Lemon.C73_error_violated"
   ],
   "note": "from the text of the file to the parser; for files in which class names are not left sides, the start symbol is a nonterminal and so on (Sound); false for others, with witnesses"
  },
  {
   "property": "C74",
   "status": "partial",
   "theorems": [
    "Verif.Lemon.C74_union_partial",
    "Verif.Lemon.C74_error_violated"
   ],
   "note": "as claimed for every file in which `error` is not declared as a token class; false for others, with a witness"
  },
  {
   "property": "C75",
   "status": "partial",
   "theorems": [
    "Verif.Lemon.C75_file_partial",
    "Verif.Lemon.elem_data",
    "Verif.Lemon.C75_pieces",
    "Verif.Lemon.C75_safe_partial",
    "Verif.Lemon.C75_code_partial",
    "Verif.Lemon.C75_errors_partial",
    "Verif.Lemon.C75_around_partial",
    "Verif.Lemon.C75_lines",
    "Verif.Lemon.C75_cases",
    "Verif.Lemon.C75_end_violated",
    "Verif.Lemon.C75_mark_violated",
    "Verif.Lemon.C75_class_violated",
    "Verif.Lemon.C75_alternatives_violated",
    "Verif.Lemon.C75_major_violated"
   ],
   "note": "as claimed unless the comment comes directly behind a label or an empty token class has a label; code that ends in a label is never translated; the other defects are shown by witnesses"
  },
  {
   "property": "C76",
   "status": "partial",
   "theorems": [
    "Verif.Lemon.C76_file_partial",
    "Verif.Lemon.C76_switch_partial",
    "Verif.Lemon.C76_unique",
    "Verif.Lemon.C76_lines",
    "Verif.Lemon.C76_text",
    "Verif.Lemon.C76_end",
    "Verif.Lemon.replaced_unique",
    "Verif.Lemon.C76_default_violated",
    "Verif.Lemon.C76_error_violated",
    "Verif.Lemon.C76_token_violated"
   ],
   "note": "as claimed if the nonterminals that use the default destructor have the same type or it has no `$$`; false otherwise, and destructors of tokens and classes are ignored"
  },
  {
   "property": "C77",
   "status": "partial",
   "theorems": [
    "Verif.Lemon.C77_values_partial",
    "Verif.Lemon.C77_erase",
    "Verif.Lemon.C77_follow",
    "Verif.Lemon.C77_all",
    "Verif.Lemon.C77_once_partial",
    "Verif.Lemon.C77_error_violated",
    "Verif.Lemon.C77_empty_violated"
   ],
   "note": "as claimed if empty rules set the value of their left side and there is no error symbol (rules of at most 128 symbols, no overflow); both exceptions are shown by witnesses"
  },
  {
   "property": "C78",
   "status": "partial",
   "theorems": [
    "Verif.Byacc.C78_lines",
    "Verif.Byacc.C78_lines_plain",
    "Verif.Byacc.C78_space",
    "Verif.Byacc.C78_space_error",
    "Verif.Byacc.C78_keyword",
    "Verif.Byacc.C78_name",
    "Verif.Byacc.C78_number",
    "Verif.Byacc.C78_literal",
    "Verif.Byacc.C78_literal_roundtrip",
    "Verif.Byacc.C78_tag",
    "Verif.Byacc.C78_tag_error",
    "Verif.Byacc.C78_unique",
    "Verif.Byacc.C78_line_directive_violated",
    "Verif.Byacc.C78_line_rest_violated",
    "Verif.Byacc.C78_byte_255_violated"
   ],
   "note": "as claimed, in both directions; the three exceptions (unfinished #line directives, text behind a directive, byte 255) are part of the specification and shown as violations"
  },
  {
   "property": "C79",
   "status": "partial",
   "theorems": [
    "Verif.Byacc.C79_action",
    "Verif.Byacc.C79_slot",
    "Verif.Byacc.C79_before",
    "Verif.Byacc.C79_plain",
    "Verif.Byacc.C79_beyond_violated",
    "Verif.Byacc.C79_name_violated",
    "Verif.Byacc.C79_untyped_violated"
   ],
   "note": "as claimed, in both directions; the three exceptions are part of the specification and shown as violations"
  },
  {
   "property": "C80",
   "status": "partial",
   "theorems": [
    "Verif.Byacc.C80_accepted",
    "Verif.Byacc.C80_unique",
    "Verif.Byacc.C80_meaning",
    "Verif.Byacc.C80_first_violated",
    "Verif.Byacc.C80_order_violated",
    "Verif.Byacc.C80_codes_violated"
   ],
   "note": "as claimed, in both directions, for the constructs modelled; the exceptions are part of the specification and shown as violations"
  },
  {
   "property": "C81",
   "status": "proved",
   "theorems": [
    "Verif.Byacc.C81_left_to_right"
   ],
   "note": ""
  },
  {
   "property": "C82",
   "status": "partial",
   "theorems": [
    "Verif.Byacc.C82_tables",
    "Verif.Byacc.C82_sound",
    "Verif.Byacc.C82_complete",
    "Verif.Byacc.C82_actions",
    "Verif.Byacc.C82_check",
    "Verif.Byacc.C82_codes_violated",
    "Verif.Byacc.C82_nul_violated"
   ],
   "note": "as claimed for files in which no two tokens share a code; false for others, with witnesses"
  },
  {
   "property": "C83",
   "status": "partial",
   "theorems": [
    "Verif.Byacc.C83_conflict_lists_partial",
    "Verif.Byacc.C83_unused",
    "Verif.Byacc.C83_violated"
   ],
   "note": "as claimed where precedence does not decide between alternatives; that listed alternatives are possible ones, that no list is empty and that the array is not overrun holds always; a witness shows what is lost where precedence decides in part"
  },
  {
   "property": "C84",
   "status": "partial",
   "theorems": [
    "Verif.Byacc.C84_backtrack_sound",
    "Verif.Byacc.C84_read_violated",
    "Verif.Byacc.C84_stale_violated"
   ],
   "note": "as claimed; the two exceptions are shown by witnesses"
  },
  {
   "property": "C85",
   "status": "partial",
   "theorems": [
    "Verif.Byacc.C85_backtrack_complete_partial",
    "Verif.Byacc.C85_overflow_violated",
    "Verif.Byacc.C85_precedence_violated",
    "Verif.Byacc.C85_recovery_violated"
   ],
   "note": "as claimed (that the parser stops is not); the three exceptions are shown by witnesses, the first for every size of the stack"
  },
  {
   "property": "C86",
   "status": "partial",
   "theorems": [
    "Verif.Byacc.C86_same_partial",
    "Verif.Byacc.C86_yyerror_violated"
   ],
   "note": "as claimed for actions without YYERROR; false for others, with a witness"
  },
  {
   "property": "C87",
   "status": "partial",
   "theorems": [
    "Verif.Byacc.C87_lines_partial",
    "Verif.Byacc.C87_actions",
    "Verif.Byacc.C87_actions_l",
    "Verif.Byacc.C87_block_counted",
    "Verif.Byacc.C87_initial_violated",
    "Verif.Byacc.C87_externs_violated",
    "Verif.Byacc.C87_ident_violated"
   ],
   "note": "as claimed but for the three exceptions, for each of which it is proved that the last directive is always wrong"
  },
  {
   "property": "C88",
   "status": "proved",
   "theorems": [
    "Verif.Byacc.C88_arrays",
    "Verif.Byacc.C88_defines",
    "Verif.Byacc.C88_largest"
   ],
   "note": ""
  },
  {
   "property": "C89",
   "status": "partial",
   "theorems": [
    "Verif.Byacc.C89_names",
    "Verif.Byacc.C89_rules",
    "Verif.Byacc.C89_file",
    "Verif.Byacc.C89_states",
    "Verif.Byacc.C89_quote_violated"
   ],
   "note": "as claimed for files without string literals that contain a quote; false for every such literal"
  },
  {
   "property": "C90",
   "status": "partial",
   "theorems": [
    "Verif.Byacc.C90_defines",
    "Verif.Byacc.C90_file",
    "Verif.Byacc.C90_twice_violated",
    "Verif.Byacc.C90_keyword_violated",
    "Verif.Byacc.C90_dot_violated"
   ],
   "note": "the lines are exactly as claimed; the three exceptions are shown by witnesses"
  },
  {
   "property": "C91",
   "status": "partial",
   "theorems": [
    "Verif.Byacc.C91_text",
    "Verif.Byacc.C91_line_partial",
    "Verif.Byacc.C91_line_violated",
    "Verif.Byacc.C91_apart_partial",
    "Verif.Byacc.C91_apart_violated",
    "Verif.Byacc.C91_brace_violated",
    "Verif.Byacc.C91_count_violated"
   ],
   "note": "what is copied is characterised exactly; the line is right where code stands on the line of the brace, and proved to be wrong for every other block; the other exceptions are shown by witnesses, the last for every block"
  },
  {
   "property": "C92",
   "status": "proved",
   "theorems": [
    "Verif.Byacc.C92_user_code",
    "Verif.Byacc.C92_externs"
   ],
   "note": "the two values with which the third part is at hand (rest of the line, line number) are taken as the reader leaves them"
  },
  {
   "property": "C93",
   "status": "proved",
   "theorems": [
    "Verif.Byacc.C93_prefix"
   ],
   "note": ""
  },
  {
   "property": "C94",
   "status": "proved",
   "theorems": [
    "Verif.Byacc.C94_declarations"
   ],
   "note": ""
  },
  {
   "property": "C95",
   "status": "partial",
   "theorems": [
    "Verif.Lemon.C95_offset",
    "Verif.Lemon.C95_self_partial",
    "Verif.Lemon.C95_violated",
    "Verif.Lemon.C95_skip_violated",
    "Verif.Lemon.C95_newline_violated"
   ],
   "note": "true with -m unless %include starts with a slash; without -m every directive behind the macros for tokens names its own line; the offset is proved exactly for all files whose macros are single lines"
  },
  {
   "property": "C96",
   "status": "partial",
   "theorems": [
    "Verif.Lemon.C96_layout",
    "Verif.Lemon.C96_bytes",
    "Verif.Lemon.C96_rename_unique",
    "Verif.Lemon.C96_order",
    "Verif.Lemon.C96_memory",
    "Verif.Lemon.C96_memory_violated"
   ],
   "note": "the text is as claimed; the byte in front of an empty string is read for every grammar without %include"
  },
  {
   "property": "C97",
   "status": "proved",
   "theorems": [
    "Verif.Lemon.C97_arrays",
    "Verif.Lemon.C97_constants"
   ],
   "note": ""
  },
  {
   "property": "C98",
   "status": "proved",
   "theorems": [
    "Verif.Lemon.C98_tokens",
    "Verif.Lemon.C98_names",
    "Verif.Lemon.C98_rules",
    "Verif.Lemon.C98_fallbacks",
    "Verif.Lemon.C98_distinct"
   ],
   "note": "names without blanks, quotes, backslashes and stars; the scanner makes no others"
  },
  {
   "property": "C99",
   "status": "partial",
   "theorems": [
    "Verif.Lemon.C99_tables",
    "Verif.Lemon.C99_tokens",
    "Verif.Lemon.C99_language_partial",
    "Verif.Lemon.C99_accepted_partial"
   ],
   "note": "the tables and numbers are read from the text; the parser itself is the model of the code in the template; restrictions of C73"
  },
  {
   "property": "C100",
   "status": "proved",
   "theorems": [
    "Verif.Lemon.C100_asserts"
   ],
   "note": "the lines are found in the text of the C file; the parser is the model of the template"
  },
  {
   "property": "C101",
   "status": "proved",
   "theorems": [
    "Verif.Byacc.C101_file",
    "Verif.Byacc.codesOf_unique"
   ],
   "note": "joins C88, C90 and C82 for one file; the hypothesis on codes is needed (C82_codes_violated)"
  },
  {
   "property": "C102",
   "status": "proved",
   "theorems": [
    "Verif.Byacc.C102_inside",
    "Verif.Byacc.C102_only"
   ],
   "note": "C102_only: the list of reads misses none, since a round depends on no other elements of the tables; the reads of yyname and yyrule for debugging are not in the model"
  },
  {
   "property": "C103",
   "status": "partial",
   "theorems": [
    "Verif.Byacc.C103_switch",
    "Verif.Byacc.C103_file",
    "Verif.Byacc.C103_mark_violated"
   ],
   "note": "violated for an action with the line `#line 1 \"\"` (replaced); the numbers of lines in the directives for the grammar file are arbitrary in the model; actions in brackets are not in the model"
  },
  {
   "property": "C104",
   "status": "partial",
   "theorems": [
    "Verif.Byacc.C104_reader",
    "Verif.Byacc.C104_naked",
    "Verif.Byacc.C104_language",
    "Verif.Byacc.C104_dollar_violated"
   ],
   "note": "violated for names that start with $, which are left out; proved for all files without such names (bytes below 256)"
  },
  {
   "property": "C105",
   "status": "partial",
   "theorems": [
    "Verif.Byacc.C105_long",
    "Verif.Byacc.C105_same",
    "Verif.Byacc.C105_args",
    "Verif.Byacc.C105_taken",
    "Verif.Byacc.C105_names",
    "Verif.Byacc.C105_dashes_violated",
    "Verif.Byacc.C105_empty_violated",
    "Verif.Byacc.C105_ambiguous_violated"
   ],
   "note": "exact description proved; violated for arguments with -- near the end (rejected), for an empty name (taken) and for ambiguous abbreviations (taken)"
  },
  {
   "property": "C106",
   "status": "partial",
   "theorems": [
    "Verif.Byacc.C106_written",
    "Verif.Byacc.C106_distinct",
    "Verif.Byacc.C106_input",
    "Verif.Byacc.C106_graph_partial",
    "Verif.Byacc.C106_naked_violated",
    "Verif.Byacc.C106_input_violated",
    "Verif.Byacc.C106_graph_violated"
   ],
   "note": "which files are written is proved for all options; names are distinct except with both -n and -N; the input is safe if it ends in .y; -g with -o x.c reads freed memory. getopt itself is not modelled"
  },
  {
   "property": "C107",
   "status": "proved",
   "theorems": [
    "Verif.Byacc.C107_graph"
   ],
   "note": "the names printed for symbols are given"
  },
  {
   "property": "C108",
   "status": "proved",
   "theorems": [
    "Verif.Byacc.C108_state",
    "Verif.Byacc.C108_conflict",
    "Verif.Byacc.C108_report"
   ],
   "note": "without -B; the lines about conflicts in front of a state are C25; the lists of rules and symbols are C109"
  },
  {
   "property": "C109",
   "status": "proved",
   "theorems": [
    "Verif.Byacc.C109_rules",
    "Verif.Byacc.C109_symbols"
   ],
   "note": "for files that the model of the reader covers; the statement about the array of names is for names that can be printed (C89)"
  },
  {
   "property": "C110",
   "status": "partial",
   "theorems": [
    "Verif.Byacc.C110_lemon",
    "Verif.Byacc.C110_plain",
    "Verif.Byacc.C110_parser_partial",
    "Verif.Byacc.C110_recursive_violated",
    "Verif.Byacc.C110_prec_violated",
    "Verif.Byacc.C110_clash_violated",
    "Verif.Byacc.C110_literal_violated"
   ],
   "note": "proved for all files whose converted names are distinct and readable for lemon (C110_plain: conditions on the names in the file only); violated for recursive start symbols, clashing names, and '\\\\a'; the precedence of a rule without %prec is not the same"
  },
  {
   "property": "C111",
   "status": "partial",
   "theorems": [
    "Verif.Lemon.C111_report",
    "Verif.Lemon.C111_conflicts_partial",
    "Verif.Lemon.C111_conflicts_violated"
   ],
   "note": "proved for states, symbols and rules; conflicts are all shown with -c or if none is in a state that only reduces; violated otherwise. The names of symbols and the symbols in `because` are given"
  },
  {
   "property": "C112",
   "status": "partial",
   "theorems": [
    "Verif.Lemon.C112_header_partial",
    "Verif.Lemon.C112_first",
    "Verif.Lemon.C112_agrees",
    "Verif.Lemon.C112_unchanged_violated",
    "Verif.Lemon.C112_overflow_violated"
   ],
   "note": "the contents are proved; violated: the header is rewritten always (the comparison is with the format of earlier versions), a header in that format is kept, and names of about 960 bytes overflow the buffer of the comparison"
  },
  {
   "property": "C113",
   "status": "partial",
   "theorems": [
    "Verif.Lemon.C113_names_partial",
    "Verif.Lemon.C113_distinct",
    "Verif.Lemon.C113_input",
    "Verif.Lemon.C113_directory_violated",
    "Verif.Lemon.C113_input_violated"
   ],
   "note": "violated for grammar files without extension in (or with -d for) a directory with a dot such as `../g`, and for grammar files called *.c, *.h, *.out, *.sql"
  },
  {
   "property": "C114",
   "status": "partial",
   "theorems": [
    "Verif.Lemon.C114_run",
    "Verif.Lemon.C114_files",
    "Verif.Lemon.C114_usage",
    "Verif.Lemon.C114_crash_violated",
    "Verif.Lemon.C114_joined_violated",
    "Verif.Lemon.C114_dashes_violated",
    "Verif.Lemon.C114_directory_violated"
   ],
   "note": "what each command line does is characterised exactly; violated: joined flags, --, a directory in the next argument, and W=... (and f=, I=, O=), which calls a null pointer"
  },
  {
   "property": "C115",
   "status": "partial",
   "theorems": [
    "Verif.Lemon.C115_rules_partial",
    "Verif.Lemon.C115_tables_violated",
    "Verif.Lemon.C115_parser_violated"
   ],
   "note": "violated for every grammar: the number of states is never set, the tables are empty and every first token is shifted"
  },
  {
   "property": "C116",
   "status": "partial",
   "theorems": [
    "Verif.Lemon.C116_user",
    "Verif.Lemon.C116_search_partial",
    "Verif.Lemon.C116_hidden_violated",
    "Verif.Lemon.C116_overflow_violated",
    "Verif.Lemon.C116_empty_violated"
   ],
   "note": "violated: a file in PATH that exists but can not be read hides later ones, paths of 997 bytes overflow a buffer, an empty PATH makes lemon use memory that was not written; the name of the grammar file as in C113"
  },
  {
   "property": "C117",
   "status": "partial",
   "theorems": [
    "Verif.Lemon.C117_sql_partial",
    "Verif.Lemon.C117_symbols",
    "Verif.Lemon.C117_precs",
    "Verif.Lemon.C117_rules_partial",
    "Verif.Lemon.C117_directives_partial",
    "Verif.Lemon.C117_rhs_partial",
    "Verif.Lemon.C117_ignored_violated",
    "Verif.Lemon.C117_start_violated",
    "Verif.Lemon.C117_empty_violated",
    "Verif.Lemon.C117_quote_violated"
   ],
   "note": "violated: the start symbol written is the left side of the first rule even if %start_symbol names another one; with -u a NULL pointer is used for rules with a precedence in brackets; a token class without tokens makes statements without rows; quotes in the stack size are not doubled. The statements that are the same for all grammars (tables and views) are not modelled"
  },
  {
   "property": "C118",
   "status": "partial",
   "theorems": [
    "Verif.Lemon.C118_file",
    "Verif.Lemon.C118_exit",
    "Verif.Lemon.C118_declares",
    "Verif.Lemon.C118_expect_partial",
    "Verif.Lemon.C118_twice_violated",
    "Verif.Lemon.C118_name_violated"
   ],
   "note": "the exit status is proved exactly; violated for %expect: two declarations of 1 declare 11, and an argument that is no number declares 0 without a message; opening and writing files is assumed to succeed, numbers beyond the type int are not modelled"
  },
  {
   "property": "C119",
   "status": "partial",
   "theorems": [
    "Verif.Lemon.C119_reads_partial",
    "Verif.Lemon.C119_words_partial",
    "Verif.Lemon.C119_language_partial",
    "Verif.Lemon.C119_numbers_partial",
    "Verif.Lemon.C119_stack_violated",
    "Verif.Lemon.C119_start_violated",
    "Verif.Lemon.C119_empty_violated"
   ],
   "note": "for files without a stack size, without empty classes and without rules for classes lemon reads the printed text without an error, and tokens, fallbacks, associativities, the order of precedences, wildcard and language are the same; violated: a stack size is printed with a full stop that lemon rejects, the start symbol printed is the first left side, and for an empty class memory outside of an array is read"
  }
 ]
}