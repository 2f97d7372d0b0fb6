B="Verif.Byacc."
L="Verif.Lemon."
c("C01","proved",[B+"C01_transitive_closure",B+"C01_reflexive_transitive_closure",B+"C01_frame"])
c("C02","proved",[B+"C02_nullable"])
c("C22","proved",[B+"C22_readback",B+"C22_walk"])
c("C23","proved",[B+"C23_explicit",B+"C23_yacc",B+"C23_lemon",B+"C23_ignore",B+"C23_declarations",L+"C23_mark",L+"C23_first",L+"C23_last",L+"C23_none"],"")
c("C30","proved",[L+"C30_first_sets"],"")
c("C31","proved",[L+"C31_propagation",L+"C31_fuel"],"")
c("C32","proved",[L+"C32_lookaheads",L+"C32_plain",L+"C32_same_as_yacc",L+"C32_fuel"],"the action lists made from the sets are in C33; agreement with byacc needs that the start symbol is on no right-hand side, which lemon checks")
c("C03","proved",[B+"C03_closure",B+"C03_closure_least"])
c("C04","proved",[B+"C04_automaton"])
c("C05","partial",[B+"C05_lookup",B+"C05_absent_violated"],"lookup of existing transitions proved; the claim about absent transitions is false of the code and its negation is proved")
c("C06","proved",[B+"C06_digraph"])
c("C07","proved",[B+"C07_transpose"])
c("C08","proved",[B+"C08_lalr_lookaheads"])
c("C55","partial",[B+"C55_states_partial",B+"C55_reads_partial",B+"C55_includes_violated"],"state and reads buffers proved large enough; the includes buffer is overrun, shown on a concrete grammar")
c("C09","proved",[B+"C09_rows"])
c("C10","proved",[B+"C10_kept",B+"C10_table"])
c("C11","proved",[B+"C11_totals",B+"C11_no_precedence"])
c("C12","partial",[B+"C12_expect_partial",B+"C12_violated"],"holds when there is at least one conflict; false without conflicts, shown on a concrete grammar")
c("C13","proved",[B+"C13_default_reductions"])
c("C24","proved",[B+"C24_unused"])
c("C15","proved",[B+"C15_lookup",B+"C15_generated"])
c("C16","partial",[B+"C16_bounds_partial",B+"C16_generated_partial",B+"C16_violated"],"proved below 1200 entries; the scan for a free slot can leave the array, shown on a concrete vector")
c("C17","proved",[B+"C17_sound"])
c("C18","proved",[B+"C18_complete"])
c("C19","partial",[B+"C19_stack_partial",B+"C19_maximum_violated"],"everything but the bound by YYMAXDEPTH, which holds only if YYINITSTACKSIZE does not exceed it; the violation is shown")
c("C14","partial",[B+"C14_nonassoc_partial",B+"C14_violated"],"holds in states without default reduction (byacc); violated otherwise, shown on a concrete grammar")
c("C20","proved",[B+"C20_three_tokens",B+"C20_no_action",B+"C20_recovery_ends",B+"C20_input_consumed_once",B+"C20_recovery_is_bounded"])
c("C56","partial",[B+"C56_unambiguous_partial",B+"C56_violated"],"unambiguous if the accepting state has no reduction at the end of input; violated otherwise")
c("C57","partial",[B+"C57_raise_partial",B+"C57_violated"],"violated when the lookahead has not been read")
c("C52","proved",[B+"C52_default_goto"])
c("C58","proved",[B+"C58_macros",B+"C58_success",B+"C58_failure"])
c("C21","proved",[B+"C21_codes",B+"C21_unique",B+"C21_error_code_violated",B+"C21_indices"],"the remark about code 256 is shown by C21_error_code_violated")
c("C50","proved",[B+"C50_rules",B+"C50_language",B+"C50_layout"])
c("C54","partial",[B+"C54_drops",B+"C54_empty_partial",B+"C54_violated"],"violated: everything after %empty is dropped")
c("C51","proved",[B+"C51_roundtrip"])
c("C60","proved",[B+"C60_literal_names",B+"C60_literals_distinct"])
c("C59","proved",[B+"C59_case",B+"C59_literal"])
c("C29","partial",[B+"C29_defined_partial",B+"C29_violated"],"violated exactly for two character literals")
c("C28","partial",[B+"C28_distinct_partial",B+"C28_violated"],"violated for long names, dots and some literals; holds for plain names")
c("C25","partial",[B+"C25_lines_partial",B+"C25_violated"],"all of a line but the first left side of a reduce/reduce conflict is right; that one is wrong, shown on a concrete grammar")
c("C26","proved",[B+"C26_nulls"])
c("C61","partial",[B+"C61_lines_partial",B+"C61_violated"],"holds in states where precedence discarded nothing; violated otherwise")
c("C27","proved",[B+"C27_map",L+"C27_table",L+"C27_lemon",L+"C27_strings"])
c("C44","partial",[L+"C44_msort_partial",L+"C44_msort_perm_partial",L+"C44_violated",L+"C44_rule_sort_partial"],"proved below 2^30 elements (2^32 for the rule list); a list of exactly 2^30 elements loses half of them")
c("C45","proved",[L+"C45_order",L+"C45_bijection",L+"C45_table_partial"],"the sorted list is exact below 2^32 rules; nrule is an int, so that is no restriction on the code")
c("C33","proved",[L+"C33_resolution"])
c("C34","partial",[L+"C34_abort_iff",L+"C34_no_abort_partial",L+"C34_violated"],"violated; the exact condition for the abort is C34_abort_iff")
c("C53","proved",[L+"C53_lemon",B+"C11_no_precedence"])
c("C35","proved",[L+"C35_compress"],"shift becomes shift-and-reduce and chains of rules A -> B without code are skipped, as stated there")
c("C62","partial",[L+"C62_ends_partial",L+"C62_violated"],"holds if no nonterminal derives itself by rules A -> B without code; violated otherwise, shown on two concrete grammars")

c("C36","proved",[L+"C36_pack",L+"C36_tables"])
c("C37","partial",[L+"C37_bounds_partial",L+"C37_violated"],"indices into yy_lookahead and yy_action are in bounds; the index into yy_shift_ofst need not be, shown on a concrete grammar")
c("C38","partial",[L+"C38_lookup_partial",L+"C38_chains_partial",L+"C38_violated",L+"C38_cycle_violated"],"exact if no fallback has a fallback (without assertions: for all fallbacks); cycles of fallbacks make the lookup hang, and a reduction that became the default is hidden by a fallback")
c("C63","partial",[L+"C63_report_partial",L+"C63_enough_partial",L+"C63_violated"],"holds under a condition on the set inserted last, in particular if there are at least as many nonterminals as tokens")
c("C41","proved",[L+"C41_bound",L+"C41_runs",L+"C41_overflow",L+"C41_agree"])
c("C42","partial",[L+"C42_peak_partial",L+"C42_assert_partial",L+"C42_violated"],"holds if no rule is empty and the stack grows as needed; violated otherwise")
c("C43","partial",[L+"C43_type",L+"C43_narrow",L+"C43_tables",L+"C43_stack",L+"C43_lengths_partial",L+"C43_violated"],"holds for all tables but that of rule lengths; those do not fit if a rule has more than 128 symbols")
c("C39","partial",[L+"C39_derivation_partial",L+"C39_sentence_partial",L+"C39_plain_partial"],"for rules of at most 255 symbols; the table of rule lengths has elements of type signed char")
c("C40","partial",[L+"C40_accepts_partial",L+"C40_reported_partial",L+"C40_language_partial",L+"C40_violated"],"holds without compression (-c) for all fallbacks and wildcards; with compression it is violated if there are fallbacks or a wildcard, shown on concrete grammars, and holds otherwise if each state has a row of actions on tokens")
c("C46","partial",[L+"C46_bytes",L+"C46_selected_partial",L+"C46_define",L+"C46_violated"],"a last line %endif without a line break is not recognized")
c("C47","partial",[L+"C47_value",L+"C47_accepted_partial",L+"C47_position",L+"C47_line",L+"C47_violated"],"well-formed conditions evaluate as claimed; the accepted texts are characterized exactly, and contain malformed ones")
c("C49","partial",[L+"C49_violated",L+"C49_rest_partial",L+"C49_lines"],"violated for every file name and every set of options")
c("C64","partial",[L+"C64_unterminated_partial",L+"C64_violated"],"only conditionals not taken are reported")
c("C48","partial",[L+"C48_partial",L+"C48_sound_partial",L+"C48_overrun",L+"C48_violated"],
 "The claim is false: C48_violated gives a grammar with two multi-terminals in a rule whose printed file loses sentences, and one whose declared start symbol is replaced. C48_partial proves it for grammars with at most one multi-terminal per rule whose start symbol is that of the first rule: printed text, tokens, precedences, order of rules and the language. C48_overrun says exactly when memory behind a list is read.")
c("C65","proved",[B+"C65_prefix",B+"C65_error"])
c("C66","partial",[L+"C66_prefix_partial",L+"C66_error_partial",L+"C66_exact_partial",L+"C66_violated"],"exact for grammars without fallbacks and wildcard; false with compressed tables and fallbacks or a wildcard")
c("C67","partial",[L+"C67_partial",L+"C67_errsym_partial",L+"C67_violated"],"as claimed for parsers without an error symbol; with one, the exact condition is proved, and that it differs from the claim")
c("C68","partial",[L+"C68_tokens_partial",L+"C68_symbols",L+"C68_symbols_end",L+"C68_tokens_violated"],"symbols as claimed (rules of at most 128 symbols); tokens as claimed unless the stack overflows")
c("C69","partial",[L+"C69_partial",L+"C69_hwm",L+"C69_violated"],"as claimed for grammars without an error symbol whose rules have at most 255 symbols; false with an error symbol")
c("C70","partial",[L+"C70_repair_partial",L+"C70_nearest_partial",L+"C70_bottom_violated",L+"C70_violated",L+"C36_goto_partial",L+"errExact_of"],"as claimed, the bottom of the stack apart, if no row of the tables with an entry for the error symbol has the offset of another row; false otherwise, and false for the bottom of the stack")
c("C71","partial",[L+"C71_words",L+"C71_unique",L+"C71_open",L+"C71_lines",L+"C71_violated",L+"C71_comment_violated"],"as claimed for every text that is divided into words, and for open strings and braces; false for code with an open comment or literal, and for an open comment")
c("C72","partial",[L+"C72_says",L+"C72_valid",L+"C72_first",L+"C72_recover",L+"C72_unended_violated",L+"C72_class_violated",L+"C72_fallback_violated",L+"C72_status_violated"],"as claimed for files that end with a complete rule or declaration; false for others, and three further defects are shown")
c("C73","partial",[L+"C73_numbers",L+"C73_grammar",L+"C73_data",L+"C73_start",L+"C73_parser_partial",L+"C73_accepted_partial",L+"C73_class_violated",L+"C73_start_violated",L+"C73_error_violated"],"from the text of the file to the parser; for files in which class names are not left sides, the start symbol is a nonterminal and so on (Sound); false for others, with witnesses")
c("C74","partial",[L+"C74_union_partial",L+"C74_error_violated"],"as claimed for every file in which `error` is not declared as a token class; false for others, with a witness")
c("C75","partial",[L+"C75_file_partial",L+"elem_data",L+"C75_pieces",L+"C75_safe_partial",L+"C75_code_partial",L+"C75_errors_partial",L+"C75_around_partial",L+"C75_lines",L+"C75_cases",L+"C75_end_violated",L+"C75_mark_violated",L+"C75_class_violated",L+"C75_alternatives_violated",L+"C75_major_violated"],"as claimed unless the comment comes directly behind a label or an empty token class has a label; code that ends in a label is never translated; the other defects are shown by witnesses")
c("C76","partial",[L+"C76_file_partial",L+"C76_switch_partial",L+"C76_unique",L+"C76_lines",L+"C76_text",L+"C76_end",L+"replaced_unique",L+"C76_default_violated",L+"C76_error_violated",L+"C76_token_violated"],"as claimed if the nonterminals that use the default destructor have the same type or it has no `$$`; false otherwise, and destructors of tokens and classes are ignored")
c("C77","partial",[L+"C77_values_partial",L+"C77_erase",L+"C77_follow",L+"C77_all",L+"C77_once_partial",L+"C77_error_violated",L+"C77_empty_violated"],"as claimed if empty rules set the value of their left side and there is no error symbol (rules of at most 128 symbols, no overflow); both exceptions are shown by witnesses")
c("C78","partial",[B+"C78_lines",B+"C78_lines_plain",B+"C78_space",B+"C78_space_error",B+"C78_keyword",B+"C78_name",B+"C78_number",B+"C78_literal",B+"C78_literal_roundtrip",B+"C78_tag",B+"C78_tag_error",B+"C78_unique",B+"C78_line_directive_violated",B+"C78_line_rest_violated",B+"C78_byte_255_violated"],"as claimed, in both directions; the three exceptions (unfinished #line directives, text behind a directive, byte 255) are part of the specification and shown as violations")
c("C79","partial",[B+"C79_action",B+"C79_slot",B+"C79_before",B+"C79_plain",B+"C79_beyond_violated",B+"C79_name_violated",B+"C79_untyped_violated"],"as claimed, in both directions; the three exceptions are part of the specification and shown as violations")
c("C80","partial",[B+"C80_accepted",B+"C80_unique",B+"C80_meaning",B+"C80_first_violated",B+"C80_order_violated",B+"C80_codes_violated"],"as claimed, in both directions, for the constructs modelled; the exceptions are part of the specification and shown as violations")
c("C81","proved",[B+"C81_left_to_right"])
c("C82","partial",[B+"C82_tables",B+"C82_sound",B+"C82_complete",B+"C82_actions",B+"C82_check",B+"C82_codes_violated",B+"C82_nul_violated"],"as claimed for files in which no two tokens share a code; false for others, with witnesses")
c("C83","partial",[B+"C83_conflict_lists_partial",B+"C83_unused",B+"C83_violated"],"as claimed where precedence does not decide between alternatives; that listed alternatives are possible ones, that no list is empty and that the array is not overrun holds always; a witness shows what is lost where precedence decides in part")
c("C84","partial",[B+"C84_backtrack_sound",B+"C84_read_violated",B+"C84_stale_violated"],"as claimed; the two exceptions are shown by witnesses")
c("C85","partial",[B+"C85_backtrack_complete_partial",B+"C85_overflow_violated",B+"C85_precedence_violated",B+"C85_recovery_violated"],"as claimed (that the parser stops is not); the three exceptions are shown by witnesses, the first for every size of the stack")
c("C86","partial",[B+"C86_same_partial",B+"C86_yyerror_violated"],"as claimed for actions without YYERROR; false for others, with a witness")
c("C87","partial",[B+"C87_lines_partial",B+"C87_actions",B+"C87_actions_l",B+"C87_block_counted",B+"C87_initial_violated",B+"C87_externs_violated",B+"C87_ident_violated"],"as claimed but for the three exceptions, for each of which it is proved that the last directive is always wrong")
c("C88","proved",[B+"C88_arrays",B+"C88_defines",B+"C88_largest"])
c("C89","partial",[B+"C89_names",B+"C89_rules",B+"C89_file",B+"C89_states",B+"C89_quote_violated"],"as claimed for files without string literals that contain a quote; false for every such literal")
c("C90","partial",[B+"C90_defines",B+"C90_file",B+"C90_twice_violated",B+"C90_keyword_violated",B+"C90_dot_violated"],"the lines are exactly as claimed; the three exceptions are shown by witnesses")
c("C91","partial",[B+"C91_text",B+"C91_line_partial",B+"C91_line_violated",B+"C91_apart_partial",B+"C91_apart_violated",B+"C91_brace_violated",B+"C91_count_violated"],"what is copied is characterised exactly; the line is right where code stands on the line of the brace, and proved to be wrong for every other block; the other exceptions are shown by witnesses, the last for every block")
c("C92","proved",[B+"C92_user_code",B+"C92_externs"],"the two values with which the third part is at hand (rest of the line, line number) are taken as the reader leaves them")
c("C93","proved",[B+"C93_prefix"])
c("C94","proved",[B+"C94_declarations"])
c("C95","partial",[L+"C95_offset",L+"C95_self_partial",L+"C95_violated",L+"C95_skip_violated",L+"C95_newline_violated"],"true with -m unless %include starts with a slash; without -m every directive behind the macros for tokens names its own line; the offset is proved exactly for all files whose macros are single lines")
c("C96","partial",[L+"C96_layout",L+"C96_bytes",L+"C96_rename_unique",L+"C96_order",L+"C96_memory",L+"C96_memory_violated"],"the text is as claimed; the byte in front of an empty string is read for every grammar without %include")
c("C97","proved",[L+"C97_arrays",L+"C97_constants"])
c("C98","proved",[L+"C98_tokens",L+"C98_names",L+"C98_rules",L+"C98_fallbacks",L+"C98_distinct"],"names without blanks, quotes, backslashes and stars; the scanner makes no others")
c("C99","partial",[L+"C99_tables",L+"C99_tokens",L+"C99_language_partial",L+"C99_accepted_partial"],"the tables and numbers are read from the text; the parser itself is the model of the code in the template; restrictions of C73")
c("C100","proved",[L+"C100_asserts"],"the lines are found in the text of the C file; the parser is the model of the template")
c("C101","proved",[B+"C101_file",B+"codesOf_unique"],"joins C88, C90 and C82 for one file; the hypothesis on codes is needed (C82_codes_violated)")
c("C102","proved",[B+"C102_inside",B+"C102_only"],"C102_only: the list of reads misses none, since a round depends on no other elements of the tables; the reads of yyname and yyrule for debugging are not in the model")
c("C103","partial",[B+"C103_switch",B+"C103_file",B+"C103_mark_violated"],"violated for an action with the line `#line 1 \"\"` (replaced); the numbers of lines in the directives for the grammar file are arbitrary in the model; actions in brackets are not in the model")
c("C104","partial",[B+"C104_reader",B+"C104_naked",B+"C104_language",B+"C104_dollar_violated"],"violated for names that start with $, which are left out; proved for all files without such names (bytes below 256)")
c("C105","partial",[B+"C105_long",B+"C105_same",B+"C105_args",B+"C105_taken",B+"C105_names",B+"C105_dashes_violated",B+"C105_empty_violated",B+"C105_ambiguous_violated"],"exact description proved; violated for arguments with -- near the end (rejected), for an empty name (taken) and for ambiguous abbreviations (taken)")
c("C106","partial",[B+"C106_written",B+"C106_distinct",B+"C106_input",B+"C106_graph_partial",B+"C106_naked_violated",B+"C106_input_violated",B+"C106_graph_violated"],"which files are written is proved for all options; names are distinct except with both -n and -N; the input is safe if it ends in .y; -g with -o x.c reads freed memory. getopt itself is not modelled")
c("C107","proved",[B+"C107_graph"],"the names printed for symbols are given")
c("C108","proved",[B+"C108_state",B+"C108_conflict",B+"C108_report"],"without -B; the lines about conflicts in front of a state are C25; the lists of rules and symbols are C109")
c("C109","proved",[B+"C109_rules",B+"C109_symbols"],"for files that the model of the reader covers; the statement about the array of names is for names that can be printed (C89)")
c("C110","partial",[B+"C110_lemon",B+"C110_plain",B+"C110_parser_partial",B+"C110_recursive_violated",B+"C110_prec_violated",B+"C110_clash_violated",B+"C110_literal_violated"],"proved for all files whose converted names are distinct and readable for lemon (C110_plain: conditions on the names in the file only); violated for recursive start symbols, clashing names, and '\\\\a'; the precedence of a rule without %prec is not the same")
c("C111","partial",[L+"C111_report",L+"C111_conflicts_partial",L+"C111_conflicts_violated"],"proved for states, symbols and rules; conflicts are all shown with -c or if none is in a state that only reduces; violated otherwise. The names of symbols and the symbols in `because` are given")
c("C112","partial",[L+"C112_header_partial",L+"C112_first",L+"C112_agrees",L+"C112_unchanged_violated",L+"C112_overflow_violated"],"the contents are proved; violated: the header is rewritten always (the comparison is with the format of earlier versions), a header in that format is kept, and names of about 960 bytes overflow the buffer of the comparison")
c("C113","partial",[L+"C113_names_partial",L+"C113_distinct",L+"C113_input",L+"C113_directory_violated",L+"C113_input_violated"],"violated for grammar files without extension in (or with -d for) a directory with a dot such as `../g`, and for grammar files called *.c, *.h, *.out, *.sql")
c("C114","partial",[L+"C114_run",L+"C114_files",L+"C114_usage",L+"C114_crash_violated",L+"C114_joined_violated",L+"C114_dashes_violated",L+"C114_directory_violated"],"what each command line does is characterised exactly; violated: joined flags, --, a directory in the next argument, and W=... (and f=, I=, O=), which calls a null pointer")
c("C115","partial",[L+"C115_rules_partial",L+"C115_tables_violated",L+"C115_parser_violated"],"violated for every grammar: the number of states is never set, the tables are empty and every first token is shifted")
c("C116","partial",[L+"C116_user",L+"C116_search_partial",L+"C116_hidden_violated",L+"C116_overflow_violated",L+"C116_empty_violated"],"violated: a file in PATH that exists but can not be read hides later ones, paths of 997 bytes overflow a buffer, an empty PATH makes lemon use memory that was not written; the name of the grammar file as in C113")
c("C117","partial",[L+"C117_sql_partial",L+"C117_symbols",L+"C117_precs",L+"C117_rules_partial",L+"C117_directives_partial",L+"C117_rhs_partial",L+"C117_ignored_violated",L+"C117_start_violated",L+"C117_empty_violated",L+"C117_quote_violated"],"violated: the start symbol written is the left side of the first rule even if %start_symbol names another one; with -u a NULL pointer is used for rules with a precedence in brackets; a token class without tokens makes statements without rows; quotes in the stack size are not doubled. The statements that are the same for all grammars (tables and views) are not modelled")
c("C118","partial",[L+"C118_file",L+"C118_exit",L+"C118_declares",L+"C118_expect_partial",L+"C118_twice_violated",L+"C118_name_violated"],"the exit status is proved exactly; violated for %expect: two declarations of 1 declare 11, and an argument that is no number declares 0 without a message; opening and writing files is assumed to succeed, numbers beyond the type int are not modelled")
c("C119","partial",[L+"C119_reads_partial",L+"C119_words_partial",L+"C119_language_partial",L+"C119_numbers_partial",L+"C119_stack_violated",L+"C119_start_violated",L+"C119_empty_violated"],"for files without a stack size, without empty classes and without rules for classes lemon reads the printed text without an error, and tokens, fallbacks, associativities, the order of precedences, wildcard and language are the same; violated: a stack size is printed with a full stop that lemon rejects, the start symbol printed is the first left side, and for an empty class memory outside of an array is read")
