import json
P=[]
def p(id,title,statement,quant,why,anchors):
    P.append(dict(id=id,title=title,statement=statement,quantifier=quant,why_tests_cant=why,anchors=anchors))
p("C01","Relation closure is exactly reachability",
 "After the closure routine runs on an n-by-n boolean relation, entry (i,j) is set if and only if j can be reached from i in the input relation by a path of one or more steps; the reflexive variant additionally sets exactly the diagonal. No bit outside the n-by-n square is changed.",
 "every n and every n-by-n relation","there are 2^(n*n) relations for each n and n is unbounded",
 ["byacc/warshall.c:transitive_closure","byacc/warshall.c:reflexive_transitive_closure","byacc/defs.h:BIT,SETBIT,WORDSIZE"])
p("C02","Nullable symbols are exactly those deriving the empty string",
 "For every grammar the generator marks a symbol nullable if and only if that symbol derives the empty string; the computation terminates.",
 "every grammar (any number of rules and symbols)","the set of grammars is infinite and the fixpoint may need arbitrarily many passes",
 ["byacc/lr0.c:set_nullable"])
p("C03","Item-set closure is exact and sorted",
 "For every grammar and every sorted kernel, the closure of the kernel contains an item if and only if it is a kernel item or the start of a rule whose left side is reachable, by repeatedly taking the first right-hand-side symbol, from a symbol after a dot in the kernel; items are listed in strictly increasing order without duplicates.",
 "every grammar and every kernel","infinitely many grammars and kernels; order/duplicate errors appear only for particular interleavings",
 ["byacc/closure.c:set_EFF","byacc/closure.c:set_first_derives","byacc/closure.c:closure"])
p("C04","LR(0) automaton is complete, duplicate free and every state is meaningful",
 "For every grammar the state construction terminates; no two states have the same kernel; state 0 is the start state; and for every state and symbol there is a transition exactly when some item of the state has its dot before that symbol, leading to the state whose kernel is exactly those items with the dot advanced.",
 "every grammar","number of states is unbounded and hash-chain collisions depend on the grammar",
 ["byacc/lr0.c:generate_states","byacc/lr0.c:get_state","byacc/lr0.c:new_itemsets","byacc/lr0.c:append_states","byacc/lr0.c:save_shifts","byacc/lr0.c:save_reductions"])
p("C05","Goto lookup finds exactly the requested transition",
 "For every state and nonterminal that has a transition, the binary search over the packed goto map terminates and returns the index of that very transition. When there is no such transition it never returns an index. (The second sentence is violated: for an absent transition the search can return the index of the next one; the generator only asks for transitions that exist.)",
 "every automaton, state and symbol","the search interval arithmetic has boundary cases for every table length",
 ["byacc/lalr.c:map_goto","byacc/lalr.c:set_goto_map"])
p("C06","Digraph computation returns the least solution",
 "Given initial sets F(x) and a relation R over n nodes, after the digraph routine F(x) equals the union of the initial F(y) over all y reachable from x through R (including x itself), for every graph including ones with cycles and nested strongly connected components.",
 "every n, relation and initial sets","graphs are unbounded; errors in component handling show only with particular nesting of cycles",
 ["byacc/lalr.c:digraph","byacc/lalr.c:traverse"])
p("C07","Transposition of the includes relation is exact",
 "The transposed edge lists contain an edge i->j exactly when the input contains j->i, with the same multiplicity.",
 "every list of edge lists","unbounded inputs", ["byacc/lalr.c:transpose"])
p("C08","Lookahead sets are exactly the LALR(1) lookaheads",
 "For every grammar, state and complete item, the lookahead set the generator computes contains a token if and only if some viable prefix leading to that state makes the LR(1) item with that lookahead valid.",
 "every grammar, state, rule and token","infinitely many grammars, and validity ranges over infinitely many viable prefixes",
 ["byacc/lalr.c:lalr","byacc/lalr.c:initialize_F","byacc/lalr.c:build_relations","byacc/lalr.c:compute_lookaheads"])
p("C09","Action rows are ordered and complete",
 "The action list of a state contains one shift per token transition and one reduce per (complete item, lookahead) pair and nothing else, ordered by token, shifts before reduces, reduces by ascending rule number.",
 "every state, shift list and lookahead assignment","unbounded rows and insertion orders",
 ["byacc/mkpar.c:get_shifts","byacc/mkpar.c:add_reductions","byacc/mkpar.c:add_reduce"])
p("C10","Conflict resolution leaves at most one action, chosen by the documented rule",
 "For every action row, after conflict resolution at most one action per token remains. With a shift and one reduce both having precedence, the higher precedence wins; on a tie left-associativity keeps the reduce, right keeps the shift and nonassoc keeps neither; if either lacks precedence the shift is kept and a shift/reduce conflict is counted. Two reduces without usable precedence keep the lower-numbered rule and count a reduce/reduce conflict.",
 "every row of actions, every precedence and associativity assignment","rows can be arbitrarily long and mixed",
 ["byacc/mkpar.c:remove_conflicts"])
p("C11","Reported conflict totals count exactly the unresolved competitors",
 "The shift/reduce and reduce/reduce totals printed equal the number of actions that were discarded without a precedence decision; if nothing has a precedence the total for a token is one less than the number of competing actions. Both totals are zero exactly when no action was discarded for lack of precedence.",
 "every table","unbounded tables", ["byacc/mkpar.c:remove_conflicts","byacc/mkpar.c:total_conflicts"])
p("C12","An %expect mismatch always makes the tool fail",
 "If the grammar declares an expected number of conflicts and the actual number differs, the exit status reports failure. (Violated when there are no conflicts at all: the check is skipped.)",
 "every pair of expected and actual counts","all pairs of integers",
 ["byacc/mkpar.c:make_parser","byacc/mkpar.c:total_conflicts"])
p("C13","Default reductions are chosen only when the reduce is the sole remaining action",
 "A state gets a default reduction by rule r only if every remaining action of the state is a reduce by r and at least one is on a token other than the error token; conversely every such state gets it.",
 "every action row","unbounded rows",["byacc/mkpar.c:sole_reduction","byacc/mkpar.c:defreds"])
p("C14","A nonassoc operator makes chained use a syntax error",
 "When a grammar declares a token %nonassoc and the shift/reduce choice on that token is a tie, the generated parser reports a syntax error on that token in that state. (Violated: the default reduction ignores actions removed by nonassoc, so in a state whose only other actions are the same reduce, the parser reduces and then accepts the chain. Also violated in lemon by the auto-reduce optimisation.)",
 "every grammar using nonassoc","requires checking all states of all grammars",
 ["byacc/mkpar.c:remove_conflicts","byacc/mkpar.c:sole_reduction","lemon/lemon.c:resolve_conflict","lemon/lemon.c:CompressTables"])
p("C15","Packed tables are equivalent to the unpacked rows",
 "For every set of action rows and goto columns, looking up (row, symbol) in the packed base/table/check arrays returns the row's entry when it has one and 'no entry' otherwise; no row can see another row's entry.",
 "every collection of rows, every query symbol","the packer's overlap choices depend on the complete table; the space of tables is infinite",
 ["byacc/output.c:pack_vector","byacc/output.c:matching_vector","byacc/output.c:pack_table","byacc/output.c:sort_actions","byacc/yaccpar.skel:yyparse"])
p("C16","The packer never touches memory outside its tables",
 "While packing, every read and write of the table and check arrays is inside the allocated size, for every input, including while scanning for the first free slot.",
 "every collection of rows","growth happens only for particular sizes", ["byacc/output.c:pack_vector"])
p("C17","Generated parser is sound",
 "Whatever the grammar (even with conflicts) and whatever the input, if the generated parser accepts without having reported a syntax error then the input is a sentence of the grammar, and the sequence of reductions performed is, reversed, a rightmost derivation of it.",
 "every grammar and every input string","infinitely many grammars and inputs",
 ["byacc/yaccpar.skel:yyparse","byacc/lr0.c","byacc/mkpar.c","byacc/output.c"])
p("C18","Generated parser is complete for conflict-free grammars",
 "If the generator reports no conflicts (and no precedence was used), the generated parser accepts every sentence of the grammar without reporting an error.",
 "every conflict-free grammar and every sentence","infinitely many grammars and sentences",
 ["byacc/lalr.c","byacc/mkpar.c","byacc/yaccpar.skel:yyparse"])
p("C19","Runtime stack discipline",
 "During any parse the number of stack cells in use never exceeds the allocated size, which never exceeds the configured maximum; every write to the stack is inside the allocation; if more room would be needed the parser stops with an overflow report.",
 "every table, every input, every initial size and maximum","unbounded executions",
 ["byacc/yaccpar.skel:yygrowstack","byacc/yaccpar.skel:yyparse","byacc/btyaccpar.skel"])
p("C20","Error recovery obeys the three-token rule and always ends",
 "After a syntax error is reported, no further error is reported until three tokens have been shifted; while in recovery each step pops a state, shifts the error token or discards one input token; at end of input the parse fails instead of looping.",
 "every table and every input","unbounded executions",["byacc/yaccpar.skel:yyparse"])
p("C21","Token codes are unique and stable",
 "Every token without an explicit number gets a code of at least 257 that differs from every explicit code above 256 and from every other automatic code; explicit codes are kept. (An explicit 256 can coincide with the error token.)",
 "every list of declarations","unbounded symbol lists",["byacc/reader.c:pack_symbols"])
p("C22","Internal grammar layout reproduces the grammar",
 "From the packed item array, rule starts and left sides one reads back exactly the user's rules in order after the added rule '$accept: goal $end'; walking forward from any item position to the first terminator gives that item's own rule number.",
 "every list of rules","unbounded grammars",["byacc/reader.c:pack_grammar"])
p("C23","Rule precedence selection",
 "Without %prec a rule takes precedence and associativity of its last terminal; with the lemon option it takes those of the first terminal that has a precedence; explicit %prec always wins; with the ignore option no rule has precedence.",
 "every right-hand side","unbounded right-hand sides",["byacc/reader.c:pack_grammar","lemon/lemon.c:FindRulePrecedences"])
p("C24","Unused-rule report is exact",
 "The number of 'never reduced' rules equals the number of user rules with no remaining reduce action in any state.",
 "every table","unbounded tables",["byacc/mkpar.c:unused_rules"])
p("C25","Conflict report names the right rule",
 "In the verbose report of a reduce/reduce conflict, the left-hand side printed for each rule is the left-hand side of that rule. (Violated: the name is looked up with the printed rule number instead of the internal one.)",
 "every reduce/reduce conflict","grammar dependent",["byacc/verbose.c:print_conflicts"])
p("C26","Empty rules listed for a state are sorted and complete",
 "In the verbose report, the list of empty rules printed for a state is strictly increasing and contains exactly the empty rules by which some action of the state reduces, other than actions discarded by precedence.",
 "every grammar and state","unbounded tables",["byacc/verbose.c:print_nulls"])
p("C27","Symbol table behaves as a map",
 "Looking a name up twice gives the same entry, different names give different entries, and the entry created keeps its attributes, whatever names were inserted before; order of creation is preserved.",
 "every sequence of lookups and every hash function","all insertion histories and hash collisions",
 ["byacc/symtab.c:lookup","lemon/lemon.c:Symbol_new,Symbol_find,Symbol_insert","lemon/lemon.c:Strsafe"])
p("C28","Converted grammars name distinct tokens differently",
 "When the grammar is converted to the other tool's syntax, two different tokens are never given the same name. (Violated: a character literal and an identifier of the same spelling collide; names longer than 63 characters are truncated.)",
 "every pair of token names","infinitely many names",["byacc/reader.c:get_lemon_token_name"])
p("C29","Token name conversion has no undefined behaviour",
 "Converting any token name reads only inside the name tables. (Violated for escapes that are not in the table.)",
 "every literal","infinitely many literals",["byacc/reader.c:get_lemon_token_name"])
p("C30","First sets and empty-string flags of lemon are exact",
 "For every grammar, after first-set computation a nonterminal's set contains a token iff the nonterminal derives a string starting with it, and the empty flag is set iff it derives the empty string.",
 "every grammar including multi-terminals","infinitely many grammars",["lemon/lemon.c:FindFirstSets","lemon/lemon.c:SetAdd,SetUnion"])
p("C31","Follow-set propagation reaches the least fixpoint",
 "The propagation loop terminates and the final set of each configuration is exactly the union of initial sets of the configurations from which it is reachable over propagation links.",
 "every link graph and initial sets","unbounded graphs",["lemon/lemon.c:FindFollowSets","lemon/lemon.c:FindLinks","lemon/lemon.c:Plink_copy"])
p("C32","lemon's lookaheads are exactly LALR(1)",
 "The tokens on which lemon adds a reduce action for a rule in a state are exactly the LALR(1) lookaheads; hence both tools compute the same lookaheads for the same grammar.",
 "every grammar","infinitely many grammars",["lemon/lemon.c:FindStates,getstate,buildshifts,Configlist_closure,FindFollowSets,FindActions"])
p("C33","lemon conflict resolution table",
 "Whenever conflict processing of a state finishes, at most one usable action per symbol remains and it is the one given by the precedence table; conflicts counted are exactly those without precedence information.",
 "every sorted action list","unbounded lists",["lemon/lemon.c:resolve_conflict","lemon/lemon.c:FindActions"])
p("C34","lemon never aborts on an internal assertion",
 "Conflict processing of any grammar ends normally. (Violated: a nonassoc shift tying with one reduce while a second reduce exists on the same token trips an assertion; so does a start symbol used on a right-hand side.)",
 "every grammar","infinitely many grammars",["lemon/lemon.c:resolve_conflict"])
p("C35","Table compression preserves parser behaviour on valid lookaheads",
 "For each state and token, if the uncompressed table has a shift, reduce or accept action, the compressed table with defaults gives the same action; a default is only used where the uncompressed table has the default's own reduce or no action.",
 "every action list","unbounded tables",["lemon/lemon.c:CompressTables"])
p("C36","Action-table packing is exact",
 "After all states are inserted in the packed action table, looking up any (state, token) pair or any existing (state, nonterminal) pair returns exactly that state's action, and a (state, token) pair without action is recognised as absent.",
 "every sequence of transactions","placement depends on complete history",["lemon/lemon.c:acttab_insert,acttab_action","lemon/lempar.c:yy_find_shift_action,yy_find_reduce_action"])
p("C37","Run-time table accesses stay in bounds",
 "For every state and every token code below the token count, the index computed by the generated parser lies inside the lookahead table, and every index used to fetch an action lies inside the action table.",
 "every table and token","unbounded tables",["lemon/lemon.c:acttab_insert,acttab_action_size,ReportTable","lemon/lempar.c:yy_find_shift_action"])
p("C38","Fallback and wildcard lookup",
 "If a token has no action in a state its fallback token is tried; otherwise the wildcard action if present and the token is not end of input; otherwise the default. (The generator does not reject fallback cycles, on which lookup does not terminate.)",
 "every state, token and fallback map","all maps",["lemon/lempar.c:yy_find_shift_action","lemon/lemon.c:parseonetoken"])
p("C39","lemon parser soundness",
 "If the push parser accepts after being fed a token sequence without reporting an error, the sequence is a sentence of the grammar.",
 "every grammar and input","infinite",["lemon/lempar.c:Parse,yy_reduce,yy_shift"])
p("C40","lemon parser completeness",
 "If the grammar has no conflicts, feeding any sentence followed by end of input makes the parser accept, provided the stack is deep enough.",
 "every conflict-free grammar and sentence","infinite",["lemon/lempar.c:Parse","lemon/lemon.c:FindActions"])
p("C41","lemon stack never overflows its array",
 "For every input the stack index stays within the configured depth; exceeding it pops everything and reports overflow.",
 "every table, input and depth","unbounded executions",["lemon/lempar.c:yy_shift,Parse,yyStackOverflow"])
p("C42","Stack high-water mark tracking is consistent",
 "With peak tracking on, the recorded peak equals the largest depth reached. (Violated: a push by an empty rule is not recorded and the next shift then trips an assertion.)",
 "every execution","unbounded executions",["lemon/lempar.c:yy_shift,Parse"])
p("C43","Generated integer types can hold every table value",
 "The C type chosen for a table can represent every value in the declared range; rule lengths fit the type used for them. (Violated for right-hand sides longer than 128 symbols although up to 1000 are accepted.)",
 "all integer ranges and lengths","unbounded ranges",["lemon/lemon.c:minimum_size_type","lemon/lempar.c:yyRuleInfoNRhs"])
p("C44","List sorting returns a sorted permutation",
 "The linked-list merge sort returns a permutation of its input ordered by the comparison, for lists of any length and any total preorder.",
 "every list and comparison","unbounded lists",["lemon/lemon.c:msort,merge","lemon/lemon.c:Rule_sort,Rule_merge"])
p("C45","Rule renumbering puts rules with code first and keeps relative order",
 "Rule numbers are a bijection onto 0..n-1; rules with code are numbered first; within each group source order is kept; sorting by number yields the table order.",
 "every rule list","unbounded lists",["lemon/lemon.c:main","lemon/lemon.c:Rule_sort"])
p("C46","Conditional compilation keeps exactly the selected text",
 "Preprocessing keeps the length of the text and every line break; for properly nested conditionals it blanks exactly the directive lines and the text in branches not taken.",
 "every input text and macro set","unbounded nesting",["lemon/lemon.c:preprocess_input"])
p("C47","Condition evaluation",
 "A well-formed condition evaluates to its boolean value with operators grouped to the right and short-circuit; a malformed one is reported.",
 "every expression and macro set","unbounded expressions",["lemon/lemon.c:eval_preprocessor_boolean"])
p("C48","lemon to yacc conversion preserves the grammar",
 "The printed yacc grammar generates the same language as the input. (Violated: rules with two multi-terminals are expanded diagonally, possibly reading past the shorter list, and the declared start symbol is replaced by the first rule's left side.)",
 "every grammar","infinite",["lemon/lemon.c:rule_print_yacc,rule_print_yacc0,Reprint_yacc"])
p("C49","Generated C file starts with a well-formed comment",
 "The header comment of the generated C file is closed exactly once. (Violated for every grammar: text and a second closer follow the closed comment.)",
 "every file name","all file names",["lemon/lemon.c:ReportTable"])
p("C50","Automatically created rules for mid-rule actions preserve the language",
 "Replacing an embedded action by a fresh empty nonterminal does not change the set of sentences.",
 "every grammar and position","infinite",["byacc/reader.c:insert_empty_rule"])
p("C51","String quoting for generated tables round-trips",
 "Quoting any byte string for output escapes exactly quotes and backslashes so that unquoting yields the original.",
 "every string","infinite",["byacc/reader.c:protect_string"])
p("C52","Default goto never changes a defined goto",
 "For every nonterminal, the default target plus exceptions reproduces the target of every existing transition, and the default is a most frequent target.",
 "every goto column","unbounded tables",["byacc/output.c:default_goto","byacc/output.c:save_column"])
p("C53","Both generators count the same conflicts when precedence is ignored",
 "With precedences ignored, for each state/token set of competing actions both tools count one less than the number of competitors.",
 "every multiset of competing actions","infinite",["byacc/mkpar.c:remove_conflicts","lemon/lemon.c:FindActions,resolve_conflict"])
p("C54","An explicit empty-rule marker does not change the rest of the grammar",
 "Writing %empty in an empty right-hand side gives the same grammar as leaving it blank. (Violated: everything after the first %empty is dropped.)",
 "every grammar text","infinite",["byacc/reader.c:mark_symbol,read_grammar"])
p("C55","Work buffers of the lookahead computation are large enough",
 "While the reads and includes relations are computed, the temporary edge and state buffers, sized by the number of gotos and the longest right-hand side, are never overrun. (Violated for the edge buffer: many rules of one nonterminal give more include edges than gotos.)",
 "every grammar","the grammar must have more rules per goto than gotos",["byacc/lalr.c:initialize_F","byacc/lalr.c:build_relations"])
p("C56","A grammar without reported conflicts is unambiguous and its parser ends",
 "If no precedence is used and no conflicts are reported, every sentence has exactly one rightmost derivation, and the generated parser ends on every input. (Violated: a reduction at end of input in the accepting state competes with accepting but is not counted; a: a | 'x' is ambiguous, gets no report, and its parser loops on x x.)",
 "every grammar, sentence and input","ambiguity is undecidable; testing cannot show its absence",["byacc/mkpar.c:remove_conflicts,sole_reduction","byacc/lr0.c:new_itemsets","byacc/yaccpar.skel:yyparse"])
p("C57","An error raised by an action during recovery makes progress",
 "When an action executes YYERROR the parser pops, discards input or fails, so a parse ends even if every action of some rule raises an error. (Violated: with a default reduction after the error token and no lookahead read, the same action is executed forever and no input is read.)",
 "every table, action and input","unbounded executions",["byacc/yaccpar.skel:yyparse","byacc/btyaccpar.skel"])
p("C58","A parse ends only for a documented reason",
 "An action executing YYACCEPT (YYABORT) ends the parse at once with success (failure). Otherwise a parse succeeds only at a reduction that leaves the goal symbol on the stack at the end of the input, and fails only when recovery has emptied the stack or meets the end of the input.",
 "every table, action and execution","unbounded executions",["byacc/yaccpar.skel:yyparse","byacc/btyaccpar.skel"])
p("C59","Converted names keep tokens and nonterminals apart",
 "When a grammar is converted to lemon's syntax, every converted token name starts with an upper-case letter and every converted nonterminal name that starts with a letter starts with a lower-case one, so that a token and a nonterminal never get the same name.",
 "every name","infinitely many names",["byacc/reader.c:get_lemon_token_name","byacc/reader.c:get_lemon_rule_name"])
p("C60","Different literals are different tokens",
 "The internal name made for a character or string literal determines its characters: reading the name back gives the literal, so two literals share a symbol only if they denote the same characters.",
 "every literal","infinitely many literals",["byacc/reader.c:get_literal"])
p("C61","The verbose report lists every counted conflict",
 "For every state the verbose report has one line for each shift/reduce and each reduce/reduce conflict counted. (Violated where precedence discarded an action of the state: the first action left is taken for the preferred one and its conflict is not printed.)",
 "every grammar and precedence assignment","needs particular combinations of precedences",["byacc/verbose.c:print_conflicts","byacc/mkpar.c:remove_conflicts"])
p("C62","Table compression ends normally",
 "Skipping reductions by rules A ::= B without code ends for every grammar. (Violated: if a nonterminal derives itself by such rules and a conflict is resolved in favour of them, the generator fails an assertion or does not end.)",
 "every grammar","non-termination; needs particular cyclic grammars",["lemon/lemon.c:CompressTables"])
p("C63","Making lemon's tables reads no memory out of bounds",
 "While the action table is packed and written, every index is inside of the array allocated for it, for every grammar. (Violated: the size of the table is raised without enlarging the array; if all actions on tokens are in one set with large token codes, the array is read beyond its end.)",
 "every grammar","memory safety for all grammars; needs a particular shape of the table",["lemon/lemon.c:acttab_insert,acttab_action_size,ReportTable"])
p("C64","Unbalanced conditionals are reported",
 "A conditional of a grammar file without a matching end, or an %else or %endif without a conditional, is reported with its line. (Violated: only conditionals not taken and never closed are reported.)",
 "every input text and macro set","unbounded nesting",["lemon/lemon.c:preprocess_input"])
p("C65","A syntax error is reported at the first impossible token (byacc)",
 "As long as a generated parser has not reported a syntax error, the tokens it has shifted are the first tokens of the input and begin some sentence of the grammar, provided every nonterminal derives some string of tokens. If the grammar uses no precedence and has no conflicts, then when the first error is reported, no sentence begins with the tokens shifted followed by the next token: default reductions and table compression never delay an error past a token.",
 "every grammar, every input and every point of the parse","unbounded inputs; a test shows the position of an error for single inputs only",["byacc/yaccpar.skel:yyparse","byacc/btyaccpar.skel:yyparse","byacc/mkpar.c:sole_reduction","byacc/output.c:pack_table"])
p("C66","A syntax error is reported at the first impossible token (lemon)",
 "After any tokens, a parser made by lemon has reported a syntax error if and only if no sentence of the grammar begins with these tokens. (Holds for grammars without conflicts, fallbacks and wildcard; violated for compressed tables with fallbacks or a wildcard, where an error is reported although the tokens are a sentence.)",
 "every grammar, every input and every point of the parse","unbounded inputs; a test shows the position of an error for single inputs only",["lemon/lempar.c:Parse,yy_find_shift_action","lemon/lemon.c:CompressTables"])
p("C67","Errors are reported once in three tokens (lemon)",
 "A parser made by lemon reports every syntax error, except that after an error no further error is reported until three tokens have been shifted or the parse has ended. Nothing else is reported, and no error twice. (Violated for grammars with an error symbol: four tokens are needed, and the end of a failed parse does not count.)",
 "every table, every sequence of tokens and every point of the parse","unbounded inputs with any number of errors",["lemon/lempar.c:Parse"])
p("C68","Every token and every symbol is used or destroyed exactly once (lemon)",
 "Every token given to a parser made by lemon is put on the stack or given to its destructor, exactly one of the two, unless it ends the input and the parser accepts. Every symbol put on the stack is used by exactly one reduction or destroyed exactly once or still on the stack; none is left when the parser has accepted or failed. (Violated on stack overflow: the token is neither put on the stack nor destroyed.)",
 "every grammar, every sequence of tokens, every depth of the stack","unbounded inputs; leaks in error paths are not seen by tests of results",["lemon/lempar.c:Parse,yy_shift,yy_reduce,yy_pop_parser_stack,yyStackOverflow,yy_parse_failed"])
p("C69","The end of input ends the parse and leaves a fresh parser (lemon)",
 "When a parser made by lemon is given the end of input, after any tokens with or without errors, it accepts, fails or overflows, and no symbols stay on its stack; unless it overflowed it is then as good as new, so that the next input is parsed as by a new parser. (Violated for grammars with an error symbol: the end of input may be thrown away, and the next input continues the old one.)",
 "every grammar and every sequence of tokens","unbounded inputs and unbounded series of inputs",["lemon/lempar.c:Parse,yy_parse_failed,yy_accept"])
p("C70","Error recovery uses the error symbol where the grammar allows it (lemon)",
 "When a parser made by lemon meets a syntax error in a grammar with an error symbol, it takes symbols off the stack down to the nearest place at which the grammar allows the error symbol, and shifts it there; if there is none it fails. When it accepts at last, what it accepted is a sentence of the grammar in which the error symbol stands for the parts that were thrown away. (Violated: the beginning of the input is never tried as such a place; and because rows of the packed tables can overlap, the error symbol may be shifted where the grammar does not allow it, after which the parser breaks.)",
 "every grammar with an error symbol and every sequence of tokens","unbounded inputs, stacks and grammars",["lemon/lempar.c:Parse,yy_find_reduce_action","lemon/lemon.c:acttab_insert,ReportTable"])
p("C71","Grammar files are divided into words correctly (lemon)",
 "lemon divides a grammar file into words exactly as described: white space and comments separate words, names are taken as long as possible, strings end at the next quote, blocks of C code end at the matching brace, where braces in comments, strings and character literals do not count, and a backslash in a literal protects the next character. Every word is given the number of the line on which it begins. A string or code that is not ended is reported. (Violated: code with a comment or literal that is not ended makes the scanner run past the end of the file in memory; a comment that is not ended silently swallows the rest of the file; the report of an open string shows line 0.)",
 "every file","unbounded texts and nesting",["lemon/lemon.c:Parse"])
p("C72","Grammar files are read correctly (lemon)",
 "lemon accepts a grammar file without a message if and only if the file is a list of complete, valid rules and declarations, and then it works with exactly the grammar written there: the rules in order with right sides, alternatives, aliases, code, precedence marks and line numbers; the symbols in the order of their first mention with kind, precedence and associativity, fallback, destructor, data type and members; the arguments of the declarations, joined if repeated, with #line directives for code. Otherwise the first message has the line of the first word that no valid file can have in its place, and the exit status tells failure. (Violated: a rule or declaration not ended at the end of the file is silently dropped; `cls|X` changes the class for all rules; a token may be its own fallback; with 256 messages the exit status is 0.)",
 "every file","unbounded files; every combination of declarations",["lemon/lemon.c:parseonetoken","lemon/lemon.c:Parse","lemon/lemon.c:Symbol_new","lemon/lemon.c:main"])
p("C73","The parser made from a grammar file accepts the language written in the file (lemon)",
 "From the text of a grammar file without mistakes, lemon gives every token the number that its first mention among the tokens has, starting with 1, takes the symbol named by %start_symbol, or else the left side of the first rule, as start symbol, and makes a parser that accepts a sequence of tokens if and only if the sentence can be derived from the start symbol by the rules written in the file, where a token class stands for any of its tokens. With conflicts, fallbacks or a wildcard every accepted sequence is a sentence after replacing tokens by what they may be taken for. (Violated: a token class may be used as a left side, a token as start symbol, and the error symbol in a token class, without any message.)",
 "every file and every sequence of tokens","unbounded files and unbounded inputs; the whole path from text to parser",["lemon/lemon.c:main","lemon/lemon.c:Parse","lemon/lemon.c:FindStates","lemon/lempar.c:Parse"])
p("C74","The values of symbols are kept in a union with a field for every type (lemon)",
 "For a grammar file without mistakes, the union that lemon writes for the values of symbols has one field for tokens and for nonterminals without a type of their own or with that of the tokens, one field for every other type (white space at its ends does not count, and a default type stands in for a missing one), and one for the error symbol. No two fields have the same number, every field is used, the field of each symbol has the type of its values, and two nonterminals have the same field exactly if their values have the same type. (Violated if `error` is declared as a token class: two fields have number 0.)",
 "every file, any number of types, any collisions of hash values","unbounded numbers of symbols and types; collisions depend on hash values",["lemon/lemon.c:print_stack_union"])
p("C75","Labels in the code of a rule stand for the right values (lemon)",
 "In the code of a rule every label, where it stands as a whole name, is replaced by the place of the value of its symbol, in the field of the union for that symbol; `@` with a label of the right side by the place of the number of the token; everything else is left as it is. The value of the left side is written where that of the first symbol is, or, if both have different labels and no comment `/*A-overwrites-B*/` allows this, kept in a variable and copied at the end. Every symbol of the right side without a label has its destructor called exactly once, the first one before the code, and no labelled symbol has. A message is given if and only if a label is not used, is used twice on the right side, is that of the left side but not on the first symbol or with another type, or is used after the comment. The code is printed once for all rules with the same code, after a #line directive with its line, and the directive behind it has the right line of the output. (Violated: code that ends in a label makes lemon read behind its end; the comment is not found directly behind a label; a labelled empty token class makes lemon use NULL; values of `A|B` and of token classes are never destroyed; `@A` is not replaced if `A` is also the label of the left side.)",
 "every rule of every file, any code","unbounded texts and numbers of symbols; combinations of labels, comments and destructors",["lemon/lemon.c:translate_code","lemon/lemon.c:has_destructor","lemon/lemon.c:emit_code","lemon/lemon.c:ReportTable"])
p("C76","Destroying a symbol runs its own destructor on its own value (lemon)",
 "When the generated parser destroys the value of a symbol, it runs the code of %token_destructor for a token, the code of the symbol's %destructor for a nonterminal, or else that of %default_destructor, with every `$$` replaced by the value in the field of the union that belongs to the symbol; for symbols without a destructor and for the end of the input it does nothing. No symbol has two cases in the switch, nonterminals with equal destructors share one, and the #line directives and line numbers are right. (Violated: `$$` in the default destructor is always the field of the last symbol that uses it, even that of the error symbol; a %destructor for a token or a token class is accepted but never run.)",
 "every file and every symbol","unbounded numbers of symbols, types and texts",["lemon/lemon.c:emit_destructor_code","lemon/lemon.c:ReportTable","lemon/lempar.c:yy_destructor"])
p("C77","Values follow their symbols and are computed along the parse tree (lemon)",
 "A token given to a parser made by lemon keeps its value, and so does every symbol: the code of a rule gets the values of its right side in order, the value it leaves is that of the left side, and a symbol is destroyed with its own value; ParseFree destroys all that is left. When the parser accepts, the value of the start symbol is the one computed along the parse tree of the tokens by the code of its rules, children first and from left to right. The value of a token is put on the stack or destroyed exactly once. (Violated: the error symbol is put on the stack with the value of the offending token, which is so destroyed twice; an empty rule without code gets whatever value was left in memory, for instance one already used.)",
 "every grammar, every sequence of tokens and values, any code","unbounded inputs and trees; stale values look right in most runs",["lemon/lempar.c:Parse,yy_shift,yy_reduce,yy_pop_parser_stack,ParseFinalize"])
p("C78","The words of a grammar file are read as they are written (byacc)",
 "byacc numbers the lines of its input one after the other, except that a #line directive sets the number and file name of the next line and is left out. White space, commas, semicolons and comments between words are skipped, and nothing else; the only failure there is a comment that does not end, reported at its start. A keyword is the longest word after %, upper and lower case and _ and - being the same; a name is the longest sequence of name characters and must not be reserved; a number is its decimal value and at most the greatest int; a literal stands for its characters with the escapes of C; a tag is a name in angle brackets. The name by which a literal is printed is read as the same literal. (Violated: a #line directive without file name sets the line number but is a syntax error although the documented pattern allows it; anything behind a directive on its line is dropped silently; a byte 255 ends the file silently.)",
 "all files without NUL bytes","files and words have any length; the pitfalls are in rare characters and in what follows a word",["byacc/reader.c:line_directive,get_line,skip_comment,next_inline,nextc,keyword,is_reserved,get_name,get_number,get_literal,get_tag,hexval"])
p("C79","Actions are translated correctly (byacc)",
 "In an action of a grammar file byacc replaces `$$` by the value of the left side, `$n` by the value of the n-th symbol in front of the action, `@$` and `@n` by their positions, and `$<tag>` forms likewise with the given type; with types declared, each value gets the type of its symbol, and one without a type is refused. Everything else is copied: strings, character constants and comments as a whole (with `//` comments turned into `/* */`), and code up to the brace that closes the action, or up to the semicolon outside of braces. The place that stands for `$n` is that of the n-th symbol on the value stack. (Violated: a number greater than the number of symbols in front of the action is only warned about and becomes a place above the top of the stack; a name or a single minus sign after `$` becomes the value in front of the rule; `$1` in an action without symbols in front is accepted without a type although types are declared.)",
 "all texts of actions, all numbers and types of symbols","actions have any length and nesting; the interplay of strings, comments, braces and references has too many cases",["byacc/reader.c:copy_action,copy_string,copy_comment"])
p("C80","A grammar file means what it says (byacc)",
 "byacc accepts a grammar file exactly if it consists of declarations, %% and rules, the declarations fit together (the start symbol is not a token, at most one union), no token has rules, the start symbol has some, and each reference in an action has a type if types are used. There is only one way to read a text. What byacc then works with is what the file says: the symbols in the order in which they are first named, those with rules being nonterminals and the others tokens; the codes given to tokens (characters for literals, other free codes from 257 on, 256 for error); the level and kind of the last declaration of precedence that names a symbol; the type given last; the start symbol; the rules in order, with an empty rule for each action inside a rule; the precedence of a rule from %prec or from its tokens; and the translated actions under the numbers of their rules. (Violated: a name beginning with $ is refused in the first rule but not in others; a tag inside an action makes types necessary in the actions that follow it, so that the order of actions decides about acceptance; '\\0' is a token with the code of the end of the input, and two tokens can be given the same code.)",
 "all grammar files without NUL bytes and without the constructs the model leaves out","files have any length; each construct can be combined with each other",["byacc/reader.c:reader,read_declarations,declare_tokens,declare_types,declare_start,declare_expect,copy_text,copy_union,read_grammar,advance_to_start,start_rule,add_symbol,insert_empty_rule,mark_symbol,copy_action,check_symbols,pack_symbols,pack_grammar"])
p("C81","Actions see the values to their left (byacc)",
 "The actions of a generated parser may use the values of the symbols before the rule ($0, $-1, ...), and actions within a rule use those of the symbols in front of them. If the parser accepts an input without reporting an error, the value of the start symbol is the one computed from left to right along a parse tree of the input, where each action is given the values of the right-hand side, and behind these the values of all trees to the left, nearest first; the default value is that of the first symbol of the right-hand side.",
 "all grammars, with or without conflicts, all actions that only compute values, all inputs","values below the rule depend on the whole parse so far, on inputs of any length",["byacc/yaccpar.skel:yyparse","byacc/btyaccpar.skel:yyparse","byacc/reader.c:insert_empty_rule"])
p("C82","The parser made from a grammar file accepts the language of the file (byacc)",
 "For a grammar file in which no two tokens have the same code, whatever the generated parser accepts without reporting an error is a sentence of the grammar as it is written in the file, by names and without regard to actions, the tokens being given by their codes; and the result is the value computed by the actions of the file along a parse tree from left to right, each action having the number under which it is written. If the file declares no precedences and byacc reports no conflicts, every sentence is accepted. Every file that is accepted gets a parser, unless the tables grow too large. (Violated for tokens that share a code: byacc accepts such declarations without a message, and the parser then refuses sentences; the token '\\0' shares the code of the end of the input.)",
 "all grammar files without NUL bytes and without the constructs the model leaves out, all inputs, all actions that only compute values","languages are infinite, and files have any length",["byacc/main.c:main","byacc/reader.c:reader","byacc/lr0.c:lr0","byacc/lalr.c:lalr","byacc/mkpar.c:make_parser","byacc/output.c:output","byacc/yaccpar.skel:yyparse"])
p("C83","A backtracking parser has a list of all the alternatives of each conflict (byacc -B)",
 "With option -B byacc reports the same conflicts as without, and the arrays of the generated parser list, for each state and token on which several things may be done, all of them: the shift, if there is one, and every rule that may be reduced, each once. On a token on which at most one thing may be done there is no list, and the arrays say what it is. Nothing is listed that may not be done, no list is empty, and the array in which the lists are collected is never overrun, however many conflicts there are. (Violated where precedences decide between some of the alternatives but not all: then the list may lack the one precedence prefers, and the parser with -B refuses sentences it accepts without.)",
 "all grammars, all precedences, all states and tokens","grammars have any number of conflicts with any number of alternatives; the size of the array is computed from the number of conflicts before the lists are shared and stored",["byacc/mkpar.c:remove_conflicts","byacc/mkpar.c:sole_reduction","byacc/output.c:token_actions","byacc/output.c:find_conflict_base","byacc/output.c:output_ctable"])
p("C84","A backtracking parser accepts only sentences, and trials leave no traces (byacc -B)",
 "Whatever a parser generated with -B accepts without reporting an error is a sentence of the grammar. The actions in braces that were executed are those of one parse tree, children first and from left to right, each token is shifted once, and the value of the start symbol is the one computed along that tree: trials that were given up contribute nothing. The stack stays within its bounds. This holds for every grammar, with any conflicts and precedences, for actions in brackets that do anything at all, YYVALID and YYERROR included, and for tokens left in the queue by an earlier call. (Violated: YYERROR in the first trial makes the parser read in front of its arrays of tokens; a call that ends by YYABORT leaves tokens in the queue, which the next call takes for its own input.)",
 "all grammars, precedences, inputs, actions and sizes of the stack","the number of trials and their nesting is unbounded; traces of a wrong trial show only in rare combinations of conflicts and inputs",["byacc/btyaccpar.skel:yyparse","byacc/btyaccpar.skel:yygrowstack","byacc/btyaccpar.skel:yyNewState"])
p("C85","A backtracking parser accepts every sentence (byacc -B)",
 "A parser generated with -B from a grammar without precedences never reports a syntax error on a sentence of the grammar, whatever conflicts the grammar has and in whatever order alternatives are tried: if it stops, it has accepted or its stack is full at the greatest allowed size. (Violated in general: a grammar in which a rule may be applied to nothing in front of itself fills any stack on a sentence of one token; with precedences a sentence may be refused which is accepted without -B; in the tokens that follow an error only the first alternative is tried.)",
 "all grammars without precedences, all sentences, all actions that compute values","grammars and sentences are unbounded; the alternative that succeeds may be the last of many trials at any depth",["byacc/btyaccpar.skel:yyparse","byacc/output.c:output_ctable"])
p("C86","Option -B changes nothing for a grammar without conflicts (byacc)",
 "For a grammar in which byacc reports no conflicts, the parser made with -B does step by step what the parser made without -B does: the same stack, the same tokens read, the same messages, actions and recovery, the same result, on every input, right or wrong. YYVALID has no effect in it. (Violated for actions that execute YYERROR: with -B the right-hand side is removed from the stack before recovery, without it is not, so that one parser accepts what the other refuses; and with -B the error is not counted.)",
 "all grammars without reported conflicts, all precedences, inputs, actions and stack sizes","all inputs and grammars; two skeletons and two sets of tables are compared",["byacc/btyaccpar.skel:yyparse","byacc/yaccpar.skel:yyparse","byacc/mkpar.c:remove_conflicts","byacc/mkpar.c:sole_reduction","byacc/output.c:output_actions"])
p("C87","#line directives lead back to the right line of the generated file (byacc)",
 "In the generated code file every #line directive that names the code file itself stands on a line of its own and has the number of the line that follows it, so that a compiler's messages about code that is not the user's give the right line; with -l there is no such directive. The text of the actions is copied without change, but for the directives. (Violated: with %initial-action, with -i but not -r, and with %ident together with -r, the last directive of the file has a wrong number.)",
 "all grammar files, names of files, prefixes, options, %code blocks, actions, skeletons and tables","the number depends on the count of all lines written before, by some fifty functions under all combinations of options; a compiler does not complain",["byacc/output.c:output","byacc/output.c:write_code_lineno","byacc/output.c:output_prefix","byacc/output.c:output_semantic_actions","byacc/output.c:output_initial_action","byacc/reader.c:copy_code"])
p("C88","The arrays in the generated file are the tables of the parser (byacc)",
 "Each array of the parser is defined in the generated file, on a line of its own, under its name with the given prefix, and its initialisers, read as decimal numbers, are the numbers of the table, all of them and in order. The macros for the size of the tables, the final state, the largest token number and the entry for unknown tokens are defined on lines of their own with their values; the largest token number is the greatest number of a token.",
 "all tables, prefixes, options and other contents of the files","tables have any length and the layout depends on widths of names and numbers",["byacc/output.c:output","byacc/output.c:output_rule_data","byacc/output.c:output_table","byacc/output.c:output_ctable","byacc/output.c:output_debug","byacc/output.c:start_int_table"])
p("C89","The names and rules in the generated file are those of the grammar (byacc)",
 "The entries of the array of symbol names are strings of C: at the code of a token stands its name as it is written (of the first token, if several have the same code), at the number the tables use for a nonterminal stands the name of the nonterminal, at 0 the end of the input, at the entry for unknown tokens illegal-symbol, and 0 elsewhere. The entries of the array of rules are strings of C with the rules of the grammar file in words, in order, after the rule for the start symbol. Quotes and backslashes in literals are escaped such that the string denotes the literal. (Violated for string literals that contain a quote: the file is accepted, and the generated file is not C.)",
 "all grammar files, all names and literals, all options","names and literals are arbitrary, and escapes are written in four different places",["byacc/output.c:output_debug","byacc/output.c:start_str_table","byacc/reader.c:pack_symbols","byacc/reader.c:get_literal"])
p("C90","Every token has a macro with its code (byacc)",
 "In the code file, or with -i in the externs file, and with -d in the header, there is a line #define for each token that is a word of C, and without -s for each string that is one, in the order in which the tokens are first named, and no line for others; its value is the code by which the parser knows the token. The code of the error token is defined behind them (in a header only with -i). (Violated: a word and a string with the same text are different tokens with different codes, and have the same macro; a string that is a keyword of C becomes a macro; a token whose name has a dot gets no macro, without a message.)",
 "all grammar files and options","any number of tokens with any names; a wrong or missing line shows only when a lexer uses it",["byacc/output.c:output_defines","byacc/output.c:is_C_identifier","byacc/output.c:output"])
p("C91","The text of a %code block is copied, with the right line (byacc)",
 "The text of a %code block reaches the output from the first character that is no white space, or the end of the line of the opening brace, to the brace that closes it, without change; blocks of one kind follow each other in order, each on a line of its own behind a #line directive; the directive gives every part of the text the line on which it is in the grammar file. A block that is not closed is an error. (Violated: where the text starts on the line after the brace, the line is always one too small; a block of one character and the directive of the next are on one line; braces in strings and comments count; with -l one line too many is counted for each block.)",
 "all texts, braces nested to any depth, all line numbers, all blocks before","the text is arbitrary and the nesting unbounded; a wrong line shows only in messages of a compiler",["byacc/reader.c:copy_code"])
p("C92","The user's code is in the generated file, unchanged and in its place (byacc)",
 "The generated code file has, in this order and each from the start of a line: the %code top blocks, the text between %{ and %} (with -i in the externs file), the %code blocks requires, provides and the unnamed one, the third part of the grammar file behind a #line directive with the number of the line on which it starts, the code of each destructor behind a label with the number of its symbol and followed by break, the initial action, and the actions. Nothing in them is changed, but that a newline is added to a third part without one, and directives for the code file are filled in.",
 "all grammar files, texts, options, skeletons and tables","the texts are arbitrary and the options combine in many ways; a part in a wrong place may still compile",["byacc/output.c:output","byacc/output.c:output_code_lines","byacc/output.c:output_stored_text","byacc/output.c:output_trailing_text","byacc/output.c:output_yydestruct_impl","byacc/output.c:output_initial_action","byacc/output.c:output_semantic_actions"])
p("C93","A prefix renames all global names of the parser (byacc)",
 "With -p or %name-prefix every global function, variable and array of the parser, yyparse and yychar as well as the tables, gets a macro that replaces the yy by the prefix, unless the user has defined it; the arrays are defined under these very names. YYPREFIX tells the prefix, and is yy without one.",
 "all prefixes, options and contents of the files","a name that is left out shows only if two parsers are linked together",["byacc/output.c:output_prefix","byacc/output.c:define_prefixed","byacc/output.c:start_int_table"])
p("C94","Prototypes and calls in the generated file agree (byacc)",
 "The macros for the prototypes of the parser, the lexer, the error function and the destructor function list the parameters declared by %parse-param and %lex-param in their order, with value and location in front for a pure parser; the macros for the calls pass the arguments with their names in the same order and number. A prototype without parameters says void.",
 "any number of parameters of any types, all options","parameters are arbitrary texts in any number; some combinations of options are rare",["byacc/output.c:output_parse_decl","byacc/output.c:output_lex_decl","byacc/output.c:output_error_decl","byacc/output.c:output_yydestruct_decl","byacc/output.c:puts_param_types","byacc/output.c:puts_param_names"])
p("C95","#line directives that point to the generated file name the next line (lemon)",
 "In the C file made by lemon each #line directive that takes the compiler back from the grammar file to the generated file stands on a line of its own, and names the number of the line after it.",
 "all grammars, templates and options, texts of any length","the numbers depend on the lengths of all texts in front of the directive",["lemon/lemon.c:ReportTable","lemon/lemon.c:tplt_print","lemon/lemon.c:tplt_xfer","lemon/lemon.c:tplt_skip_header","lemon/lemon.c:tplt_linedir","lemon/lemon.c:emit_code","lemon/lemon.c:emit_destructor_code"])
p("C96","The generated file is the template with the parts for the grammar and the user's code (lemon)",
 "The C file made by lemon consists of a comment, the sections of the template in their order, in which every word that begins with Parse begins with the name of the parser instead, the parts made for the grammar between them, and the code of %include, %stack_overflow, the rules, %parse_failure, %syntax_error, %parse_accept and %code, each unchanged and on lines of its own, in this order. No memory outside of the strings is read to make it.",
 "all grammars, all templates with lines of at most 998 bytes, all options","templates and user code are arbitrary text",["lemon/lemon.c:ReportTable","lemon/lemon.c:tplt_xfer","lemon/lemon.c:tplt_print","lemon/lemon.c:print_stack_union","lemon/lemon.c:writeRuleText"])
p("C97","The tables and constants can be read from the generated file (lemon)",
 "Reading the arrays yy_action, yy_lookahead, yy_shift_ofst, yy_reduce_ofst and yy_default in the C file as C does (numbers, commas, comments) gives the tables computed for the grammar, and the macros YYNSTATE, YY_MAX_SHIFT and so on are defined as the constants of these tables.",
 "tables of any size with any numbers","layout depends on positions and numbers of digits; tables of all sizes",["lemon/lemon.c:ReportTable"])
p("C98","Token macros, names, rules and fallbacks in the generated file are those of the grammar (lemon)",
 "Each token but the end of input has a macro, the token prefix and its name, that stands for its number. The array of names has the name of each symbol as a C string at the place of its number, that of rules the rule in its order; the arrays of left sides, lengths and fallbacks have the numbers of the symbols.",
 "any number of symbols and rules whose names have no blanks, quotes, backslashes or stars","names and grammars are arbitrary",["lemon/lemon.c:ReportTable","lemon/lemon.c:writeRuleText","lemon/lemon.c:rule_print"])
p("C99","The C file made from a grammar file has a parser for the grammar in the file (lemon)",
 "If the text of a grammar file is valid, the C file that lemon writes for it contains the tables of a parser, with all constants that belong to them, and a macro for each token with its number; and if there are no conflicts, the parser with these tables and numbers accepts exactly the sentences of the grammar in the file. With conflicts, fallbacks or wildcards all that is accepted without an error is a sentence.",
 "all valid grammar files, all templates with short lines, all options, inputs of any length","combines reading, construction, compression and printing for all files",["lemon/lemon.c:main","lemon/lemon.c:Parse","lemon/lemon.c:ReportTable","lemon/lempar.c:Parse"])
p("C100","Assertions on rules in the generated parser do not fail (lemon)",
 "lemon writes an assertion into the generated parser for each rule without code that it takes for never reduced by. Whatever tokens the parser is given, correct or not, and whatever the stack size and the kind of error recovery, it does not reduce by such a rule, unless the user has marked the rule with NEVER-REDUCE.",
 "all valid grammar files, with conflicts, fallbacks, wildcards and error symbol, all inputs","depends on which rules are left out of the tables by compression, for all inputs",["lemon/lemon.c:ReportTable","lemon/lemon.c:CompressTables","lemon/lempar.c:yy_reduce"])
p("C101","From the text of a grammar file to the text of byacc's parser",
"For every grammar file that byacc accepts in which no two tokens have the same code: from the text of the files that byacc writes, read as C (array initialisers, #define lines), the tables and constants of a parser and the codes of the tokens can be read; and the parser with these tables, given tokens by these codes, accepts without an error report only sentences of the grammar written in the file, computing values by the file's actions along a parse tree, and accepts all sentences if there are no precedences and no conflicts.",
"every grammar file, every combination of output options, every input",
"the property is about all files and all inputs, through every pass of the program",
["byacc/main.c:main","byacc/reader.c:reader","byacc/output.c:output","byacc/yaccpar.skel"])
p("C102","The generated parser never reads outside its tables",
"In every parse with tables made by byacc from a grammar file (no two tokens with the same code), for every sequence of numbers returned by the lexer, whether they are token codes or not, and whatever the actions do, error recovery included, every index used to read one of the parser's arrays is inside the array.",
"every grammar file, every input, every round of the parser",
"an out-of-bounds read of a table usually has no visible effect, and inputs and executions are unbounded",
["byacc/yaccpar.skel:yyparse","byacc/output.c:output_base,output_table,output_check,output_rule_data,output_yydefred"])
p("C103","Every action of a grammar file is a case of the generated parser",
"The switch in the parser that byacc writes has, in order, exactly one case for each action of the grammar file, between the same two lines of the skeleton. The label of the case is the number of the action's rule (for an action inside a rule, of the rule that byacc adds for it), and the case contains the text of the action with its $$, $1 and so on replaced and nothing else changed.",
"every grammar file that is accepted, any number of actions, with and without -l and -B",
"actions are arbitrary text, and the text is copied by a loop that looks for special lines",
["byacc/reader.c:copy_action","byacc/output.c:output_semantic_actions"])
p("C104","The grammar printed by byacc -n is the same grammar without actions",
"What byacc -n writes for a grammar file is itself a grammar file that byacc accepts. It has the same start symbol, the same tokens in the same order, the same rules in the same order (with the same %prec), the same associativities and the same order of precedences; it has no actions. It describes the same language.",
"every grammar file that is accepted, any names, literals with any bytes, any number of precedence levels, actions anywhere",
"literals are written with escapes that have to be read back, alternatives are merged, empty levels are dropped and rules for inner actions are left out; whether the result is the same grammar cannot be seen from a few files",
["byacc/reader.c:print_grammar_naked","byacc/reader.c:print_symbol_prec_commented","byacc/reader.c:get_prec_name"])
p("C105","Long options of byacc stand for short options",
"--name stands for the short option of the first long option that begins with name; --name=val stands for that option with the argument val, whatever val is. Anything else that begins with -- is rejected, and what comes after -- alone is left as it is.",
"every list of arguments, any bytes, any abbreviation",
"the argument is changed in place, the new text lies over the old one and the test for unknown options reads behind the new text; which arguments are hurt depends on their lengths",
["byacc/main.c:getargs","byacc/main.c:long_opts"])
p("C106","byacc writes exactly the files its options ask for",
"The files byacc writes and their names are determined by the options: the stem is taken from -o if that name ends in .c or .tab.c and otherwise from -b, the last of -d and -H decides about the header. No two files have the same name, the input file is not one of them, and the name of the graph is the prefix.",
"every sequence of options in any order, given any number of times, any names",
"the number of combinations of options and names is unbounded; whether names collide or freed memory is read depends on the combination",
["byacc/main.c:create_file_names","byacc/main.c:find_suffix","byacc/main.c:open_files","byacc/main.c:setflag"])
p("C107","The graph drawn by byacc -g is the automaton of the parser",
"The text byacc -g writes has one node for each state and one edge for each transition of the automaton, labelled with its symbol. The node of a state lists the items valid there, each once, and behind each complete item exactly its LALR(1) lookahead tokens.",
"every grammar, any number of states, items and tokens",
"grammars are unbounded, and the lookaheads are found by walking through a second array in step with the items; nothing checks that they stay in step",
["byacc/graph.c:graph","byacc/graph.c:graph_state","byacc/graph.c:graph_LA"])
p("C108","The report of byacc -v describes the parser that is written",
"For every state the report lists the items of its core, the empty rules it reduces, and its actions: a line `t shift s` or `t reduce k` is there exactly if the tables of the parser hold this for t, `. reduce k` exactly if k is the default reduction, `$end accept` exactly in the final state, the gotos are exactly the transitions on nonterminals; no token has two lines. At the end stand exactly the rules that are never reduced, the numbers of conflicts of each state, and the numbers of symbols, rules and states.",
"every grammar with any precedences and conflicts, any number of states",
"the report is made from the lists of actions and the tables from packed vectors; that they agree for every grammar cannot be seen from samples",
["byacc/verbose.c:verbose","byacc/verbose.c:print_state","byacc/verbose.c:print_actions","byacc/verbose.c:log_unused","byacc/verbose.c:log_conflicts"])
p("C109","The lists of rules and symbols in the report of byacc -v are those of the grammar file",
"At the beginning of the report stands every rule of the grammar file exactly once, in order, with its number, its symbols and the symbol of its %prec; a bar stands for the left-hand side exactly if it is that of the rule before. At the end stands every symbol once: the number of a token is its code, the number of a nonterminal is the one behind the largest code under which the parser knows it, and the array of names in the generated parser has the symbol's name at this number unless an earlier token has the same code.",
"every accepted grammar file",
"grammar files are unbounded, and the numbers are computed a second time by the code that writes the report; samples do not show that both computations agree",
["byacc/reader.c:print_grammar","byacc/verbose.c:verbose","byacc/output.c:output_debug"])
p("C110","The grammar byacc converts for lemon has the same rules and the same sentences",
"The file byacc prints as a grammar for lemon is read by lemon without error, as a grammar with the same start symbol, the same rules in the same order with the same %prec marks, tokens of the same relative precedences and associativities, and exactly the same sentences, up to the names of the tokens. If the start symbol is on no right-hand side and there are no conflicts, the parser lemon generates from it accepts exactly the sentences of the file given to byacc.",
"every accepted grammar file whose names remain distinguishable, every setting of lemon's options for reading",
"the claim is about two programs and all grammars; a test converts some grammars and looks at the text",
["byacc/reader.c:print_grammar_lemon","byacc/reader.c:get_lemon_token_name","byacc/reader.c:get_lemon_rule_name","lemon/lemon.c:Parse","lemon/lemon.c:FindStates"])
p("C111","lemon's report describes the automaton, the tables, the symbols, the rules and the conflicts",
"The report file lists, for each state that has a row in the tables and under its number there, exactly the items of the LALR automaton for that state (with -b those of the kernel), and for each token, nonterminal and {default} the action that the tables contain; for each symbol under its number whether it derives the empty string and with which tokens its strings begin; each rule under its number; each symbol without a value in the list of these; and as many conflicts as lemon counts.",
"every grammar that lemon writes a parser for, all options -b, -c, -p",
"the claim relates the text to the tables for all grammars and states; a test compares the report for one grammar with a stored one",
["lemon/lemon.c:ReportOutput","lemon/lemon.c:PrintAction","lemon/lemon.c:RulePrint","lemon/lemon.c:ConfigPrint","lemon/lemon.c:rule_print","lemon/lemon.c:resolve_conflict"])
p("C112","lemon's header gives every token its number, and is rewritten only when it changes",
"The header file is an enumeration with one constant for each token of the grammar file, with the prefix declared, whose value is the number that the macro with the same name has in the parser, and a last constant that is larger than all of them; an existing header is left alone exactly if it already is that text.",
"every grammar file that is read without errors, every existing header",
"quantifies over all grammars and all contents of the existing file",
["lemon/lemon.c:ReportHeader","lemon/lemon.c:lemon_sprintf"])
p("C113","lemon puts its files where they are asked for and overwrites nothing else",
"The parser, the header, the report and the SQL file are written to the directory given with -d, or else to that of the grammar file, under the name of the grammar file with the extension replaced; they are four different files, and none of them is the grammar file.",
"every path of a grammar file and every output directory",
"quantifies over all paths",
["lemon/lemon.c:file_makename","lemon/lemon.c:file_open"])
p("C114","lemon's command line is read as documented",
"A grammar file is processed exactly if every argument is an option of the list or a file and there is exactly one file; a flag has the value of its last mention (-c on, +c off), joined flags count each, the output directory and the template are those given last, in the same or the next argument, every macro given with -D is defined; options that are documented as ignored have no effect; after -- every argument is a file.",
"all command lines",
"quantifies over all sequences of arguments",
["lemon/lemon.c:OptInit","lemon/lemon.c:handleflags","lemon/lemon.c:handleswitch","lemon/lemon.c:OptNArgs","lemon/lemon.c:argindex","lemon/lemon.c:handle_D_option","lemon/lemon.c:handle_d_option","lemon/lemon.c:main"])
p("C115","with option -r lemon makes a parser for the same language",
"Option -r (do not sort or renumber states) changes the numbers of the states only: the parser accepts the same sequences of tokens and reports the same errors.",
"every grammar",
"quantifies over all grammars and all inputs of the generated parser",
["lemon/lemon.c:main","lemon/lemon.c:ResortStates","lemon/lemon.c:ReportTable","lemon/lempar.c:yy_find_shift_action"])
p("C116","lemon uses the first template that can be read, in the documented order",
"With -T the template is the file given. Otherwise it is the first file that can be read among: the grammar file with the extension .lt, lempar.c in the current directory, lempar.c in the directory of the program, or, if lemon was called without a path, lempar.c in the directories of PATH; if there is none, lemon says so and writes no parser.",
"all paths, all values of PATH, all states of the file system",
"quantifies over all states of the file system and the environment",
["lemon/lemon.c:tplt_open","lemon/lemon.c:pathsearch"])
p("C117","the SQL file lemon writes with -S says what the grammar file says",
"For every grammar file that lemon reads, the statements of the .sql file insert exactly: every token and nonterminal with its number, its name and its fallback; every precedence with its associativity; every rule in the order of the file with its left side and its precedence symbol; for every place of a right side the symbols that may stand there; and the start symbol, the stack size and the wildcard. The statements are SQL.",
"all grammar files that lemon reads without an error",
"quantifies over all grammar files",
["lemon/lemon.c:ReportSQL","lemon/lemon.c:get_symbol_prec_chr"])
p("C118","lemon exits with status 0 exactly if nothing is wrong with the grammar",
"For every grammar file that is read without an error, lemon exits with status 0 exactly if the start symbol declared exists and is on no right side; every nonterminal mentioned in the rules of symbols that are used has rules (except for the error symbol); every rule is reduced in some state; all labels are used properly; and the number of conflicts is the one declared with %expect (0 if there is no declaration). Otherwise the status is 1. The number of conflicts is printed exactly if it is not the number declared. %expect n declares the number n.",
"all grammar files, all numbers of conflicts",
"quantifies over all grammar files and over reachability in the grammar",
["lemon/lemon.c:main","lemon/lemon.c:FindStates","lemon/lemon.c:FindActions","lemon/lemon.c:Configlist_closure","lemon/lemon.c:translate_code"])
p("C119","lemon -g prints a grammar file that says the same without the actions",
"For every grammar file that lemon reads without an error, option -g prints a text that is again a grammar file for lemon: it declares the same tokens in the same order, so that they have the same numbers, the same fallbacks, precedences, wildcard, stack size and start symbol, and it has the same rules with their precedence marks, without aliases and actions; it has the same sentences.",
"all grammar files that lemon reads without an error",
"quantifies over all grammar files and all sentences",
["lemon/lemon.c:Reprint","lemon/lemon.c:Reprint_tokens","lemon/lemon.c:Reprint_token_numbers","lemon/lemon.c:rule_print"])
with open('/verif/properties.jsonl','w') as f:
    for x in P: f.write(json.dumps(x)+"\n")
print(len(P))
