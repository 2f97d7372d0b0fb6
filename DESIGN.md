# Formal model of byacc and lemon (mingodad/lalr-parser-test) — design

## Layout

* `lean/Verif/Spec/*`  – small specifications that know nothing about the
  programs: context-free grammars and derivations, LR(1) item validity,
  reachability in a graph, ...
* `lean/Verif/Byacc/*`, `lean/Verif/Lemon/*` – the model, function by function.
  Every definition cites the file and lines it models and says where it
  simplifies.
* `lean/Verif/Proofs/*` – helper lemmas.
* `lean/Verif/Props/*` – one theorem (or a few) per property of
  `properties.jsonl`, with `example`s showing that the hypotheses are met by a
  non-trivial case.
* `MANIFEST.json` – property -> theorem names and status.
* `seeded/LOG.jsonl` – log of realistic bugs seeded in a scratch copy.

## Trusted base

* Lean 4.33.0 kernel; the axioms `propext`, `Classical.choice`, `Quot.sound`
  (checked with `#print axioms`, see `tools/axioms.sh`).  No own axioms, no
  `sorry`, no `native_decide`, no `bv_decide`.
* The transcription of the C text in `/repo` to Lean definitions, done by hand.
  The C code was not executed.
* The specifications in `Verif/Spec`.

## What is modelled

byacc (`lean/Verif/Byacc`):

| module | code |
|--------|------|
| `Bits`, `Warshall` | bit rows, `warshall.c` |
| `Reader`, `Rules`, `Symbols` | `reader.c`: rules section at the level of tokens, mid-rule actions, `pack_symbols`, `pack_grammar` |
| `Whole` | `main.c`: the passes put together, from the text of the file to the tables |
| `Scan`, `Front`, `Action` | `reader.c`: lines, words, declarations and rules from the text of the file; translation of actions |
| `Names`, `Symtab` | `reader.c`, `symtab.c`: names of literals, quoting, conversion of names, symbol table |
| `LR0`, `Lalr` | `lr0.c`, `closure.c`, `lalr.c` |
| `MkPar`, `Verbose` | `mkpar.c`, conflict part of `verbose.c` |
| `Output` | `output.c`: action vectors, gotos, packing (with sizes of the arrays, so that writes behind their end are seen) |
| `Skel` | `btyaccpar.skel` without backtracking, with values, stack growth and error recovery |
| `Backtrack` | what `-B` changes in `mkpar.c` and `output.c`: marks, lists of alternatives (`yycindex`, `yyctable`) |
| `BtSkel` | `btyaccpar.skel` with backtracking (`-B`): trials, the queue of tokens, the saved states, the return to the best error, `YYVALID` |
| `Text`, `TextFile` | `output.c`: the text of the code file, the file with the tables (`-r`), the declarations (`-i`) and the header (`-d`), with the count of lines; `reader.c`: `copy_code` (`%code` blocks) |
| `CaseText` | `reader.c`: `begin_case`, `end_case`, the text around an action in `copy_action` (line numbers are given) |
| `Naked` | `reader.c`: `print_grammar_naked` with `print_symbol_prec_assoc_commented`, `print_symbol_prec_commented`, `get_prec_name` |
| `Opts` | `main.c`: `long_opts`, `getargs` (long options; the results of `getopt` are given), `setflag`, `find_suffix`, `create_file_names`, the files opened by `open_files` |
| `Graph` | `graph.c`; `verbose.c`: all but the list of symbol numbers at the end |
| `RuleList` | `reader.c`: `print_grammar`; `verbose.c`: the list of symbol numbers |
| `ToLemon` | `reader.c`: `print_grammar_lemon` |
| `Main` | order of the passes |

lemon (`lean/Verif/Lemon`):

| module | code |
|--------|------|
| `Preproc` | `-D` options, `%ifdef` …, conditions |
| `Scan`, `Read` | `Parse` (division into words), `parseonetoken` with all its states and messages |
| `Number`, `Grammar`, `RuleNum`, `StartCheck` | numbering of symbols and rules in `main`, start symbol |
| `Msort`, `Table`, `Set` | list sorting, hash tables, sets |
| `First`, `States`, `Actions`, `Count` | first sets, states, links, follow sets, actions, conflicts |
| `Compress`, `Acttab`, `Report` | compression, packing, the printed tables and their integer types |
| `Parse`, `Values` | `lempar.c`: lookups, push parser, stack, errors, end of input; values on the stack |
| `Header`, `Reprint` | first comment of the output; conversion to yacc form (as words) |
| `Union`, `Code`, `Destructor` | union for values, code of rules, destructors, with `#line` numbers |
| `Text` | `ReportTable`, `tplt_xfer`, `tplt_print` and the like: the text of the C file and the count of its lines |
| `Main` | `main`, `ReportTable`: what is handed to the writer of the C file (rules in order, `doesReduce`, offsets) |
| `OutFile` | `ReportOutput`, `PrintAction`, `RulePrint`: the text of the report |
| `HFile` | `ReportHeader`: when the header is written and what; `file_makename` |
| `OptArgs` | `OptInit`, `handleflags`, `handleswitch`, `OptNArgs`, `OptArg`, the table of options and its handlers |
| `NoResort` | the tables made with `-r` |
| `Tplt` | `pathsearch`, `tplt_open` |
| `Sql` | `ReportSQL` (the statements that depend on the grammar), `get_symbol_prec_chr` |
| `Exit` | the errors counted after the file is read (start symbol, `Configlist_closure`, `FindActions`, `translate_code`), `%expect`, and the exit status in `main` |
| `Again` | option `-g` as text: `Reprint`, `Reprint_tokens`, `Reprint_token_numbers`, `rule_print` |

C strings are lists of bytes.  What C leaves undefined (use of NULL, access outside of an array, a loop that runs past the end
of a string) and failing assertions are distinct outcomes of the model (`none` or an own constructor); theorems say when these
are reached.  Loops whose end is not obvious have fuel; theorems show that the fuel is never used up, or, where the C loop
need not end, that it is (C38, C62).

## What is not modelled

* Memory allocation failure.  Integer overflow, except where a property is about it (C43, C44, `int` and `char` hash values).
* byacc: NUL bytes in the grammar file, arguments in parentheses, `%define`, `%parse-param`, `%lex-param`, `%destructor`, `%initial-action`, `-u`; warnings; destructors, positions, the grammar in other forms than `-n` and that of lemon,
  the words behind `%code`, `getopt`.  (In `Text` parameters, destructors, blocks and the like are given as the reader would have stored them.)
* lemon: the SQL views and the opening of the SQL file; effects of the user's code other than on values (the code is a
  function of the values of the right side; what each label stands for is C75).
* Concurrency: both tools are sequential.

## Violations found

Properties that the code does not have are kept as stated; the negation is proved with a concrete witness (`*_violated`), and the largest
part that was found true is proved (`*_partial`).

| id | defect |
|----|--------|
| C05 | `map_goto` reads behind the array for a transition that does not exist |
| C12 | `%expect` with no conflict at all is not checked |
| C14, C56 | default reductions hide `%nonassoc` errors; a grammar without reported conflicts can be ambiguous |
| C16 | the search for a free slot leaves the packed table |
| C19 | the stack limit `YYMAXDEPTH` is not respected if the initial size is larger |
| C21 | the code 256 of `error` can be given to a token |
| C25, C61 | reports of conflicts name a wrong rule; some counted conflicts are not listed |
| C28, C29 | converted names of different tokens can be equal; undefined behaviour for some literals |
| C34, C62 | lemon aborts on an assertion; compression does not end |
| C37 | the index into `yy_shift_ofst` can be out of bounds |
| C38 | cycles of fallbacks hang the parser; fallback against default action |
| C40, C66 | with compression, sentences are rejected if there are fallbacks or a wildcard, and errors are found late |
| C42, C43 | high-water mark not updated for empty rules; `yyRuleInfoNRhs` is too small for long rules |
| C44 | a list of exactly 2^30 elements loses half of them |
| C46, C47, C64 | `%endif` without line end; malformed conditions are accepted; unbalanced conditionals are not reported |
| C48 | conversion to yacc form changes the language |
| C49 | the first comment of every generated file ends too early |
| C54 | everything after `%empty` is dropped |
| C55 | buffer for `includes` is overrun |
| C57 | `YYERROR` during recovery without progress |
| C63 | tables are read out of bounds |
| C67–C70 | error recovery: messages, double destruction on overflow, state after the end of input, wrong use of the error symbol |
| C71, C72 | open comments in code; an unfinished rule at the end of a file is dropped silently; `cls\|X` changes the class everywhere; a token as its own fallback; exit status 0 with 256 messages |
| C73 | a class as left side, a token as start symbol, `error` in a class are accepted |
| C74 | two fields with number 0 if `error` is a class |
| C75 | code ending in a label is read past its end; the overwrite comment directly behind a label is not found; NULL for an empty class; values of alternatives are never destroyed; `@A` for a label of both sides |
| C76 | `$$` in the default destructor is the field of the last symbol; destructors of tokens and classes are ignored |
| C77 | the error symbol gets the value of the offending token, which is destroyed twice; an empty rule without code gets a stale value |
| C78 | `#line` without a file name is a syntax error; text behind a directive is dropped; a byte 255 ends the file |
| C79 | `$3` behind two symbols is a place above the stack (warning only); `$foo` and `$-` are the value in front of the rule; untyped `$1` accepted behind no symbol |
| C80 | `$x : ..` is refused as first rule only; `$<t>$` in an action makes types necessary in later ones; `'\0'` has the code of the end of the input, and explicit codes may coincide |
| C82 | tokens that share a code (two explicit numbers, or `'\0'` and the end of the input) are accepted without a message; the parser then refuses sentences |
| C83 | `-B`: where precedence decides between some of several alternatives, the list lacks the one it prefers |
| C84 | `-B`: `YYERROR` in the first trial makes the parser read in front of its arrays of tokens; tokens left in the queue after `YYABORT` become input of the next call |
| C85 | `-B`: hidden left recursion fills any stack on a sentence; with precedences sentences accepted without `-B` are refused; in the tokens after an error only the first alternative is tried |
| C86 | `YYERROR` removes the right-hand side from the stack with `-B` but not without, and is counted only without |
| C87 | the last `#line` directive is wrong with `%initial-action`, with `-i` but not `-r`, and with `%ident` and `-r` |
| C89 | the `yyname` entry for a string literal with a quote in it is not C |
| C90 | `foo` and `"foo"` give two different `#define foo`; `"if"` gives `#define if`; `a.b` gives none |
| C91 | `%code {` and the code on the next line: `#line` is one too small, always; `%code {;}` puts the next directive on its own line; `"}"` in a block ends it; with `-l` each block counts one line too many |
| C95 | without `-m` every `#line` that points to the generated file behind the macros for tokens is one too small; lines of the template that are skipped if `%include` starts with `/` are counted; newlines in `%token_type` are not |
| C96 | without `%include` the byte in front of an empty string is read |
| C103 | a line `#line 1 ""` in an action is replaced by a directive for the generated file |
| C104 | `byacc -n` leaves out tokens whose names start with `$`, in declarations and rules |
| C105 | `byacc --output=my--name` is rejected: the test for unknown options reads what is left of the old text; `--=x` is taken as `-Hx`; ambiguous abbreviations take the first option |
| C106 | `byacc -n -N` writes two grammars to the same file; `byacc -n -b g g.yn` truncates its input; `byacc -g -o x.c` prints a name from freed memory |
| C110 | the conversion for lemon keeps a recursive start symbol (an error for lemon), gives different tokens the same name, turns `error` into an ordinary token, reads out of bounds for `'\a'`, and does not carry over the precedence of rules without `%prec` |
| C111 | conflicts in states that only reduce by default (no row in the tables) are counted, but not shown in lemon's report |
| C112 | the header is compared with the format of earlier versions of lemon, so it is rewritten even if nothing changed, and a header in the old format is kept; the buffer for the comparison overflows for long names or prefixes |
| C113 | the extension is cut off at the last dot of the whole path: `lemon ../g` writes `..c`, and `-d build.dir` with a grammar file `g` writes `build.c`; a grammar file called `x.c`, `x.h`, `x.out` or `x.sql` is overwritten |
| C114 | `W=x`, `f=x`, `I=x`, `O=x` call a null pointer; of joined flags (`-qs`) only the first counts; `--` is refused; `-d out` takes `out` for the grammar file, and `-d g.y` writes `/g.c` |
| C115 | with `-r` the number of states with rows stays 0: the tables are empty and the parser shifts every first token |
| C116 | `pathsearch` tests whether a file exists, not whether it can be read; the buffer for `stem.lt` has 1000 bytes; with an empty `PATH` the name is memory that was never written |
| C117 | `ReportSQL` writes the left side of the first rule as start symbol and ignores `%start_symbol`; with `-u` it uses `precsym`, which is NULL, for rules with a precedence in brackets; for a token class without tokens it writes a statement without rows; it does not double quotes in the stack size |
| C118 | the arguments of repeated `%expect` declarations are joined, so that two declarations of 1 declare 11; an argument that is no number declares 0 without a message |
| C119 | `-g` prints `%stack_size N .`, which lemon rejects; it prints the left side of the first rule as start symbol, whatever is declared; and for a token class without tokens it reads `subsym[0]` outside of the array |

## Proof ideas per property

| id | model | proof |
|----|-------|-------|
| C01 | bit matrix as rows of 64-bit words, Warshall loops | invariant on the pivot: entry iff path through smaller pivots |
| C02 | `set_nullable` as repeated sweep over the item array | invariant soundness; termination by number of unmarked symbols; completeness at fixpoint |
| C03 | `set_EFF`, `set_first_derives`, merge loop of `closure` | membership via C01, sortedness by loop invariant |
| C04 | state list with worklist, kernel comparison through hash chains | invariants of the worklist; bound by number of kernels |
| C05 | goto map arrays and binary search | sorted segment invariant |
| C06 | `traverse` with explicit stack, INDEX and F arrays | Tarjan-style invariant, recursion on unvisited nodes |
| C07 | edge counting and filling | count lemma |
| C08 | the composition of the above | DeRemer–Pennello theorem against LR(1) item validity |
| C09–C13, C24 | action lists with `suppressed` marks | list induction |
| C14 | concrete grammar witness through the whole model (negation), positive part | evaluation of the model + decision table |
| C15, C16 | `pack_vector` with explicit allocation size and failure on out-of-bounds | invariant on table/check |
| C17, C18 | driver with the generated tables | simulation with rightmost derivation; item-validity invariant |
| C19, C20 | driver with allocated size, error count | invariants over steps |
| C21, C22, C23 | `pack_symbols`, `pack_grammar` | list induction |
| C25, C28, C29, C49 | printing functions | concrete counterexamples and corrected partial statements |
| C26, C27, C51 | list insertion, hash table, quoting | induction |
| C30–C33, C35–C37 | lemon functions | as for byacc |
| C34, C38, C42, C43, C48 | lemon functions | counterexample and partial positive statement |
| C39–C41 | push-parser driver | simulation / invariant |
| C44–C47 | sorting, numbering, preprocessing | induction |
| C50 | grammar transformation | derivation simulation both ways |
| C52 | `default_goto` | count lemma |
| C54 | token-level reader | counterexample |
| C55 | edge lists of `initialize_F`, `build_relations` | counting distinct gotos; counterexample for `includes` |
| C53 | both resolvers without precedence | list induction |
| C56–C58 | driver runs | potential functions; decomposition of logs |
| C62, C63 | compression with fuel, tables with lengths | measure on chains; counterexamples |
| C65, C66 | viable prefixes | item validity of the states on the stack |
| C67–C70 | events of the push parser | invariants over rounds |
| C71, C72 | scanner and reader as state machines | relation between items and words; one lemma per state |
| C73 | composition of C71, C72, C32–C36, C39, C40 | equivalence of the grammar of the file and that of the tables |
| C74 | hash table of types | invariant: every type is found from its hash value |
| C75 | loop over the code | division of the text into pieces; one lemma per kind of piece |
| C76 | `switch` as a list of cases | as for the cases of rules in C75 |
| C77 | memory of the stack, written by the events | the values on the stack against the abstract stack of C68; against the forest of C39 |
| C78 | the reader on the text from the current place on | each function against a relation between the text before and behind a word, both directions |
| C79 | the action from its first character on, with the types of the symbols | the parts of the text against an inductive relation; each part against its translation |
| C80 | `reader`, from the text of the file to the arrays | each loop against an inductive relation between text and parts; the reader's state as a function of the parts read (`Use`s); determinism of the relations |
| C81 | driver with actions that see the whole stack | forests evaluated in a context (`BuildsIn`); a forest can be cut anywhere, the left part being the context of the right |
| C82 | `makeTables`, from the text of the file to the parser | parse trees by numbers ↔ by names ↔ without the symbols of actions; numbers of inner actions are unique |
| C83 | marks and lists with backtracking | same marks as without, but for mark 1 on the first of a conflict; each list is closed before the next is begun; four cells per conflict are enough |
| C84 | the parser with backtracking is sound | invariant over the pair of the real stack and the stack of each saved state: each is a path of the automaton whose tokens are a prefix of queue and input; the path found by a trial is replayed |
| C85 | ... and complete without precedences | "there is a viable continuation" (a rightmost derivation that agrees with the stack and the remaining tokens) for the current or a saved state, with the alternatives not yet tried |
| C86 | `-B` without conflicts | equal rows, hence equal lookups; both parsers move in step along the invariant of C14 |
| C87 | text of the files, count of lines | the code file is a list of pieces; each function extends it by text with as many newlines as it counts (`ExtW`); where one miscounts, all later ones keep the difference |
| C88 | text of the arrays | files only grow (`Grow`); the state at each array is at the start of a line; the loop that writes numbers against a grammar of number lists |
| C89 | names in the text | escapes of a literal (made by the reader, escaped again by the writer) against a grammar of C strings, character by character; the numbering of C80 gives the position of each name |
| C90 | macros | the block of lines written by one loop, against an inductive description; position in the file from `Grow` |
| C91 | `%code` blocks | induction on the text for any depth of braces, against matching by counts of braces in prefixes |
| C92 | user's code | parts in order and at starts of lines, an invariant of the files through all functions of `output` |
| C93 | prefix | text of `define_prefixed`; later text only adds |
| C94 | prototypes | lists of parameters by induction against `intercalate`; all combinations of options |
| C95 | `#line` in lemon's file | an invariant of the count of lines through all parts, with the offset as a parameter |
| C96 | layout | each part adds its text (`Adds`), sections of the template by `splitOnP`; renaming against a division into words |
| C97 | tables in the text | a reader of C arrays as an automaton; the printed rows are read back by induction |
| C98 | names and rules in the text | the same reader for strings and comments |
| C99 | grammar file to C file | C73 and C97, C98 put together; words of the scanner have no quotes and blanks |
| C100 | assertions on rules | an invariant of the stack: states that stand for a reduction are by rules that occur in a row; all entries of the packed tables come from rows |
| C101 | composition of C82 (language of the tables), C88 (arrays in the text) and C90 (token macros); the codes of tokens are shown to be determined by the file (`codesOf_unique`, induction on the place of the token), the arrays to be non-empty from their lengths (`outputTables_sizes`) |
| C102 | the reads of a round are listed in `Spec/ByaccReads.lean`; invariant: the stack spells a path of the automaton, so states are below the number of states and reductions have complete items; lengths of the arrays from the packing invariant; `C102_only` shows by cases that a round depends on nothing else |
| C103 | the loop that copies the action file is followed line by line: a line that is not the mark is copied, the mark is replaced; induction over the cases; with `C82_actions` for the numbers |
| C104 | the printed text is written in terms of the names in the file (`nakedText_eq`), then as declarations and rules (`nRules_alts`); it is read again by the relations of C80 (symbol by symbol, with the names of literals read back); uses, tokens, levels of the new file are compared with those of the old; induction over derivations for the language |
| C105 | the loop that moves the argument down is described by an equation for the whole buffer (`copyArg_eq`, induction); `strncmp` is prefix comparison |
| C106 | induction over the options from the right for each field; the names from the stem, which exists and is unique; sublists of a list without repetitions |
| C107 | induction over the items of a state in step with the lookahead sets of its reductions (C08); every position in `ritem` is a unique item |
| C108 | each line is an action of the row; C10 and C13 (uniqueness, default reductions) and C15 (packed tables) relate the rows to the tables; the kernel items are those with the dot behind a symbol |
| C109 | induction over the rules in step with `ritem`; the numbers of the symbols from C80 and C88 |
| C110 | the pieces of the text have the words of a file in the sense of C72 (induction over tokens, levels and rules); the language by induction over `Stands` in both directions; then C72 and C73 |
| C111 | the text is rewritten in the terms of the specification; the entries of a state on a symbol have the numbers of `C36`; items by `C32`, first sets by `C30`; conflicts: each comparison adds as many lost actions as it counts, and compression keeps them |
| C112 | the loop over the lines succeeds exactly if the lines are the patterns (a piece read by `fgets` has a line end only at its end); the names and numbers are those of `C99` |
| C113 | the last dot and the last slash of a path with given parts |
| C114 | each argument either has a meaning and changes the settings accordingly, or counts as an error, or crashes; induction over the arguments |
| C115 | computed from the definitions with no states |
| C116 | the directories tried are the parts of `PATH` (induction); the first file found is the first one of the list |
| C117 | induction over the rows written, with the numbers of C73; the texts are read by a relation that allows blanks and line ends between rows |
| C118 | the counters are sums, zero exactly if every part is; nonterminals without rules are found by the exactness of the LR(0) states (C32): a symbol is behind a dot in some state exactly if it is mentioned in a rule of a symbol that is used (induction in both directions) |
| C119 | the text is divided into pieces, each read as given words whatever follows that does not continue a name; the loops by induction on the symbols; sentences by induction on derivations, in both directions |
