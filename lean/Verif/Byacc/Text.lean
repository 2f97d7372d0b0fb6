import Verif.Byacc.Backtrack
import Verif.Byacc.Action
/-
The text of the generated files: byacc/output.c:14-345, 940-1120, 1158-1335, 1405-1990 `output`.
The text is the one made by a byacc compiled with `YYBTYACC` and without `YY_NO_LEAKS`, as in byacc/config.h; so
`USE_HEADER_GUARDS` is 1 (byacc/defs.h:222-226).

`S->outline` is meant to be the number of lines written to the code file so far; it is used in `#line`
directives that take a compiler back from the grammar file to the code file.  In the model the code
file is a list of pieces, so that these directives can be told from other text.
-/
set_option autoImplicit false
namespace Verif.Byacc
open Rd

/-- a literal of the C code -/
def str (s : String) : List Nat := s.toList.map Char.toNat

/-- `S->code_file`, `S->output_file` (if it is not the code file), `S->externs_file`, `S->defines_file` -/
inductive OFile where
  | code | tab | ext | defs
deriving DecidableEq, Repr

/-- A part of the code file: text, or a directive `#line n "name of the code file"`. -/
inductive Piece where
  | text (t : List Nat)
  | self (n : Nat)
deriving DecidableEq, Repr

/-- byacc/defs.h `struct param`: a parameter of `yyparse` or `yylex` -/
structure Param where
  type : List Nat
  name : List Nat
  type2 : List Nat
deriving DecidableEq, Repr

/-- byacc/defs.h `code_lines`: the text of `%code` blocks, and the number of its lines as counted by the
reader -/
structure CodeBlock where
  lines : List Nat
  num : Nat
deriving DecidableEq, Repr

/-- byacc/btyaccpar.c (generated from btyaccpar.skel): the sections of the skeleton, as lists of lines -/
structure Skeleton where
  xdecls : List (List Nat)
  tables : List (List Nat)
  globalVars : List (List Nat)
  impureVars : List (List Nat)
  hdrDefs : List (List Nat)
  hdrVars : List (List Nat)
  body1 : List (List Nat)
  bodyVars : List (List Nat)
  body2 : List (List Nat)
  initVars : List (List Nat)
  body3 : List (List Nat)
  trailer : List (List Nat)

/-- What the text depends on. -/
structure TextIn where
  rflag : Bool
  lflag : Bool
  dflag : Bool
  iflag : Bool
  sflag : Bool
  tflag : Bool
  backtrack : Bool
  tokenTable : Bool
  locations : Bool
  pureParser : Bool
  /-- `S->symbol_prefix` as set by `-p` or `%name-prefix` -/
  symbolPrefix : Option (List Nat)
  codeName : List Nat
  inputName : List Nat
  externsName : List Nat
  definesName : List Nat
  top : Option CodeBlock
  requires : Option CodeBlock
  provides : Option CodeBlock
  header : Option CodeBlock
  /-- contents of `S->text_file`: the text between `%{` and `%}`, the unions -/
  text : List Nat
  unionized : Bool
  /-- contents of `S->union_file` -/
  union : Option (List Nat)
  ntags : Nat
  parseParam : List Param
  lexParam : List Param
  /-- `S->destructor`, and the symbols with destructors: `symbol_pval` and code -/
  destructor : Bool
  destructors : List (Nat × List Nat)
  initialAction : Option (List Nat)
  /-- contents of `S->action_file` -/
  actions : List Nat
  /-- if `S->line` is not NULL: the rest of the line, with its newline, the rest of the file, and `S->lineno` -/
  trail : Option (List Nat × List Nat × Nat)
  skel : Skeleton
  ntokens : Nat
  names : List (List Nat)
  values : List Int
  pvals : List Nat
  /-- the rules from number 2 on: left-hand side and right-hand side, without `$end` -/
  rules : List (Nat × List Nat)
  /-- `S->symbol_pval[S->accessing_symbol[i]]` for the states -/
  stos : List Int
  t : BTables

/-- Contents of the files, and `S->outline`. -/
structure Wr where
  code : List Piece
  tab : List Nat
  ext : List Nat
  defs : List Nat
  outline : Nat
deriving DecidableEq, Repr

/-- `S->output_file` (byacc/main.c:934-945) -/
def TextIn.out (I : TextIn) : OFile := if I.rflag then .tab else .code

/-- `S->symbol_prefix` after `output_prefix` -/
def TextIn.pfx (I : TextIn) : List Nat := I.symbolPrefix.getD (str "yy")

/-- text is written to a file -/
def Wr.put (f : OFile) (t : List Nat) (w : Wr) : Wr :=
  match f with
  | .code => { w with code := w.code ++ [.text t] }
  | .tab => { w with tab := w.tab ++ t }
  | .ext => { w with ext := w.ext ++ t }
  | .defs => { w with defs := w.defs ++ t }

/-- `S->outline += n` -/
def Wr.bump (n : Nat) (w : Wr) : Wr := { w with outline := w.outline + n }

/-- `if (fp == S->code_file) ++S->outline;` -/
def Wr.bumpIf (f : OFile) (w : Wr) : Wr := if f = .code then w.bump 1 else w

/-- byacc/output.c:14-20 -/
def Wr.putcCode (f : OFile) (c : Nat) (w : Wr) : Wr := (if c = 10 then w.bumpIf f else w).put f [c]

/-- several calls of `putc_code` -/
def Wr.putcs (f : OFile) (t : List Nat) (w : Wr) : Wr := t.foldl (fun w c => w.putcCode f c) w

/-- byacc/output.c:22-28 -/
def Wr.putlCode (f : OFile) (s : List Nat) (w : Wr) : Wr := (w.bumpIf f).put f s

/-- several calls of `putl_code` -/
def Wr.lines (f : OFile) (l : List String) (w : Wr) : Wr := l.foldl (fun w s => w.putlCode f (str s)) w

/-- byacc/output.c:36-59 `puts_param_types` -/
def paramTypes (more : Bool) : List Param → List Nat
  | [] => if more then [] else str "void"
  | l => go l
where
  go : List Param → List Nat
    | [] => []
    | p :: rest =>
      p.type ++ (if p.type.getLast? = some 42 then [] else [32]) ++ p.name ++ p.type2 ++
        (if more || !rest.isEmpty then str ", " else []) ++ go rest

/-- byacc/output.c:61-71 `puts_param_names` -/
def paramNames (more : Bool) : List Param → List Nat
  | [] => []
  | p :: rest => p.name ++ (if more || !rest.isEmpty then str ", " else []) ++ paramNames more rest

/-- byacc/reader.c:55, defs.h:433: a `#line` directive -/
def lineText (n : Nat) (name : List Nat) : List Nat := str "#line " ++ decDigits n ++ str " \"" ++ name ++ str "\"\n"

/-- byacc/output.c:73-81 `write_code_lineno` -/
def Wr.codeLineno (I : TextIn) (f : OFile) (w : Wr) : Wr :=
  if !I.lflag && f = .code then { w.bump 1 with code := w.code ++ [.self (w.outline + 2)] } else w

/-- byacc/output.c:83-91 `write_input_lineno` -/
def Wr.inputLineno (I : TextIn) (lineno : Nat) (w : Wr) : Wr :=
  if !I.lflag then (w.bump 1).put .code (lineText lineno I.inputName) else w

/-- `CountLine(fp)` and `++S->outline`, byacc/output.c:6 -/
def Wr.countLine (I : TextIn) (f : OFile) (w : Wr) : Wr := if !I.rflag || f = .code then w.bump 1 else w

/-- `%-10s` -/
def padRight (n : Nat) (s : List Nat) : List Nat := s ++ List.replicate (n - s.length) 32

/-- `%*d` with a width -/
def padLeft (n : Nat) (s : List Nat) : List Nat := List.replicate (n - s.length) 32 ++ s

/-- byacc/output.c:93-112 `define_prefixed` -/
def Wr.definePrefixed (I : TextIn) (f : OFile) (p name : List Nat) (w : Wr) : Wr :=
  let w := (w.countLine I f).put f [10]
  let w := (w.countLine I f).put f (str "#ifndef " ++ name ++ [10])
  let w := (w.countLine I f).put f (str "#define " ++ padRight 10 name ++ [32] ++ p ++ name.drop 2 ++ [10])
  (w.countLine I f).put f (str "#endif /* " ++ name ++ str " */\n")

/-- byacc/output.c:114-166 `output_prefix` -/
def Wr.prefix (I : TextIn) (f : OFile) (w : Wr) : Wr :=
  let w :=
    match I.symbolPrefix with
    | none => w
    | some p =>
      let w := ["yyparse", "yylex", "yyerror", "yychar", "yyval", "yylval", "yydebug", "yynerrs", "yyerrflag", "yylhs", "yylen",
        "yydefred", "yystos", "yydgoto", "yysindex", "yyrindex", "yygindex", "yytable", "yycheck", "yyname", "yyrule"].foldl
          (fun (w : Wr) s => w.definePrefixed I f p (str s)) w
      let w := if I.locations then (w.definePrefixed I f p (str "yyloc")).definePrefixed I f p (str "yylloc") else w
      let w := (w.putcCode f 10).putlCode f (str "#if YYBTYACC\n")
      let w := (w.definePrefixed I f p (str "yycindex")).definePrefixed I f p (str "yyctable")
      ((w.putcCode f 10).putlCode f (str "#endif /* YYBTYACC */\n")).putcCode f 10
  (w.countLine I f).put f (str "#define YYPREFIX \"" ++ I.pfx ++ str "\"\n")

/-- byacc/output.c:168-187 `output_code_lines` -/
def Wr.codeLines (I : TextIn) (f : OFile) (name : String) (b : Option CodeBlock) (w : Wr) : Wr :=
  match b with
  | none => w
  | some b =>
    let w := if f = .code then ((w.bump b.num).bump 3).put f [10] else w
    let w := w.put f (str "/* %code \"" ++ str name ++ str "\" block start */\n")
    let w := w.put f b.lines
    let w := w.put f (str "/* %code \"" ++ str name ++ str "\" block end */\n")
    if f = .code then w.codeLineno I f else w

/-- byacc/output.c:189-195 `output_newline` -/
def Wr.newline (I : TextIn) (w : Wr) : Wr := (if !I.rflag then w.bump 1 else w).put I.out [10]

/-- byacc/output.c:197-202 `output_line` -/
def Wr.line (I : TextIn) (s : String) (w : Wr) : Wr := (w.put I.out (str s)).newline I

/-- byacc/output.c:204-208 `output_int` -/
def Wr.int (I : TextIn) (v : Int) (w : Wr) : Wr := w.put I.out (padLeft 5 (decInt v) ++ [44])

/-- `StaticOrR`, byacc/output.c:5 -/
def TextIn.static (I : TextIn) : List Nat := if I.rflag then [] else str "static "

/-- byacc/output.c:210-220 `start_int_table` -/
def Wr.startInt (I : TextIn) (name : String) (v : Int) (w : Wr) : Wr :=
  let need := 34 - (I.pfx.length + (str name).length)
  let need := if need < 6 then 6 else need
  w.put I.out (I.static ++ str "const YYINT " ++ I.pfx ++ str name ++ str "[] = {" ++ padLeft need (decInt v) ++ [44])

/-- byacc/output.c:222-229 `start_str_table` -/
def Wr.startStr (I : TextIn) (name : String) (w : Wr) : Wr :=
  (w.put I.out (I.static ++ str "const char *const " ++ I.pfx ++ str name ++ str "[] = {")).newline I

/-- byacc/output.c:231-236 `end_table` -/
def Wr.endTable (I : TextIn) (w : Wr) : Wr := (w.newline I).line I "};"

/-- the loop of byacc/output.c:294-306 and of the other arrays; `j` numbers are on the line -/
def Wr.ints (I : TextIn) : List Int → Nat → Wr → Wr
  | [], _, w => w
  | v :: rest, j, w =>
    if j ≥ 10 then ((w.newline I).int I v).ints I rest 1 else (w.int I v).ints I rest (j + 1)

/-- An array (byacc/output.c:285-325, 327-350, 671-707, 942-1023, 1025-1120).  The list is never empty. -/
def Wr.table (I : TextIn) (name : String) (l : List Int) (w : Wr) : Wr :=
  (((w.startInt I name (l.headD 0)).ints I l.tail 10)).endTable I

/-- byacc/output.c:238-253 `output_stype` -/
def Wr.stype (I : TextIn) (f : OFile) (w : Wr) : Wr :=
  if !I.unionized && I.ntags = 0 then
    (w.putcCode f 10).lines f ["#if ! defined(YYSTYPE) && ! defined(YYSTYPE_IS_DECLARED)\n",
      "/* Default: YYSTYPE is the semantic value type. */\n", "typedef int YYSTYPE;\n", "# define YYSTYPE_IS_DECLARED 1\n", "#endif\n"]
  else w

/-- byacc/output.c:256-272 `output_ltype` -/
def Wr.ltype (f : OFile) (w : Wr) : Wr :=
  (w.putcCode f 10).lines f ["#if ! defined YYLTYPE && ! defined YYLTYPE_IS_DECLARED\n",
    "/* Default: YYLTYPE is the text position type. */\n", "typedef struct YYLTYPE\n", "{\n", "    int first_line;\n",
    "    int first_column;\n", "    int last_line;\n", "    int last_column;\n", "    unsigned source;\n", "} YYLTYPE;\n",
    "#define YYLTYPE_IS_DECLARED 1\n", "#endif\n", "#define YYRHSLOC(rhs, k) ((rhs)[k])\n"]

/-- byacc/output.c:275-282 `output_YYINT_typedef` (`YYINT` is `int`) -/
def Wr.yyint (I : TextIn) (f : OFile) (w : Wr) : Wr := (w.countLine I f).put f (str "typedef int YYINT;\n")

/-- byacc/output.c:353-395 `output_accessing_symbols` -/
def Wr.stos (I : TextIn) (w : Wr) : Wr :=
  if I.stos.isEmpty then w
  else
    let w := w.putlCode I.out (str "#if defined(YYDESTRUCT_CALL) || defined(YYSTYPE_TOSTRING)\n")
    (w.table I "stos" I.stos).putlCode I.out (str "#endif /* YYDESTRUCT_CALL || YYSTYPE_TOSTRING */\n")

/-- byacc/output.c:284-350, 671-707, 942-1156: the arrays, in the order in which they are written -/
def Wr.tables (I : TextIn) (w : Wr) : Wr :=
  let w := w.yyint I I.out
  let w := w.table I "lhs" I.t.lhs
  let w := w.table I "len" I.t.len
  let w := w.table I "defred" (I.t.defred.map Int.ofNat)
  let w := w.stos I
  let w := w.table I "dgoto" (I.t.dgoto.map Int.ofNat)
  let w := w.table I "sindex" I.t.sindex
  let w := w.table I "rindex" I.t.rindex
  let w := ((w.line I "#if YYBTYACC").table I "cindex" I.t.cindex).line I "#endif"
  let w := w.table I "gindex" I.t.gindex
  let w := (w.bump 1).put .code (str "#define YYTABLESIZE " ++ decDigits I.t.size ++ [10])
  let w := w.table I "table" (I.t.table.map Int.ofNat)
  let w := w.table I "check" I.t.check
  ((w.line I "#if YYBTYACC").table I "ctable" I.t.ctable).line I "#endif"

/-- byacc/output.c:1158-1188 `is_C_identifier`; names with a quote in front have one at the end -/
def isCIdent (name : List Nat) : Bool :=
  match name with
  | [] => false
  | 34 :: s =>
    match s with
    | [] => false
    | c :: s => isName1 c && (s.takeWhile (· != 34)).all isName2
  | c :: s => isName1 c && s.all isName2

/-- byacc/output.c:1222-1236: the name in a `#define` -/
def defName (name : List Nat) : List Nat :=
  match name with
  | 34 :: s => s.takeWhile (· != 34)
  | s => s

/-- byacc/output.c:1216-1241: the loop of `output_defines` -/
def Wr.define (I : TextIn) (f : OFile) (w : Wr) (i : Nat) : Wr :=
  let s := I.names.getD i []
  if isCIdent s && (!I.sflag || s.head? ≠ some 34) then
    (w.bumpIf f).put f (str "#define " ++ defName s ++ [32] ++ decInt (I.values.getD i 0) ++ [10])
  else w

/-- byacc/output.c:1190-1195 `start_defines_file` -/
def Wr.guardStart (I : TextIn) (w : Wr) : Wr :=
  (w.put .defs (str "#ifndef _" ++ I.pfx ++ str "_defines_h_\n")).put .defs (str "#define _" ++ I.pfx ++ str "_defines_h_\n\n")

/-- byacc/output.c:1197-1201 `end_defines_file` -/
def Wr.guardEnd (I : TextIn) (w : Wr) : Wr := w.put .defs (str "\n#endif /* _" ++ I.pfx ++ str "_defines_h_ */\n")

/-- byacc/output.c:1207-1287 `output_defines` -/
def Wr.defines (I : TextIn) (f : OFile) (w : Wr) : Wr :=
  let w := if f = .defs then w.codeLines I f "requires" I.requires else w
  let w := (List.range' 2 (I.ntokens - 2)).foldl (Wr.define I f) w
  let w := w.bumpIf f
  let w := if f ≠ .defs || I.iflag then w.put f (str "#define YYERRCODE " ++ decInt (I.values.getD 1 0) ++ [10]) else w
  let w := if f = .defs then w.codeLines I f "provides" I.provides else w
  let w :=
    if I.tokenTable && I.rflag && f ≠ .ext then
      ((w.bumpIf f).put f (str "#undef yytname\n")).bumpIf f |>.put f (str "#define yytname yyname\n")
    else w
  if f = .defs || (I.iflag && !I.dflag) then
    let w :=
      if I.unionized then
        let w := match I.union with | some u => w.putcs f u | none => w
        if !I.pureParser then w.put f (str "extern YYSTYPE " ++ I.pfx ++ str "lval;\n") else w
      else w
    if I.locations then (w.ltype f).put f (str "extern YYLTYPE " ++ I.pfx ++ str "lloc;\n") else w
  else w

/-- byacc/output.c:1289-1307 `output_stored_text` -/
def Wr.stored (I : TextIn) (f : OFile) (w : Wr) : Wr := if I.text.isEmpty then w else (w.putcs f I.text).codeLineno I f

/-- byacc/output.c:1309-1316 `output_yydebug` -/
def Wr.yydebug (I : TextIn) (f : OFile) (w : Wr) : Wr :=
  ((w.put f (str "#ifndef YYDEBUG\n")).put f (str "#define YYDEBUG " ++ decDigits (if I.tflag then 1 else 0) ++ [10])).put f (str "#endif\n")

/-- byacc/output.c:1332-1345: `maxtok` and `max` -/
def TextIn.maxtok (I : TextIn) : Int := (I.values.take I.ntokens).foldl (fun m v => if v > m then v else m) 0
def TextIn.maxsym (I : TextIn) : Int :=
  (I.values.drop I.ntokens).foldl (fun m v => if (I.maxtok + 1) + (v + 1) > m then (I.maxtok + 1) + (v + 1) else m) I.maxtok

/-- byacc/output.c:1357-1372: `symnam[i]`: the name of the first symbol with this number; the last entry is for other numbers -/
def TextIn.symnam (I : TextIn) (i : Nat) : Option (List Nat) :=
  if (i : Int) = I.maxsym + 1 then some (str "illegal-symbol")
  else ((I.pvals.zip I.names).find? (fun p => p.1 == i)).map Prod.snd

/-- byacc/output.c:1424-1436, 1471-1483: the characters of a literal up to the quote `q`, for a string.  (Literals end
with their quote.) -/
def escBody (q : Nat) : List Nat → List Nat
  | [] => []
  | c :: s =>
    if c = q then []
    else if c = 92 then
      match s with
      | [] => [92, 92]
      | d :: s => [92, 92] ++ (if d = 92 then [92, 92] else [d]) ++ escBody q s
    else c :: escBody q s

/-- byacc/output.c:1399-1505: an entry of `yyname`; `k` is the number of its characters in all cases -/
def nameItem (s : Option (List Nat)) : List Nat :=
  match s with
  | none => str "0,"
  | some (34 :: s) => str "\"\\\"" ++ escBody 34 s ++ str "\\\"\","
  | some (39 :: s) =>
    if s.head? = some 34 then str "\"'\\\"'\"," else str "\"'" ++ escBody 39 s ++ str "'\","
  | some s => [34] ++ s ++ str "\","

/-- byacc/output.c:1396-1506: the loop for `yyname`; `j` is the width of the line -/
def Wr.nameItems (I : TextIn) : List (Option (List Nat)) → Nat → Wr → Wr
  | [], _, w => w
  | s :: rest, j, w =>
    let k := (nameItem s).length
    if j + k > 80 then ((w.newline I).put I.out (nameItem s)).nameItems I rest k
    else (w.put I.out (nameItem s)).nameItems I rest (j + k)

/-- byacc/output.c:1520-1566: the text of a symbol in `yyrule` -/
def ruleItem (s : List Nat) : List Nat :=
  match s with
  | 34 :: s => str " \\\"" ++ escBody 34 s ++ str "\\\""
  | 39 :: 34 :: _ => str " '\\\"'"
  | 39 :: 92 :: 92 :: s => str " '\\\\\\\\" ++ s.takeWhile (· != 39) ++ [39]
  | 39 :: 92 :: c :: s => str " '\\\\" ++ [c] ++ s.takeWhile (· != 39) ++ [39]
  | 39 :: c :: _ => str " '" ++ [c] ++ [39]
  | s => [32] ++ s

/-- byacc/output.c:1515-1570: an entry of `yyrule` -/
def Wr.rule (I : TextIn) (w : Wr) (r : Nat × List Nat) : Wr :=
  (w.put I.out ([34] ++ I.names.getD r.1 [] ++ str " :" ++ r.2.flatMap (fun X => ruleItem (I.names.getD X [])) ++ str "\",")).newline I

/-- byacc/output.c:1318-1575 `output_debug` -/
def Wr.debug (I : TextIn) (w : Wr) : Wr :=
  let w := (w.bump 1).put .code (str "#define YYFINAL " ++ decDigits I.t.final ++ [10])
  let w := (w.yydebug I .code).bump 3
  let w := if I.rflag then w.yydebug I I.out else w
  let w := (w.bump 1).put .code (str "#define YYMAXTOKEN " ++ decInt I.maxtok ++ [10])
  let w := (w.bump 1).put .code (str "#define YYUNDFTOKEN " ++ decInt (I.maxsym + 1) ++ [10])
  let w := (w.bump 1).put .code (str "#define YYTRANSLATE(a) ((a) > YYMAXTOKEN ? YYUNDFTOKEN : (a))\n")
  let w :=
    if I.tokenTable then
      if !I.rflag then (w.line I "#undef yytname").line I "#define yytname yyname" else w
    else w.line I "#if YYDEBUG"
  let w := w.startStr I "name"
  let w := (w.nameItems I ((List.range (I.maxsym + 2).toNat).map I.symnam) 80).endTable I
  let w := if I.tokenTable then w.line I "#if YYDEBUG" else w
  let w := w.startStr I "rule"
  let w := I.rules.foldl (Wr.rule I) w
  (w.endTable I).line I "#endif"

/-- byacc/output.c:1578-1596 `output_backtracking_parser` -/
def Wr.backtracking (I : TextIn) (f : OFile) (w : Wr) : Wr :=
  let w := w.putlCode f (str "#undef YYBTYACC\n")
  if I.backtrack then
    w.lines f ["#define YYBTYACC 1\n", "#define YYDEBUGSTR (yytrial ? YYPREFIX \"debug(trial)\" : YYPREFIX \"debug\")\n"]
  else w.lines f ["#define YYBTYACC 0\n", "#define YYDEBUGSTR YYPREFIX \"debug\"\n"]

/-- byacc/output.c:1598-1613 `output_pure_parser` -/
def Wr.pure (I : TextIn) (f : OFile) (w : Wr) : Wr :=
  let w := (w.putcCode f 10).bumpIf f
  (w.put f (str "#define YYPURE " ++ decDigits (if I.pureParser then 1 else 0) ++ [10])).putcCode f 10

/-- byacc/output.c:1615-1658 `output_trailing_text` -/
def Wr.trailing (I : TextIn) (w : Wr) : Wr :=
  match I.trail with
  | none => w
  | some (cur, rest, lineno) =>
    if cur.head? = some 10 then
      if rest = [] then w
      else
        let w := (w.inputLineno I (lineno + 1)).putcs .code rest
        (if rest.getLast? ≠ some 10 then w.putcCode .code 10 else w).codeLineno I .code
    else
      let w := ((w.inputLineno I lineno).putcs .code cur).putcs .code rest
      (if (cur ++ rest).getLast? ≠ some 10 then w.putcCode .code 10 else w).codeLineno I .code

/-- the directive that stands in the action file for one with the right number (byacc/reader.c:32, output.c:1674) -/
def placeholder : List Nat := str "#line 1 \"\"\n"

/-- byacc/output.c:1680-1717: the loop of `output_semantic_actions`; `st` characters of a placeholder have been seen -/
def Wr.copyActs (I : TextIn) : List Nat → Nat → Nat → Wr → Wr
  | [], last, _, w => (if last ≠ 10 then w.putcCode .code 10 else w).codeLineno I .code
  | c :: rest, last, st, w =>
    if !I.lflag && (last = 10 || 0 < st) then
      if placeholder[st]? = some c then
        if st + 1 = placeholder.length then (w.codeLineno I .code).copyActs I rest c 0
        else w.copyActs I rest c (st + 1)
      else ((w.putcs .code (placeholder.take st)).putcCode .code c).copyActs I rest c 0
    else (w.putcCode .code c).copyActs I rest c 0

/-- byacc/output.c:1660-1717 `output_semantic_actions` -/
def Wr.semantic (I : TextIn) (w : Wr) : Wr :=
  match I.actions with
  | [] => w
  | c :: rest => (w.putcCode .code c).copyActs I rest c 0

/-- byacc/output.c:1719-1739 `output_parse_decl` -/
def Wr.parseDecl (I : TextIn) (f : OFile) (w : Wr) : Wr :=
  let w := (w.putcCode f 10).lines f ["/* compatibility with bison */\n", "#ifdef YYPARSE_PARAM\n", "/* compatibility with FreeBSD */\n",
    "# ifdef YYPARSE_PARAM_TYPE\n", "#  define YYPARSE_DECL() yyparse(YYPARSE_PARAM_TYPE YYPARSE_PARAM)\n", "# else\n",
    "#  define YYPARSE_DECL() yyparse(void *YYPARSE_PARAM)\n", "# endif\n", "#else\n"]
  let w := (w.put f (str "# define YYPARSE_DECL() yyparse(")).put f (paramTypes false I.parseParam)
  w.lines f [")\n", "#endif\n"]

/-- byacc/output.c:1747-1789: the declaration of `yylex` if `YYLEX_PARAM` is defined -/
def Wr.lexGiven (I : TextIn) (f : OFile) (w : Wr) : Wr :=
  if I.pureParser then
    if I.locations then
      w.lines f ["# ifdef YYLEX_PARAM_TYPE\n",
        "#  define YYLEX_DECL() yylex(YYSTYPE *yylval, YYLTYPE *yylloc, YYLEX_PARAM_TYPE YYLEX_PARAM)\n", "# else\n",
        "#  define YYLEX_DECL() yylex(YYSTYPE *yylval, YYLTYPE *yylloc, void * YYLEX_PARAM)\n", "# endif\n",
        "# define YYLEX yylex(&yylval, &yylloc, YYLEX_PARAM)\n"]
    else
      w.lines f ["# ifdef YYLEX_PARAM_TYPE\n",
        "#  define YYLEX_DECL() yylex(YYSTYPE *yylval, YYLEX_PARAM_TYPE YYLEX_PARAM)\n", "# else\n",
        "#  define YYLEX_DECL() yylex(YYSTYPE *yylval, void * YYLEX_PARAM)\n", "# endif\n",
        "# define YYLEX yylex(&yylval, YYLEX_PARAM)\n"]
  else w.lines f ["# define YYLEX_DECL() yylex(void *YYLEX_PARAM)\n", "# define YYLEX yylex(YYLEX_PARAM)\n"]

/-- byacc/output.c:1791-1842: the declaration of `yylex` with the parameters of `%lex-param` -/
def Wr.lexParams (I : TextIn) (f : OFile) (w : Wr) : Wr :=
  if I.pureParser && !I.lexParam.isEmpty then
    let w := w.put f (if I.locations then str "# define YYLEX_DECL() yylex(YYSTYPE *yylval, YYLTYPE *yylloc, "
      else str "# define YYLEX_DECL() yylex(YYSTYPE *yylval, ")
    let w := (w.put f (paramTypes false I.lexParam)).lines f [")\n"]
    let w := w.put f (if I.locations then str "# define YYLEX yylex(&yylval, &yylloc, " else str "# define YYLEX yylex(&yylval, ")
    (w.put f (paramNames false I.lexParam)).lines f [")\n"]
  else if I.pureParser then
    if I.locations then
      w.lines f ["# define YYLEX_DECL() yylex(YYSTYPE *yylval, YYLTYPE *yylloc)\n", "# define YYLEX yylex(&yylval, &yylloc)\n"]
    else w.lines f ["# define YYLEX_DECL() yylex(YYSTYPE *yylval)\n", "# define YYLEX yylex(&yylval)\n"]
  else if !I.lexParam.isEmpty then
    let w := ((w.put f (str "# define YYLEX_DECL() yylex(")).put f (paramTypes false I.lexParam)).lines f [")\n"]
    ((w.put f (str "# define YYLEX yylex(")).put f (paramNames false I.lexParam)).lines f [")\n"]
  else w.lines f ["# define YYLEX_DECL() yylex(void)\n", "# define YYLEX yylex()\n"]

/-- byacc/output.c:1741-1862 `output_lex_decl` -/
def Wr.lexDecl (I : TextIn) (f : OFile) (w : Wr) : Wr :=
  let w := (w.putcCode f 10).lines f ["/* Parameters sent to lex. */\n", "#ifdef YYLEX_PARAM\n"]
  let w := (w.lexGiven I f).lines f ["#else\n"]
  let w := (w.lexParams I f).lines f ["#endif\n"]
  if !I.pureParser && !I.backtrack && I.pfx = str "yy" then
    w.lines f ["\n", "#if !(defined(yylex) || defined(YYSTATE))\n", "int YYLEX_DECL();\n", "#endif\n"]
  else w

/-- byacc/output.c:1864-1890 `output_error_decl` -/
def Wr.errorDecl (I : TextIn) (f : OFile) (w : Wr) : Wr :=
  let w := (w.putcCode f 10).lines f ["/* Parameters sent to yyerror. */\n", "#ifndef YYERROR_DECL\n"]
  let w := w.put f (str "#define YYERROR_DECL() yyerror(")
  let w := if I.locations then w.put f (str "YYLTYPE *loc, ") else w
  let w := (w.put f (paramTypes true I.parseParam)).lines f ["const char *s)\n", "#endif\n", "#ifndef YYERROR_CALL\n"]
  let w := w.put f (str "#define YYERROR_CALL(msg) yyerror(")
  let w := if I.locations then w.put f (str "&yylloc, ") else w
  (w.put f (paramNames true I.parseParam)).lines f ["msg)\n", "#endif\n"]

/-- byacc/output.c:1893-1936 `output_yydestruct_decl` -/
def Wr.destructDecl (I : TextIn) (f : OFile) (w : Wr) : Wr :=
  let w := (w.putcCode f 10).lines f ["#ifndef YYDESTRUCT_DECL\n"]
  let w := w.put f (str "#define YYDESTRUCT_DECL() yydestruct(const char *msg, int psymb, YYSTYPE *val")
  let w := if I.locations then w.put f (str ", YYLTYPE *loc") else w
  let w := if !I.parseParam.isEmpty then (w.put f (str ", ")).put f (paramTypes false I.parseParam) else w
  let w := w.lines f [")\n", "#endif\n", "#ifndef YYDESTRUCT_CALL\n"]
  let w := w.put f (str "#define YYDESTRUCT_CALL(msg, psymb, val")
  let w := if I.locations then w.put f (str ", loc") else w
  let w := w.put f (str ") yydestruct(msg, psymb, val")
  let w := if I.locations then w.put f (str ", loc") else w
  let w := if !I.parseParam.isEmpty then (w.put f (str ", ")).put f (paramNames false I.parseParam) else w
  w.lines f [")\n", "#endif\n"]

/-- byacc/output.c:1938-1943 `output_initial_action` -/
def Wr.initial (I : TextIn) (w : Wr) : Wr :=
  match I.initialAction with
  | some a => w.put .code (a ++ [10])
  | none => w

/-- byacc/output.c:1958-1972: a destructor -/
def Wr.destruct (I : TextIn) (w : Wr) (d : Nat × List Nat) : Wr :=
  let w := (w.bump 1).put .code (str "\tcase " ++ decDigits d.1 ++ str ":\n")
  let w := (w.bump (d.2.count 10)).put .code d.2
  ((w.putcCode .code 10).codeLineno I .code).lines .code ["\tbreak;\n"]

/-- byacc/output.c:1945-1980 `output_yydestruct_impl` -/
def Wr.destructImpl (I : TextIn) (w : Wr) : Wr :=
  let w := (w.putcCode .code 10).lines .code ["/* Release memory associated with symbol. */\n", "#if ! defined YYDESTRUCT_IS_DECLARED\n",
    "static void\n", "YYDESTRUCT_DECL()\n", "{\n", "    switch (psymb)\n", "    {\n"]
  let w := I.destructors.foldl (Wr.destruct I) w
  w.lines .code ["    }\n", "}\n", "#define YYDESTRUCT_IS_DECLARED 1\n", "#endif\n"]

/-- byacc/btyaccpar.c:1272-1284 `write_section` -/
def Wr.section (f : OFile) (l : List (List Nat)) (w : Wr) : Wr := l.foldl (fun w s => (w.bumpIf f).put f (s ++ [10])) w

/-- byacc/output.c:2026-2043 `output_externs` -/
def Wr.externs (f : OFile) (l : List (List Nat)) (w : Wr) : Wr :=
  l.foldl (fun w s =>
    let w := if s ≠ [] ∧ s.head? ≠ some 35 then w.put f (str "extern\t") else w
    (w.bumpIf f).put f (s ++ [10])) w

/-- byacc/output.c:2086-2115: the part of `output` that defines the tokens -/
def Wr.tokenDefines (I : TextIn) (w : Wr) : Wr :=
  let w :=
    if I.iflag then
      let w := (w.put .ext [10]).yydebug I .ext
      let w := w.externs .ext I.skel.globalVars
      let w := if !I.pureParser then w.externs .ext I.skel.impureVars else w
      if I.dflag then (w.bump 1).put .code (str "#include \"" ++ I.definesName ++ str "\"\n") else w.defines I .ext
    else (w.putcCode .code 10).defines I .code
  if I.dflag then ((w.guardStart I).defines I .defs).guardEnd I else w

/-- byacc/output.c:2046-2115 `output`, up to the arrays -/
def Wr.front (I : TextIn) (w : Wr) : Wr :=
  let w := w.codeLines I .code "top" I.top
  let w := w.backtracking I I.out
  let w := if I.rflag then w.backtracking I .code else w
  let w := if I.iflag then ((w.codeLineno I .code).bump 1).put .code (str "#include \"" ++ I.externsName ++ str "\"\n") else w
  let f : OFile := if I.iflag then .ext else .code
  let w := w.prefix I f
  let w := w.pure I f
  let w := w.stored I f
  let w := w.stype I f
  let w := if I.locations then w.ltype f else w
  let w := w.parseDecl I f
  let w := w.lexDecl I f
  let w := w.errorDecl I f
  let w := if I.destructor then w.destructDecl I f else w
  let w := if I.iflag || !I.rflag then w.section f I.skel.xdecls else w
  w.tokenDefines I

/-- byacc/output.c:2125-2173 `output`, after the arrays -/
def Wr.back (I : TextIn) (w : Wr) : Wr :=
  let w := if I.rflag then ((w.section .code I.skel.xdecls).yyint I .code).section .code I.skel.tables else w
  let w := w.section .code I.skel.globalVars
  let w := if !I.pureParser then w.section .code I.skel.impureVars else w
  let w := w.codeLines I .code "requires" I.requires
  let w := w.section .code I.skel.hdrDefs
  let w := if !I.pureParser then w.section .code I.skel.hdrVars else w
  let w := w.codeLines I .code "provides" I.provides
  let w := w.codeLines I .code "" I.header
  let w := w.trailing I
  let w := if I.destructor then w.destructImpl I else w
  let w := w.section .code I.skel.body1
  let w := if I.pureParser then w.section .code I.skel.bodyVars else w
  let w := w.section .code I.skel.body2
  let w := if I.pureParser then w.section .code I.skel.initVars else w
  let w := w.initial I
  let w := w.section .code I.skel.body3
  let w := w.semantic I
  w.section .code I.skel.trailer

/-- byacc/output.c:2046-2173 `output` -/
def Wr.output (I : TextIn) (w : Wr) : Wr := (((w.front I).tables I).debug I).back I

/-- byacc/reader.c:590-625 `copy_ident`: `%ident "..."` in the declarations; `s` is the text up to the closing quote -/
def Wr.ident (I : TextIn) (s : List Nat) (w : Wr) : Wr := (w.bump 1).put I.out (str "#ident \"" ++ s ++ str "\"\n")

/-- byacc/reader.c:5172: the banner, and what `%ident` wrote, before `output` -/
def Wr.start (I : TextIn) (banner : List (List Nat)) (idents : List (List Nat)) : Wr :=
  idents.foldl (fun w s => w.ident I s) (Wr.section .code banner ⟨[], [], [], [], 0⟩)

/-- byacc/reader.c:777-779: blanks behind the `{` of a `%code` block, on the same line -/
def skipLineBlanks : List Nat → List Nat
  | [] => []
  | c :: t => if c = 10 then t else if isSpace c then skipLineBlanks t else c :: t

/-- byacc/reader.c:794-834: the loop of `copy_code`; `curl` braces are open, there are `on` characters on the line, `n` is
`cline`, `out` the text so far.  `none` means that the file ends. -/
def blockGo : List Nat → Nat → Nat → Nat → List Nat → Option (CodeBlock × List Nat)
  | [], _, _, _, _ => none
  | c :: t, curl, on, n, out =>
    if c = 10 then blockGo t curl 1 (n + 1) (out ++ [c])
    else if c = 123 then blockGo t (curl + 1) (on + 1) n (out ++ [c])
    else if c = 125 then
      if curl - 1 = 0 then some (if on > 1 then ⟨out ++ [10], n + 1⟩ else ⟨out, n⟩, t)
      else blockGo t (curl - 1) (on + 1) n (out ++ [c])
    else blockGo t curl (on + 1) n (out ++ [c])

/-- byacc/reader.c:777-834 `copy_code`: a `%code` block is read.  `t` is the text behind the `{`, which stands on line `lineno`;
the result are the new contents of `S->code_lines[pos]` and the text behind the block. -/
def readBlock (lflag : Bool) (lineno : Nat) (inputName : List Nat) (old : Option CodeBlock) (t : List Nat) :
    Option (CodeBlock × List Nat) :=
  let b := old.getD ⟨[], 0⟩
  blockGo (skipLineBlanks t) 1 0 (b.num + 1) (b.lines ++ if lflag then [] else lineText lineno inputName)

/-- The text of the code file. -/
def Piece.bytes (name : List Nat) : Piece → List Nat
  | .text t => t
  | .self n => lineText n name

end Verif.Byacc
