import Verif.Lemon.Destructor
import Verif.Lemon.Header
import Verif.Lemon.Report
/-
The text of the generated C file: `tplt_xfer`, `tplt_skip_header`, `tplt_linedir`, `tplt_print` (lemon.c:3954-3995, 4054-4082),
`print_stack_union` (lemon.c:4554-4575), `writeRuleText` (lemon.c:4638-4653), `rule_print` (lemon.c:3364-3389) and `ReportTable`
(lemon.c:4920-5512).

`lineno` is meant to be the number of the line that is written next; it is used in `#line` directives that take a compiler back from
the grammar file to the generated file.  In the model the generated file is a list of pieces, so that these directives can be told from
other text.
-/
set_option autoImplicit false
namespace Verif.Lemon

/-- a literal of the C code -/
def cstr (s : String) : List Nat := s.toList.map Char.toNat

/-- `%5d` and the like, `%10s` -/
def padLeft (n : Nat) (t : List Nat) : List Nat := List.replicate (n - t.length) 32 ++ t

/-- `%-30s` -/
def padRight (n : Nat) (t : List Nat) : List Nat := t ++ List.replicate (n - t.length) 32

/-- A part of the generated file: text, or a directive `#line n "name of the generated file"`. -/
inductive LPiece where
  | text (t : List Nat)
  | self (n : Nat)
deriving DecidableEq, Repr

/-- the bytes written; `tplt_linedir` prints the same text as `lineMacro`, lemon.c:4054-4063 -/
def LPiece.bytes (outname : List Nat) : LPiece → List Nat
  | .text t => t
  | .self n => lineMacro n outname

/-- What the text depends on. -/
structure LText where
  /-- option `-m` -/
  mhflag : Bool
  /-- option `-l` -/
  nolinenosflag : Bool
  /-- `lemp->filename`, `lemp->outname`, and the result of `file_makename(lemp, ".h")` -/
  filename : List Nat
  outname : List Nat
  incName : List Nat
  defs : Macros
  s : RState
  T : Tables
  /-- `mxTknOfst` -/
  shiftMax : Int
  /-- `lemp->nruleWithAction` -/
  nAct : Nat
  /-- the rules in the order of `iRule`, with what `translate_code` leaves, and `doesReduce` -/
  rules : List (RRule × Trans × Bool)
  /-- the template file; it has no NUL -/
  template : List Nat
  /-- the byte in memory in front of a string, see `LW.print` -/
  below : Nat

/-- The generated file, `lineno`, the lines of the template not yet read, and whether memory in front of a string was read. -/
structure LW where
  code : List LPiece
  lineno : Nat
  rest : List (List Nat)
  oob : Bool
deriving DecidableEq, Repr

/-- `fprintf` -/
def LW.put (t : List Nat) (w : LW) : LW := { w with code := w.code ++ [.text t] }

/-- `lineno += n` -/
def LW.bump (n : Nat) (w : LW) : LW := { w with lineno := w.lineno + n }

/-- `fprintf` of a line, and `lineno++` -/
def LW.line (t : List Nat) (w : LW) : LW := (w.put (t ++ [10])).bump 1

/-- `fgets(line,LINESIZE,in)` until the end of the file: parts of the text that end with a newline or have `n` bytes.  `cur` is the part read so far.
`LINESIZE` is 1000, so `n` is 999. -/
def fgetsGo (n : Nat) (cur : List Nat) : List Nat → List (List Nat)
  | [] => if cur = [] then [] else [cur]
  | c :: t => if c = 10 ∨ cur.length + 1 = n then (cur ++ [c]) :: fgetsGo n [] t else fgetsGo n (cur ++ [c]) t

/-- the lines of the template, lemon.c:3968 -/
def templateLines (t : List Nat) : List (List Nat) := fgetsGo 999 [] t

/-- the loop of lemon.c:3972-3982 and 3984; the first argument is `line[i-1]` -/
def renameGo (name : List Nat) : Option Nat → List Nat → List Nat
  | prev, 80 :: 97 :: 114 :: 115 :: 101 :: t =>
    if prev.any isAlpha then 80 :: 97 :: 114 :: 115 :: 101 :: renameGo name (some 101) t
    else name ++ renameGo name (some 101) t
  | _, c :: t => c :: renameGo name (some c) t
  | _, [] => []

/-- a line of the template as it is written, lemon.c:3970-3984 -/
def renameLine (name : Option (List Nat)) (line : List Nat) : List Nat :=
  match name with
  | some n => renameGo n none line
  | none => line

/-- the line ends a section of the template, lemon.c:3968, 3992 -/
def isMark (line : List Nat) : Bool := line.take 2 == [37, 37]

/-- `tplt_xfer`, lemon.c:3964-3986 -/
def LW.xferGo (name : Option (List Nat)) : List (List Nat) → LW → LW
  | [], w => { w with rest := [] }
  | l :: ls, w => if isMark l then { w with rest := ls } else xferGo name ls ((w.put (renameLine name l)).bump 1)

def LW.xfer (I : LText) (w : LW) : LW := LW.xferGo (I.s.args .name) w.rest w

/-- `tplt_skip_header`, lemon.c:3989-3995 -/
def LW.skipGo : List (List Nat) → LW → LW
  | [], w => { w with rest := [] }
  | l :: ls, w => if isMark l then { w with rest := ls } else skipGo ls (w.bump 1)

def LW.skip (w : LW) : LW := LW.skipGo w.rest w

/-- the directive for the generated file, lemon.c:4078-4080 -/
def LW.selfDir (I : LText) (w : LW) : LW :=
  if I.nolinenosflag then w else { w.bump 1 with code := (w.bump 1).code ++ [.self (w.bump 1).lineno] }

/-- `tplt_print`, lemon.c:4066-4082.  `prev` is the byte in front of the string, if the string does not start a block of memory.  `str[-1]` for an empty string
is this byte, or some byte outside. -/
def LW.print (I : LText) (prev : Option Nat) (str : Option (List Nat)) (w : LW) : LW :=
  match str with
  | none => w
  | some t =>
    let w1 := (w.put t).bump (newlines t)
    let w2 := { w1 with oob := w1.oob || (t.isEmpty && prev.isNone) }
    (if (t.getLast?.or prev).getD I.below = 10 then w2 else w2.line []).selfDir I

/-- lemon.c:4974-4979: the number of bytes skipped at the start of `lemp->include`: up to the last newline in the white space -/
def blankLines (t : List Nat) : Nat := ((t.takeWhile isSpace).reverse.dropWhile (· != 10)).length

/-- `lemp->include` after lemon.c:4973-4979 -/
def LText.incl (I : LText) : List Nat := ((I.s.args .incl).getD []).drop (blankLines ((I.s.args .incl).getD []))

/-- the first comment of the file, lemon.c:4954-4968 -/
def LW.header (I : LText) (w : LW) : LW := { (w.put (reportHeader I.filename I.defs).1) with lineno := (reportHeader I.filename I.defs).2 }

/-- from lemon.c:4970 to the first part of the template after the code of `%include` (lemon.c:4993).  (The byte in front of the text is a newline if blank lines are skipped.) -/
def LW.includes (I : LText) (w : LW) : LW :=
  let w := if I.incl.head? = some 47 then w.skip else w.xfer I
  let w := w.print I (if blankLines ((I.s.args .incl).getD []) = 0 then none else some 10) (some I.incl)
  if I.mhflag then w.line (cstr "#include \"" ++ I.incName ++ cstr "\"") else w

/-- `prefix`, lemon.c:4996-4997 -/
def LText.tokenPrefix (I : LText) : List Nat := (I.s.args .tokenPrefix).getD []

/-- `lemp->symbols[i]->name` -/
def LText.symName (I : LText) (i : Nat) : List Nat := (I.s.symbols[i]?.map Sym.name).getD []

/-- lemon.c:5003-5006 for the tokens `i`, … -/
def LW.defineTokens (I : LText) (l : List Nat) (w : LW) : LW :=
  l.foldl (fun w i => w.line (cstr "#define " ++ I.tokenPrefix ++ padRight 30 (I.symName i) ++ [32] ++ padLeft 2 (decimal i))) w

/-- the macros for tokens, lemon.c:4995-5007; `lineno` is not incremented for `#ifndef` -/
def LW.tokens (I : LText) (w : LW) : LW :=
  let w := if I.mhflag then w.line (cstr "#if INTERFACE") else w.put (cstr "#ifndef " ++ I.tokenPrefix ++ I.symName 1 ++ [10])
  (w.defineTokens I ((List.range I.s.nterminal).drop 1)).line (cstr "#endif")

/-- the names of the types, lemon.c:4582-4609 -/
def typeName : Bool × Nat → List Nat
  | (false, 1) => cstr "unsigned char"
  | (false, 2) => cstr "unsigned short int"
  | (false, _) => cstr "unsigned int"
  | (true, 1) => cstr "signed char"
  | (true, 2) => cstr "short"
  | (true, _) => cstr "int"

/-- `name`, lemon.c:4555, 5032 -/
def LText.name (I : LText) : List Nat := (I.s.args .name).getD (cstr "Parse")

/-- the union, lemon.c:4554-4575 -/
def LW.union (I : LText) (w : LW) : LW :=
  let w := if I.mhflag then w.line (cstr "#if INTERFACE") else w
  let w := w.line (cstr "#define " ++ I.name ++ cstr "TOKENTYPE " ++ (I.s.args .tokenType).getD (cstr "void*"))
  let w := if I.mhflag then w.line (cstr "#endif") else w
  let w := w.line (cstr "typedef union {")
  let w := w.line (cstr "  int yyinit;")
  let w := w.line (cstr "  " ++ I.name ++ cstr "TOKENTYPE yy0;")
  let w := (I.s.fields.drop 1).foldl (fun w p => w.line (cstr "  " ++ p.2.getD [] ++ cstr " yy" ++ decimal p.1 ++ cstr ";")) w
  w.line (cstr "} YYMINORTYPE;")

/-- `&lemp->arg[i]`, lemon.c:5034-5036: the name in a declaration, with the white space behind it -/
def argName (t : List Nat) : List Nat :=
  let sp := (t.reverse.takeWhile isSpace).length
  let id := ((t.reverse.drop sp).takeWhile nameChar).length
  t.drop (t.length - sp - id)

/-- the macros for the extra argument and the extra context, lemon.c:5033-5067; `kind` is `ARG` or `CTX` -/
def LW.extra (I : LText) (kind : String) (arg : Option (List Nat)) (w : LW) : LW :=
  let def' := fun (k : String) => cstr "#define " ++ I.name ++ cstr kind ++ cstr k
  match arg with
  | some (c :: t) =>
    let a := c :: t
    let n := argName a
    let w := w.line (def' "_SDECL " ++ a ++ cstr ";")
    let w := w.line (def' "_PDECL ," ++ a)
    let w := w.line (def' "_PARAM ," ++ n)
    let w := w.line (def' "_FETCH " ++ a ++ cstr "=yypParser->" ++ n ++ cstr ";")
    w.line (def' "_STORE yypParser->" ++ n ++ cstr "=" ++ n ++ cstr ";")
  | _ =>
    let w := w.line (def' "_SDECL")
    let w := w.line (def' "_PDECL")
    let w := w.line (def' "_PARAM")
    let w := w.line (def' "_FETCH")
    w.line (def' "_STORE")

/-- `lemp->has_fallback`, lemon.c:2808 -/
def RState.hasFallback (s : RState) : Bool := s.syms.any fun y => y.fallback.isSome

/-- `#define %s %d` -/
def LW.define (name : String) (v : Int) (w : LW) : LW := w.line (cstr "#define " ++ cstr name ++ decimalInt v)

/-- lemon.c:5016-5019 -/
def LW.wildcard (I : LText) (w : LW) : LW :=
  match I.T.wildcard with
  | some i => w.define "YYWILDCARD " i
  | none => w

/-- lemon.c:5071-5074 -/
def LW.errorSymbol (I : LText) (w : LW) : LW :=
  match I.T.errsym with
  | some i => (w.define "YYERRORSYMBOL " i).line (cstr "#define YYERRSYMDT yy" ++ decimal (I.s.dtnum errorName))
  | none => w

/-- the macros of lemon.c:5010-5077 -/
def LW.defines (I : LText) (w : LW) : LW :=
  let w := w.line (cstr "#define YYCODETYPE " ++ typeName I.T.codeType)
  let w := w.define "YYNOCODE " I.T.nsymbol
  let w := w.line (cstr "#define YYACTIONTYPE " ++ typeName I.T.actionType)
  let w := w.wildcard I
  let w := w.union I
  let w := w.line (cstr "#ifndef YYSTACKDEPTH")
  let w := w.line (cstr "#define YYSTACKDEPTH " ++ (I.s.args .stackSize).getD (cstr "100"))
  let w := w.line (cstr "#endif")
  let w := if I.mhflag then w.line (cstr "#if INTERFACE") else w
  let w := w.extra I "ARG" (I.s.args .extraArgument)
  let w := w.extra I "CTX" (I.s.args .extraContext)
  let w := if I.mhflag then w.line (cstr "#endif") else w
  let w := w.errorSymbol I
  if I.s.hasFallback then w.line (cstr "#define YYFALLBACK 1") else w

/-- the macros of lemon.c:5156-5173 -/
def LW.constants (I : LText) (w : LW) : LW :=
  let w := w.define "YYNSTATE             " I.T.nx
  let w := w.define "YYNRULE              " I.T.nrule
  let w := w.define "YYNRULE_WITH_ACTION  " I.nAct
  let w := w.define "YYNTOKEN             " I.T.nterm
  let w := w.define "YY_MAX_SHIFT         " ((I.T.nx : Int) - 1)
  let w := w.define "YY_MIN_SHIFTREDUCE   " I.T.minShiftReduce
  let w := w.define "YY_MAX_SHIFTREDUCE   " ((I.T.minShiftReduce : Int) + I.T.nrule - 1)
  let w := w.define "YY_ERROR_ACTION      " I.T.errAction
  let w := w.define "YY_ACCEPT_ACTION     " I.T.accAction
  let w := w.define "YY_NO_ACTION         " I.T.noAction
  let w := w.define "YY_MIN_REDUCE        " I.T.minReduce
  w.define "YY_MAX_REDUCE        " ((I.T.minReduce : Int) + I.T.nrule - 1)

/-- the loops of lemon.c:5192-5203 and so on: `i` is the number of the entry, `j` its place in the line.  With `last` the line ends behind the last entry. -/
def LW.entries (last : Bool) : List Int → Nat → Nat → LW → LW × Nat
  | [], _, j, w => (w, j)
  | v :: l, i, j, w =>
    let w := if j = 0 then w.put (cstr " /* " ++ padLeft 5 (decimal i) ++ cstr " */ ") else w
    let w := w.put (cstr " " ++ padLeft 4 (decimalInt v) ++ cstr ",")
    if j = 9 ∨ (last = true ∧ l = []) then LW.entries last l (i + 1) 0 (w.line []) else LW.entries last l (i + 1) (j + 1) w

/-- an array, lemon.c:5191-5204 -/
def LW.array (type name : List Nat) (l : List Int) (w : LW) : LW :=
  let w := w.line (cstr "static const " ++ type ++ [32] ++ name ++ cstr "[] = {")
  ((LW.entries true l 0 0 w).1).line (cstr "};")

/-- `yy_lookahead`, lemon.c:5207-5238 -/
def LW.lookahead (I : LText) (w : LW) : LW :=
  let w := w.line (cstr "static const YYCODETYPE yy_lookahead[] = {")
  let p := LW.entries false (I.T.lookahead.map Int.ofNat) 0 0 w
  (if 0 < p.2 then p.1.line [] else p.1).line (cstr "};")

/-- the tables, lemon.c:5187-5308 -/
def LW.tables (I : LText) (w : LW) : LW :=
  let w := w.line (cstr "#define YY_ACTTAB_COUNT (" ++ decimal I.T.action.length ++ cstr ")")
  let w := w.array (cstr "YYACTIONTYPE") (cstr "yy_action") (I.T.action.map Int.ofNat)
  let w := w.lookahead I
  let w := w.line (cstr "#define YY_SHIFT_COUNT    (" ++ decimalInt ((I.T.shiftOfst.length : Int) - 1) ++ cstr ")")
  let w := w.line (cstr "#define YY_SHIFT_MIN      (" ++ decimalInt I.T.shiftMin ++ cstr ")")
  let w := w.line (cstr "#define YY_SHIFT_MAX      (" ++ decimalInt I.shiftMax ++ cstr ")")
  let w := w.array (typeName I.T.shiftType) (cstr "yy_shift_ofst") I.T.shiftOfst
  let w := w.line (cstr "#define YY_REDUCE_COUNT (" ++ decimalInt ((I.T.reduceOfst.length : Int) - 1) ++ cstr ")")
  let w := w.line (cstr "#define YY_REDUCE_MIN   (" ++ decimalInt I.T.reduceMin ++ cstr ")")
  let w := w.line (cstr "#define YY_REDUCE_MAX   (" ++ decimalInt I.T.reduceMax ++ cstr ")")
  let w := w.array (typeName I.T.reduceType) (cstr "yy_reduce_ofst") I.T.reduceOfst
  w.array (cstr "YYACTIONTYPE") (cstr "yy_default") (I.T.dflt.map Int.ofNat)

/-- one line of the table of fallbacks, lemon.c:5320-5327 -/
def LText.fallbackLine (I : LText) (i : Nat) : List Nat :=
  match I.s.symbols[i]?.bind Sym.fallback with
  | none => cstr "    0,  /* " ++ padLeft 10 (I.symName i) ++ cstr " => nothing */"
  | some f => cstr "  " ++ padLeft 3 (decimal (I.s.index f)) ++ cstr ",  /* " ++ padLeft 10 (I.symName i) ++ cstr " => " ++ f ++ cstr " */"

/-- the fallbacks, lemon.c:5312-5330 -/
def LW.fallbacks (I : LText) (w : LW) : LW :=
  if I.s.hasFallback then (List.range I.s.nterminal).foldl (fun w i => w.line (I.fallbackLine i)) w else w

/-- the names of the symbols, lemon.c:5335-5337 -/
def LW.symNames (I : LText) (w : LW) : LW :=
  (List.range I.s.nsymbol).foldl (fun w i => w.line (cstr "  /* " ++ padLeft 4 (decimal i) ++ cstr " */ \"" ++ I.symName i ++ cstr "\",")) w

/-- a symbol of the right side as `writeRuleText` and `rule_print` print it, lemon.c:4642-4651, 3374-3385 -/
def RState.refText (s : RState) : RhsRef → List Nat
  | .sym x => if (s.sym x).type = .MULTITERMINAL then List.intercalate [124] (s.sym x).subsym else x
  | .alts l => List.intercalate [124] l

/-- `writeRuleText`, lemon.c:4638-4653; `rule_print` without comments prints the same, lemon.c:3364-3389 -/
def RState.ruleText (s : RState) (r : RRule) : List Nat := r.lhs ++ cstr " ::=" ++ r.rhs.flatMap fun p => 32 :: s.refText p.1

/-- the texts of the rules, lemon.c:5344-5349 -/
def LW.ruleNames (I : LText) (w : LW) : LW :=
  I.rules.zipIdx.foldl (fun w p => w.line (cstr " /* " ++ padLeft 3 (decimal p.2) ++ cstr " */ \"" ++ I.s.ruleText p.1.1 ++ cstr "\",")) w

/-- the directive for the grammar file, lemon.c:4104-4107, 4427-4430 -/
def LW.fileDir (I : LText) (line : Option Nat) (w : LW) : LW :=
  match line with
  | some l => if I.nolinenosflag then w else (w.put (lineMacro l I.filename)).bump 1
  | none => w

/-- `emit_destructor_code`, lemon.c:4088-4129; the text is that of `RState.emitDestructor` -/
def LW.destructor (I : LText) (p : DSym) (w : LW) : LW :=
  match I.s.destructorCode p with
  | none => w
  | some (cp, line) =>
    let w := w.line (cstr "{")
    let w := w.fileDir I line
    let w := ((w.put (dollars p.dtnum cp)).bump (newlines cp)).line []
    (w.selfDir I).line (cstr "}")

/-- a group of cases, see `RState.emitCase` -/
def LW.destructCase (I : LText) (c : DCase) (w : LW) : LW :=
  let w := if c.comment = [] then w else (w.put c.comment).bump 1
  let w := c.syms.foldl (fun w p => (w.put (caseLine p)).bump 1) w
  let w := match c.body with | some p => w.destructor I p | none => w
  (w.put breakLine).bump 1

/-- the destructors, lemon.c:5355-5414 -/
def LW.destructors (I : LText) (w : LW) : LW := I.s.destructorCases.foldl (fun w c => w.destructCase I c) w

/-- `yyRuleInfoLhs`, lemon.c:5427-5431 -/
def LW.ruleLhs (I : LText) (w : LW) : LW :=
  I.rules.zipIdx.foldl (fun w p => w.line (cstr "  " ++ padLeft 4 (decimal (I.s.index p.1.1.lhs)) ++ cstr ",  /* (" ++ decimal p.2 ++ cstr ") " ++ I.s.ruleText p.1.1 ++ cstr " */")) w

/-- `yyRuleInfoNRhs`, lemon.c:5433-5437 -/
def LW.ruleNRhs (I : LText) (w : LW) : LW :=
  I.rules.zipIdx.foldl (fun w p => w.line (cstr "  " ++ padLeft 3 (decimalInt (-(p.1.1.rhs.length : Int))) ++ cstr ",  /* (" ++ decimal p.2 ++ cstr ") " ++ I.s.ruleText p.1.1 ++ cstr " */")) w

/-- `emit_code`, lemon.c:4412-4453; the text is that of `emitCode` -/
def LW.action (I : LText) (t : Trans) (w : LW) : LW :=
  let w := if t.pre = [] then w else (w.put (123 :: t.pre)).bump (newlines t.pre)
  let w := w.fileDir I (some t.line)
  let w := ((w.put (123 :: t.code)).bump (newlines t.code)).line (cstr "}")
  let w := w.selfDir I
  let w := (w.put t.suffix).bump (newlines t.suffix)
  if t.pre = [] then w else w.line (cstr "}")

/-- the text of the rule with number `i` -/
def LText.ruleTextAt (I : LText) (i : Nat) : List Nat := (I.rules[i]?.map fun p => I.s.ruleText p.1).getD []

/-- one `case` with the rules that have the same code, lemon.c:5455-5470 -/
def LW.actionCase (I : LText) (c : List Nat × Trans) (w : LW) : LW :=
  let w := match c.1 with
    | [] => w
    | i :: l => l.foldl (fun w j => w.line (cstr "      case " ++ decimal j ++ cstr ": /* " ++ I.ruleTextAt j ++ cstr " */ yytestcase(yyruleno==" ++ decimal j ++ cstr ");"))
        (w.line (cstr "      case " ++ decimal i ++ cstr ": /* " ++ I.ruleTextAt i ++ cstr " */"))
  (w.action I c.2).line (cstr "        break;")

/-- the rules with code, with the code, as input of `actionCases` -/
def LText.trans (I : LText) : List (Trans × Nat) := I.rules.zipIdx.map fun p => (p.1.2.1, p.2)

/-- the groups of rules with code -/
def LText.cases (I : LText) : List (List Nat × Trans) := actionCases I.trans []

/-- a rule in the comment of the default case, lemon.c:5477-5490 -/
def LText.defaultLine (I : LText) (i : Nat) (p : RRule × Trans × Bool) : List Nat :=
  cstr "      /* (" ++ decimal i ++ cstr ") " ++ I.s.ruleText p.1 ++
    if p.1.neverReduce then cstr " (NEVER REDUCES) */ assert(yyruleno!=" ++ decimal i ++ cstr ");"
    else if p.2.2 then cstr " */ yytestcase(yyruleno==" ++ decimal i ++ cstr ");"
    else cstr " (OPTIMIZED OUT) */ assert(yyruleno!=" ++ decimal i ++ cstr ");"

/-- the actions, lemon.c:5440-5492 -/
def LW.actions (I : LText) (w : LW) : LW :=
  let w := if I.rules.any fun p => p.2.1.lhsLocal then w.line (cstr "        YYMINORTYPE yylhsminor;") else w
  let w := I.cases.foldl (fun w c => w.actionCase I c) w
  let w := w.line (cstr "      default:")
  let w := I.rules.zipIdx.foldl (fun w p => if p.2 ∈ I.cases.flatMap Prod.fst then w else w.line (I.defaultLine p.2 p.1)) w
  w.line (cstr "        break;")

/-- lemon.c:4955-5007: to the macros for tokens, with the sections of the template in between -/
def LW.front (I : LText) (w : LW) : LW := (((w.header I).includes I).xfer I)

/-- lemon.c:5008-5505: what follows the macros for tokens -/
def LW.back (I : LText) (w : LW) : LW :=
  let w := w.xfer I
  let w := ((w.defines I).constants I).xfer I
  let w := (w.tables I).xfer I
  let w := (w.fallbacks I).xfer I
  let w := (w.symNames I).xfer I
  let w := (w.ruleNames I).xfer I
  let w := (w.destructors I).xfer I
  let w := (w.print I none (I.s.args .stackOverflow)).xfer I
  let w := (w.ruleLhs I).xfer I
  let w := (w.ruleNRhs I).xfer I
  let w := (w.actions I).xfer I
  let w := (w.print I none (I.s.args .parseFailure)).xfer I
  let w := (w.print I none (I.s.args .syntaxError)).xfer I
  let w := (w.print I none (I.s.args .parseAccept)).xfer I
  w.print I none (I.s.args .code)

/-- `ReportTable`, lemon.c:4954-5505 -/
def reportText (I : LText) : LW := ((LW.mk [] 1 (templateLines I.template) false).front I |>.tokens I).back I

end Verif.Lemon
