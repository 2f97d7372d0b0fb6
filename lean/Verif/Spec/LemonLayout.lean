import Verif.Spec.LemonText
import Verif.Spec.LemonCode
/-
Specification: the parts of the C file made by lemon, line by line.
-/
set_option autoImplicit false
namespace Verif.Spec.LText
open Verif.Lemon
open Verif.Spec.GFile (text directive)
open Verif.Spec.RuleCode (num)

/-- the generated file without the directives that point to the file itself -/
def written (l : List LPiece) : List Nat := l.flatMap fun p => match p with | .text t => t | .self _ => []

/-- lines of text -/
def lines (l : List (List Nat)) : List Nat := l.flatMap fun t => t ++ [10]

/-- aligned to the right, and to the left, in a column of `n` bytes -/
def right (n : Nat) (t : List Nat) : List Nat := List.replicate (n - t.length) 32 ++ t
def left (n : Nat) (t : List Nat) : List Nat := t ++ List.replicate (n - t.length) 32

/-- the argument of a directive, or what is taken instead -/
def arg (I : LText) (k : Kw) (dflt : String) : List Nat := (I.s.args k).getD (text dflt)

/-- the name of the symbol with number `i` -/
def symbolName (I : LText) (i : Nat) : List Nat := (I.s.symbols[i]?.map Sym.name).getD []

/-- the line in front of the macros for tokens -/
def tokenIf (I : LText) : List Nat := if I.mhflag then text "#if INTERFACE" else text "#ifndef " ++ arg I .tokenPrefix "" ++ symbolName I 1

/-- the macros for tokens -/
def tokenLines (I : LText) : List (List Nat) :=
    (((List.range I.s.nterminal).drop 1).map fun i : Nat => text "#define " ++ arg I .tokenPrefix "" ++ left 30 (symbolName I i) ++ text " " ++ right 2 (num i)) ++
    [text "#endif"]

/-- the union of the types -/
def unionLines (I : LText) : List (List Nat) :=
  (if I.mhflag then [text "#if INTERFACE"] else []) ++
  [text "#define " ++ arg I .name "Parse" ++ text "TOKENTYPE " ++ arg I .tokenType "void*"] ++
  (if I.mhflag then [text "#endif"] else []) ++
  [text "typedef union {", text "  int yyinit;", text "  " ++ arg I .name "Parse" ++ text "TOKENTYPE yy0;"] ++
  ((I.s.fields.drop 1).map fun p => text "  " ++ p.2.getD [] ++ text " yy" ++ num p.1 ++ text ";") ++
  [text "} YYMINORTYPE;"]

/-- the macros for an extra argument, where `decl` is its declaration and `var` the name in it -/
def extraLines (name : List Nat) (kind : String) (decl : Option (List Nat × List Nat)) : List (List Nat) :=
  match decl with
  | some (a, x) => [
      text "#define " ++ name ++ text kind ++ text "_SDECL " ++ a ++ text ";",
      text "#define " ++ name ++ text kind ++ text "_PDECL ," ++ a,
      text "#define " ++ name ++ text kind ++ text "_PARAM ," ++ x,
      text "#define " ++ name ++ text kind ++ text "_FETCH " ++ a ++ text "=yypParser->" ++ x ++ text ";",
      text "#define " ++ name ++ text kind ++ text "_STORE yypParser->" ++ x ++ text "=" ++ x ++ text ";"]
  | none => ["_SDECL", "_PDECL", "_PARAM", "_FETCH", "_STORE"].map fun k => text "#define " ++ name ++ text kind ++ text k

/-- the declaration of an argument, if there is one -/
def decl (I : LText) (k : Kw) : Option (List Nat × List Nat) :=
  match I.s.args k with
  | some (c :: t) => some (c :: t, argName (c :: t))
  | _ => none

/-- a C type: signed or unsigned, of 1, 2, or 4 bytes -/
def cType (t : Bool × Nat) : List Nat :=
  text (if t.2 = 1 then (if t.1 then "signed char" else "unsigned char")
    else if t.2 = 2 then (if t.1 then "short" else "unsigned short int")
    else (if t.1 then "int" else "unsigned int"))

/-- the macros for `%wildcard` and for the symbol `error` -/
def wildcardLines (I : LText) : List (List Nat) :=
  match I.T.wildcard with
  | some i => [text "#define YYWILDCARD " ++ num i]
  | none => []

def errorLines (I : LText) : List (List Nat) :=
  match I.T.errsym with
  | some i => [text "#define YYERRORSYMBOL " ++ num i, text "#define YYERRSYMDT yy" ++ num (I.s.dtnum errorName)]
  | none => []

/-- the macros -/
def defineLines (I : LText) : List (List Nat) :=
  [text "#define YYCODETYPE " ++ cType I.T.codeType,
   text "#define YYNOCODE " ++ num I.T.nsymbol,
   text "#define YYACTIONTYPE " ++ cType I.T.actionType] ++
  wildcardLines I ++
  unionLines I ++
  [text "#ifndef YYSTACKDEPTH", text "#define YYSTACKDEPTH " ++ arg I .stackSize "100", text "#endif"] ++
  (if I.mhflag then [text "#if INTERFACE"] else []) ++
  extraLines (arg I .name "Parse") "ARG" (decl I .extraArgument) ++ extraLines (arg I .name "Parse") "CTX" (decl I .extraContext) ++
  (if I.mhflag then [text "#endif"] else []) ++
  errorLines I ++
  (if I.s.hasFallback then [text "#define YYFALLBACK 1"] else []) ++
  [text "#define YYNSTATE             " ++ num I.T.nx,
   text "#define YYNRULE              " ++ num I.T.nrule,
   text "#define YYNRULE_WITH_ACTION  " ++ num I.nAct,
   text "#define YYNTOKEN             " ++ num I.T.nterm,
   text "#define YY_MAX_SHIFT         " ++ num (I.T.nx - 1),
   text "#define YY_MIN_SHIFTREDUCE   " ++ num I.T.minShiftReduce,
   text "#define YY_MAX_SHIFTREDUCE   " ++ num (I.T.minShiftReduce + I.T.nrule - 1),
   text "#define YY_ERROR_ACTION      " ++ num I.T.errAction,
   text "#define YY_ACCEPT_ACTION     " ++ num I.T.accAction,
   text "#define YY_NO_ACTION         " ++ num I.T.noAction,
   text "#define YY_MIN_REDUCE        " ++ num I.T.minReduce,
   text "#define YY_MAX_REDUCE        " ++ num (I.T.minReduce + I.T.nrule - 1)]

/-- the numbers of an array, in lines of ten with the number of the first entry in a comment -/
inductive Rows : Nat → List Int → List Nat → Prop
  | nil (i : Nat) : Rows i [] []
  | row (i : Nat) (r l : List Int) (t : List Nat) : r ≠ [] → r.length ≤ 10 → (l ≠ [] → r.length = 10) → Rows (i + r.length) l t →
      Rows i (r ++ l) (text " /* " ++ right 5 (num i) ++ text " */ " ++ (r.flatMap fun v => text " " ++ right 4 (num v) ++ text ",") ++ [10] ++ t)

/-- an array of numbers -/
def IsArray (type : List Nat) (name : String) (l : List Int) (t : List Nat) : Prop :=
  ∃ body, Rows 0 l body ∧ t = text "static const " ++ type ++ text " " ++ text name ++ text "[] = {\n" ++ body ++ text "};\n"

/-- the tables -/
def IsTables (I : LText) (t : List Nat) : Prop :=
  ∃ a1 a2 a3 a4 a5,
    IsArray (text "YYACTIONTYPE") "yy_action" (I.T.action.map Int.ofNat) a1 ∧
    IsArray (text "YYCODETYPE") "yy_lookahead" (I.T.lookahead.map Int.ofNat) a2 ∧
    IsArray (cType I.T.shiftType) "yy_shift_ofst" I.T.shiftOfst a3 ∧
    IsArray (cType I.T.reduceType) "yy_reduce_ofst" I.T.reduceOfst a4 ∧
    IsArray (text "YYACTIONTYPE") "yy_default" (I.T.dflt.map Int.ofNat) a5 ∧
    t = lines [text "#define YY_ACTTAB_COUNT (" ++ num I.T.action.length ++ text ")"] ++ a1 ++ a2 ++
      lines [text "#define YY_SHIFT_COUNT    (" ++ num (I.T.shiftOfst.length - 1) ++ text ")",
             text "#define YY_SHIFT_MIN      (" ++ num I.T.shiftMin ++ text ")",
             text "#define YY_SHIFT_MAX      (" ++ num I.shiftMax ++ text ")"] ++ a3 ++
      lines [text "#define YY_REDUCE_COUNT (" ++ num (I.T.reduceOfst.length - 1) ++ text ")",
             text "#define YY_REDUCE_MIN   (" ++ num I.T.reduceMin ++ text ")",
             text "#define YY_REDUCE_MAX   (" ++ num I.T.reduceMax ++ text ")"] ++ a4 ++ a5

/-- the fallback of the symbol with number `i` -/
def fallbackEntry (I : LText) (i : Nat) : List Nat :=
  match I.s.symbols[i]?.bind Sym.fallback with
  | some f => text "  " ++ right 3 (num (I.s.index f)) ++ text ",  /* " ++ right 10 (symbolName I i) ++ text " => " ++ f ++ text " */"
  | none => text "    0,  /* " ++ right 10 (symbolName I i) ++ text " => nothing */"

/-- the fallbacks -/
def fallbackLines (I : LText) : List (List Nat) := if I.s.hasFallback then (List.range I.s.nterminal).map (fallbackEntry I) else []

/-- the names of the symbols -/
def symbolLines (I : LText) : List (List Nat) :=
  (List.range I.s.nsymbol).map fun i : Nat => text "  /* " ++ right 4 (num i) ++ text " */ \"" ++ symbolName I i ++ text "\","

/-- the rules, as strings -/
def ruleLines (I : LText) : List (List Nat) :=
  I.rules.zipIdx.map fun p => text " /* " ++ right 3 (num p.2) ++ text " */ \"" ++ I.s.ruleText p.1.1 ++ text "\","

/-- the left sides of the rules -/
def lhsLines (I : LText) : List (List Nat) :=
  I.rules.zipIdx.map fun p => text "  " ++ right 4 (num (I.s.index p.1.1.lhs)) ++ text ",  /* (" ++ num p.2 ++ text ") " ++ I.s.ruleText p.1.1 ++ text " */"

/-- the lengths of the right sides, negated -/
def lenLines (I : LText) : List (List Nat) :=
  I.rules.zipIdx.map fun p => text "  " ++ right 3 (num (-(p.1.1.rhs.length : Int))) ++ text ",  /* (" ++ num p.2 ++ text ") " ++ I.s.ruleText p.1.1 ++ text " */"

/-- a directive that points to the grammar file -/
def fileLine (I : LText) (line : Option Nat) : List Nat :=
  match line with
  | some l => if I.nolinenosflag then [] else directive l I.filename
  | none => []

/-- the code of a destructor -/
def destructorText (I : LText) (p : DSym) : List Nat :=
  match I.s.destructorCode p with
  | none => []
  | some (cp, line) => text "{\n" ++ fileLine I line ++ dollars p.dtnum cp ++ text "\n}\n"

/-- a group of cases of the destructors -/
def destructorCase (I : LText) (c : DCase) : List Nat :=
  c.comment ++ (c.syms.flatMap fun p => text "    case " ++ num p.index ++ text ": /* " ++ p.sym.name ++ text " */\n") ++
    (c.body.map (destructorText I)).getD [] ++ text "      break;\n"

/-- the cases of the destructors -/
def destructorsText (I : LText) : List Nat := I.s.destructorCases.flatMap (destructorCase I)

/-- the code of an action -/
def actionText (I : LText) (t : Trans) : List Nat :=
  (if t.pre = [] then [] else text "{" ++ t.pre) ++ fileLine I (some t.line) ++ text "{" ++ t.code ++ text "}\n" ++ t.suffix ++ (if t.pre = [] then [] else text "}\n")

/-- the text of the rule with number `i` -/
def ruleAt (I : LText) (i : Nat) : List Nat := (I.rules[i]?.map fun p => I.s.ruleText p.1).getD []

/-- a group of rules with the same code: the labels, and the code -/
def actionGroup (I : LText) (c : List Nat × Trans) : List Nat :=
  lines ((c.1.take 1).map fun i : Nat => text "      case " ++ num i ++ text ": /* " ++ ruleAt I i ++ text " */") ++
  lines ((c.1.drop 1).map fun i : Nat => text "      case " ++ num i ++ text ": /* " ++ ruleAt I i ++ text " */ yytestcase(yyruleno==" ++ num i ++ text ");") ++
  actionText I c.2 ++ text "        break;\n"

/-- a rule without code -/
def defaultEntry (I : LText) (p : (RRule × Trans × Bool) × Nat) : List Nat :=
  text "      /* (" ++ num p.2 ++ text ") " ++ I.s.ruleText p.1.1 ++
    if p.1.1.neverReduce then text " (NEVER REDUCES) */ assert(yyruleno!=" ++ num p.2 ++ text ");"
    else if p.1.2.2 then text " */ yytestcase(yyruleno==" ++ num p.2 ++ text ");"
    else text " (OPTIMIZED OUT) */ assert(yyruleno!=" ++ num p.2 ++ text ");"

/-- the cases of the actions, and the rules without code -/
def actionsText (I : LText) : List Nat :=
  lines (if I.rules.any fun p => p.2.1.lhsLocal then [text "        YYMINORTYPE yylhsminor;"] else []) ++
  I.cases.flatMap (actionGroup I) ++
  text "      default:\n" ++
  lines ((I.rules.zipIdx.filter fun p => p.2 ∉ I.cases.flatMap Prod.fst).map (defaultEntry I)) ++
  text "        break;\n"

/-- The user's code, on lines of its own. -/
def Verbatim (c t : List Nat) : Prop :=
  (c = [] ∧ t = []) ∨ (t = c ∧ c.getLast? = some 10) ∨ (t = c ++ [10] ∧ c.getLast? ≠ some 10)

/-- The code of a directive, if there is one. -/
def VerbatimArg (I : LText) (k : Kw) (t : List Nat) : Prop :=
  match I.s.args k with
  | none => t = []
  | some c => Verbatim c t

/-- the comment at the start: the name of the grammar file, and the options `-D` that are used -/
def headerLines (filename : List Nat) (m : Macros) : List (List Nat) :=
  [text "/* This file is automatically generated by Lemon from input grammar", text "** source file \"" ++ filename ++ text "\". */"] ++
  if (m.names.zip m.used).all fun p => !p.2 then [text ".", text "*/"]
  else [text " with these options:", text "**"] ++ ((m.names.zip m.used).filter (·.2)).map (fun p => text "**   -D" ++ p.1) ++ [text "*/"]

def Alpha (c : Nat) : Prop := (65 ≤ c ∧ c ≤ 90) ∨ (97 ≤ c ∧ c ≤ 122)

/-- `ws` is the text `l` divided into words, and what stands between words: words consist of letters, and are as long as possible. -/
structure Divided (l : List Nat) (ws : List (List Nat)) : Prop where
  text : l = ws.flatten
  kinds : ∀ w ∈ ws, w ≠ [] ∧ ((∀ c ∈ w, Alpha c) ∨ ∀ c ∈ w, ¬ Alpha c)
  longest : ws.IsChain fun a b => ¬ ((∀ c ∈ a, Alpha c) ∧ ∀ c ∈ b, Alpha c)

/-- A word that begins with `Parse` gets another beginning. -/
def renameWord (name w : List Nat) : List Nat := if (GFile.text "Parse").isPrefixOf w then name ++ w.drop 5 else w

/-- a line of the template, with the name of the parser -/
def Renames (name : Option (List Nat)) (l out : List Nat) : Prop :=
  match name with
  | none => out = l
  | some n => ∃ ws, Divided l ws ∧ out = ws.flatMap (renameWord n)

/-- the section with number `i` of a template, with the name of the parser -/
def Section (I : LText) (ls : List (List Nat)) (i : Nat) (t : List Nat) : Prop :=
  ∃ outs, List.Forall₂ (Renames (I.s.args .name)) ((sections ls).getD i []) outs ∧ t = lines outs

/-- The text of `%include` without the blank lines at its start. -/
def NoBlank (t r : List Nat) : Prop :=
  ∃ b, t = b ++ r ∧ (∀ c ∈ b, isSpace c) ∧ (b = [] ∨ b.getLast? = some 10) ∧ ∀ ws x, r = ws ++ 10 :: x → ¬ ∀ c ∈ ws, isSpace c

/-- The generated file, without directives that point to the file itself: the sections of the template with the parts made for the grammar between them, and the
user's code. -/
def Layout (I : LText) (ls : List (List Nat)) (t : List Nat) : Prop :=
  ∃ (S : Nat → List Nat) (incl incText tables overflow failure error accept code : List Nat),
    (∀ i, Section I ls i (S i)) ∧
    NoBlank ((I.s.args .incl).getD []) incl ∧ Verbatim incl incText ∧ IsTables I tables ∧
    VerbatimArg I .stackOverflow overflow ∧ VerbatimArg I .parseFailure failure ∧ VerbatimArg I .syntaxError error ∧ VerbatimArg I .parseAccept accept ∧
    VerbatimArg I .code code ∧
    t = lines (headerLines I.filename I.defs) ++
      (if incl.head? = some 47 then [] else S 0) ++ incText ++ lines (if I.mhflag then [GFile.text "#include \"" ++ I.incName ++ GFile.text "\""] else []) ++
      S 1 ++ lines (tokenIf I :: tokenLines I) ++
      S 2 ++ lines (defineLines I) ++
      S 3 ++ tables ++
      S 4 ++ lines (fallbackLines I) ++
      S 5 ++ lines (symbolLines I) ++
      S 6 ++ lines (ruleLines I) ++
      S 7 ++ destructorsText I ++
      S 8 ++ overflow ++
      S 9 ++ lines (lhsLines I) ++
      S 10 ++ lines (lenLines I) ++
      S 11 ++ actionsText I ++
      S 12 ++ failure ++
      S 13 ++ error ++
      S 14 ++ accept ++
      S 15 ++ code

end Verif.Spec.LText
