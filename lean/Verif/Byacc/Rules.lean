import Verif.Byacc.Reader
/-
byacc/reader.c: reading the rules section, at the level of tokens.
-/
set_option autoImplicit false
namespace Verif.Byacc

/-- Tokens of the rules section as distinguished by `read_grammar` (byacc/reader.c:3603-3650) and
`add_symbol`.  Simplification: lexing is left out (`,` and `;` are white space for byacc); a name
followed by `:` is one token. -/
inductive GTok
  /-- a name or literal not followed by `:` -/
  | sym (n : Nat)
  /-- a name followed by `:` -/
  | lhs (n : Nat)
  | bar
  /-- `{ .. }` or `= ..` -/
  | action
  /-- `%prec n` or `%= n` -/
  | prec (n : Nat)
  /-- `%empty` -/
  | emptyMark
  /-- `%%` -/
  | mark
deriving DecidableEq, Repr

/-- Symbols while reading: named in the file, or made by `insert_empty_rule` (`$$k`). -/
inductive RSym
  | user (n : Nat)
  | gen (k : Nat)
deriving DecidableEq, Repr

/-- `rprec[]` while reading: `UNDEFINED`, 0, or the precedence of a symbol. -/
inductive RPrec
  | undef | zero | ofSym (n : Nat)
deriving DecidableEq, Repr

/-- The reader's arrays, last entry first: `pitem[0..nitems-1]`, `plhs[3..nrules]`,
`rprec[3..nrules]` (the first entry of `plhs` and `rprec` belongs to the rule being read); and
`last_was_action`, `gensym`.  Simplification: arrays grow as needed (`expand_items`,
`expand_rules`). -/
structure RdSt where
  pitem : List (Option RSym)
  plhs : List RSym
  rprec : List RPrec
  lastAct : Bool
  gensym : Nat
deriving DecidableEq, Repr

/-- byacc/reader.c:2660-2673 `start_rule`.  Simplification: the error for a token on the left side
is left out. -/
def startRule (s : RdSt) (b : RSym) : RdSt := { s with plhs := b :: s.plhs, rprec := .undef :: s.rprec }

/-- byacc/reader.c:2676-2699 `end_rule`; the warning about the default action is left out. -/
def endRule (s : RdSt) : RdSt := { s with lastAct := false, pitem := none :: s.pitem }

/-- byacc/reader.c:2720-2721: `while ((bpp[0] = bpp[-1]) != 0) --bpp`, moving the symbols of the
rule being read one place up. -/
def shiftItems : List (Option RSym) → List (Option RSym)
  | some x :: rest => some x :: shiftItems rest
  | none :: rest => none :: none :: rest
  | [] => []

/-- byacc/reader.c:2702-2736 `insert_empty_rule`. -/
def insertEmptyRule (s : RdSt) : RdSt :=
  let bp := RSym.gen (s.gensym + 1)
  { s with
    gensym := s.gensym + 1
    pitem := some bp :: shiftItems s.pitem
    plhs := match s.plhs with
      | l :: rest => l :: bp :: rest
      | [] => []
    rprec := match s.rprec with
      | l :: rest => l :: .zero :: rest
      | [] => [] }

/-- byacc/reader.c:2772-2881 `add_symbol`, without `:`; arguments (`-B` grammars) are left out. -/
def addSymbol (s : RdSt) (n : Nat) : RdSt :=
  let s := if s.lastAct then insertEmptyRule s else s
  { s with lastAct := false, pitem := some (.user n) :: s.pitem }

/-- byacc/reader.c:2883-2900 `copy_action`: the part that concerns the rules. -/
def copyAction (s : RdSt) : RdSt :=
  let s := if s.lastAct then insertEmptyRule s else s
  { s with lastAct := true }

/-- byacc/reader.c:3591-3598 in `mark_symbol`, without `-u`. -/
def markPrecAt (s : RdSt) (n : Nat) : RdSt :=
  match s.rprec with
  | _ :: rest => { s with rprec := .ofSym n :: rest }
  | [] => s

/-- byacc/reader.c:3608-3645, the loop of `read_grammar`, and the final `end_rule`.
`mark_symbol` returns 1 for `%%` and for `%empty` (lines 3554-3558, 3570-3578), which leaves the
loop. -/
def readLoop (s : RdSt) : List GTok → RdSt
  | [] => endRule s
  | .sym n :: rest => readLoop (addSymbol s n) rest
  | .lhs n :: rest => readLoop (startRule (endRule s) (.user n)) rest
  | .bar :: rest => readLoop (startRule (endRule s) (s.plhs.headD (.user 0))) rest
  | .action :: rest => readLoop (copyAction s) rest
  | .prec n :: rest => readLoop (markPrecAt s n) rest
  | .emptyMark :: _ => endRule s
  | .mark :: _ => endRule s

/-- byacc/reader.c:2098-2141 `initialize_grammar`. -/
def rdInit : RdSt := ⟨[none, none, none, none], [], [], false, 0⟩

/-- byacc/reader.c:3603-3650 `read_grammar`; the first rule is started by `advance_to_start`
(byacc/reader.c:2588-2655).  `none`: syntax error. -/
def readGrammar : List GTok → Option RdSt
  | .lhs n :: rest => some (readLoop (startRule rdInit (.user n)) rest)
  | _ => none

end Verif.Byacc
