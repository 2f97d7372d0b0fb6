import Verif.Lemon.Report
import Verif.Lemon.Text
/-
Specification of lemon's report: what it lists, how that is written, and what it means for the tables.
-/
set_option autoImplicit false
namespace Verif.Lemon.OutSpec

/-- A symbol in a rule: its name, or the names of the tokens of a multi-terminal with `|` between them. -/
def symText (g : Gram) (name : Nat → List Nat) (X : Nat) : List Nat :=
  if g.nterm ≤ X ∧ X < g.nterm + g.mts.length then List.intercalate (cstr "|") ((g.subsym X).map name) else name (g.index X)

/-- symbols with a blank before each -/
def symsText (g : Gram) (name : Nat → List Nat) (l : List Nat) : List Nat := l.flatMap fun X => 32 :: symText g name X

/-- `a ::= b c` -/
def ruleText (g : Gram) (name : Nat → List Nat) (r : Nat) : List Nat :=
  symText g name (g.rule r).lhs ++ cstr " ::=" ++ symsText g name (g.rule r).rhs

/-- `a ::= b * c` on a line; before it the number of the rule if the dot is at the end -/
def itemLine (g : Gram) (name : Nat → List Nat) (it : Nat × Nat) : List Nat :=
  let (r, d) := it
  (if d = (g.rule r).rhs.length then cstr "    " ++ padLeft 5 (cstr "(" ++ decimal (g.iRule r) ++ cstr ")") ++ cstr " " else List.replicate 10 32) ++
  symText g name (g.rule r).lhs ++ cstr " ::=" ++ symsText g name ((g.rule r).rhs.take d) ++ cstr " *" ++ symsText g name ((g.rule r).rhs.drop d) ++
  cstr "\n"

/-- What an entry says.  States are given by their numbers in the tables, rules by their positions in the grammar. -/
inductive Does where
  | shift (q : Nat) | shiftReduce (r : Nat) | reduce (r : Nat) | accept | error
  | conflictReduce (r : Nat) | conflictShift (q : Nat) | droppedShift (q : Nat) | droppedReduce (r : Nat)
deriving DecidableEq, Repr

/-- an entry of a state: a symbol, what to do, and a symbol of which it is said that the first is the same -/
structure Entry where
  sym : Nat
  does : Does
  same : Option Nat
deriving DecidableEq, Repr

/-- the entry is about a conflict that was resolved by a precedence -/
def Does.dropped : Does → Bool
  | .droppedShift _ | .droppedReduce _ => true
  | _ => false

/-- the entry is marked as a conflict -/
def Does.conflict : Does → Bool
  | .conflictReduce _ | .conflictShift _ => true
  | _ => false

/-- the number of a rule and the rule -/
def numberedRule (g : Gram) (name : Nat → List Nat) (r : Nat) : List Nat := padRight 7 (decimal (g.iRule r)) ++ ruleText g name r

/-- the text after the symbol -/
def Does.text (g : Gram) (name : Nat → List Nat) : Does → List Nat
  | .shift q => cstr " shift        " ++ padRight 7 (decimal q)
  | .shiftReduce r => cstr " shift-reduce " ++ numberedRule g name r
  | .reduce r => cstr " reduce       " ++ numberedRule g name r
  | .accept => cstr " accept"
  | .error => cstr " error"
  | .conflictReduce r => cstr " reduce       " ++ padRight 7 (decimal (g.iRule r)) ++ cstr "(" ++ symText g name (g.rule r).lhs ++ cstr ") ** Parsing conflict **"
  | .conflictShift q => cstr " shift        " ++ padRight 7 (decimal q) ++ cstr " ** Parsing conflict **"
  | .droppedShift q => cstr " shift        " ++ padRight 7 (decimal q) ++ cstr " -- dropped by precedence"
  | .droppedReduce r => cstr " reduce " ++ padRight 7 (decimal (g.iRule r)) ++ cstr " (" ++ symText g name (g.rule r).lhs ++ cstr ") -- dropped by precedence"

/-- the line of an entry; the symbol is at the right end of 30 columns -/
def Entry.line (g : Gram) (name : Nat → List Nat) (e : Entry) : List Nat :=
  padLeft 30 (symText g name e.sym) ++ e.does.text g name ++
  (match e.same with
    | some Y => cstr "  /* because " ++ symText g name e.sym ++ cstr "==" ++ symText g name Y ++ cstr " */"
    | none => []) ++ cstr "\n"

/-- a state: its number, items and entries -/
def stateText (g : Gram) (name : Nat → List Nat) (i : Nat) (items : List (Nat × Nat)) (es : List Entry) : List Nat :=
  cstr "State " ++ decimal i ++ cstr ":\n" ++ items.flatMap (itemLine g name) ++ cstr "\n" ++ es.flatMap (Entry.line g name) ++ cstr "\n"

/-- the number that stands for an action on the symbol `X` in the tables `T`; entries about conflicts are not in the tables -/
def Does.number (g : Gram) (T : Tables) (X : Nat) : Does → Option Nat
  | .shift q => some q
  | .shiftReduce r => some ((if X < g.nterm ∨ g.errsym = some X then T.minShiftReduce else T.minReduce) + g.iRule r)
  | .reduce r => some (T.minReduce + g.iRule r)
  | .accept => some T.accAction
  | .error => some T.errAction
  | _ => none

/-- the action that the entries give for the symbol `X`: that of the last one about `X` that is not about a conflict -/
def given (g : Gram) (T : Tables) (es : List Entry) (X : Nat) : Option Nat :=
  ((es.filter fun e => e.sym = X).filterMap fun e => e.does.number g T X).getLast?

/-- the line of the symbol number `i`; `first` is present for nonterminals: whether the empty string can be derived, and the first tokens -/
def symbolLine (name : Nat → List Nat) (i : Nat) (first : Option (Bool × List Nat)) (prec : Int) : List Nat :=
  cstr "  " ++ padLeft 3 (decimal i) ++ cstr ": " ++ name i ++
  (match first with
    | some (empty, ts) => cstr ":" ++ (if empty then cstr " <lambda>" else []) ++ ts.flatMap fun t => 32 :: name t
    | none => []) ++
  (if 0 ≤ prec then cstr " (precedence=" ++ decimalInt prec ++ cstr ")" else []) ++ cstr "\n"

/-- the line of the rule with the number `n` and the index `r`, with the symbol that gives it its precedence -/
def ruleLine (g : Gram) (name : Nat → List Nat) (n r : Nat) (p : Option Nat) : List Nat :=
  padLeft 4 (decimal n) ++ cstr ": " ++ ruleText g name r ++ cstr "." ++
  (match p with
    | some Y => cstr " [" ++ symText g name Y ++ cstr " precedence=" ++ decimalInt (g.prec Y) ++ cstr "]"
    | none => []) ++ cstr "\n"

/-- the line between the parts -/
def ruler : List Nat := cstr "----------------------------------------------------\n"

/-- the report: the texts of the states, of the symbols, the lines with the names of symbols without values, and the texts of the rules -/
def outText (states symbols : List (List Nat)) (plain : List (List (List Nat))) (rules : List (List Nat)) : List Nat :=
  states.flatten ++
  ruler ++ cstr "Symbols:\nThe first-set of non-terminals is shown after the name.\n\n" ++ symbols.flatten ++
  ruler ++ cstr "Syntax-only Symbols:\nThe following symbols never carry semantic content.\n\n" ++
    plain.flatMap (fun l => List.intercalate (cstr " ") l ++ cstr "\n") ++
  ruler ++ cstr "Rules:\n" ++ rules.flatten

end Verif.Lemon.OutSpec
