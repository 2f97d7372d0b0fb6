import Verif.Spec.LemonCode
import Verif.Spec.LemonLang
/-
What the SQL file written by lemon should say.
-/
set_option autoImplicit false
namespace Verif.Spec.Sql
open Verif.Spec.RuleCode (num)
open Verif.Spec.GFile
open Verif.Lemon (Assoc)

/-- blanks and line ends -/
def Gap (t : List Nat) : Prop := ∀ c ∈ t, c = 32 ∨ c = 10

/-- the rows of a statement, with commas between them, and the end of the statement -/
inductive Rows : List (List Nat) → List Nat → Prop
  | last {p q r : List Nat} (hp : Gap p) (hq : Gap q) : Rows [r] (p ++ r ++ q ++ text ";\n")
  | more {p q r t : List Nat} {rs : List (List Nat)} (hp : Gap p) (hq : Gap q) (h : Rows rs t) : Rows (r :: rs) (p ++ r ++ q ++ text "," ++ t)

/-- The text inserts exactly the given rows: by one statement, and by none if there are no rows (a statement without rows is not SQL). -/
def Inserts (into : String) (rows : List (List Nat)) (t : List Nat) : Prop :=
  if rows = [] then t = [] else ∃ u, t = text "INSERT INTO " ++ text into ++ text " VALUES\n" ++ u ∧ Rows rows u

/-- a row -/
def row (cols : List (List Nat)) : List Nat := text "(" ++ (List.intersperse (text ",") cols).flatten ++ text ")"

/-- a text as a value of SQL: quotes are doubled -/
def quoted (t : List Nat) : List Nat := text "'" ++ (t.flatMap fun c => if c = 39 then [39, 39] else [c]) ++ text "'"

/-- a number, or NULL -/
def orNull : Option Nat → List Nat
  | some n => num n
  | none => text "NULL"

/-- the number of a symbol: that of a token, and nonterminals have the next numbers -/
def number (o : Opts) (items : List Item) (x : Word) : Nat :=
  if x ∈ tokens o items then tokenNumber o items x else 1 + (tokens o items).length + (nonterminals o items).idxOf x

/-- the rows for symbols: the number, the name, whether it is a token, the number of the fallback -/
def symbolRows (o : Opts) (items : List Item) : List (List Nat) :=
  (tokens o items).map (fun X => row [num (number o items X), quoted X, text "TRUE", orNull ((fallbackOf items X).map (number o items))]) ++
  (nonterminals o items).map fun x => row [num (number o items x), quoted x, text "FALSE", text "NULL"]

/-- the letter for an associativity -/
def letter : Assoc → String
  | .LEFT => "L" | .RIGHT => "R" | .NONE => "N" | .PRECEDENCE => "P" | .UNK => "U"

/-- the rows for precedences -/
def precRows (o : Opts) (items : List Item) : List (List Nat) :=
  (tokens o items).filterMap fun X => (precOf o items X).map fun p => row [num (number o items X), num p.1, quoted (text (letter p.2))]

/-- the left side, and the right side -/
def lhsOf (it : Item) : Word := match it with | .rule l _ _ _ => l | _ => []
def rhsOf (it : Item) : List Elem := match it with | .rule _ _ rhs _ => rhs | _ => []

/-- the rows for rules: the number of the rule, counted from 0, its left side, and the token that gives it its precedence -/
def ruleRows (o : Opts) (items : List Item) : List (List Nat) :=
  (parts items).zipIdx.map fun p => row [num p.2, num (number o items (lhsOf p.1.1)), orNull ((p.1.2.findSome? Item.markOf).map (number o items))]

/-- the symbols that may be at the place of an element -/
def choices (items : List Item) (e : Elem) : List Word := if isClass items e.name then membersOf items e.name else e.name :: e.alts

/-- the rows for right sides: the rule, the place, the symbol -/
def rhsRows (o : Opts) (items : List Item) : List (List Nat) :=
  (parts items).zipIdx.flatMap fun p => (rhsOf p.1.1).zipIdx.flatMap fun e => (choices items e.1).map fun X => row [num p.2, num e.2, num (number o items X)]

/-- the statements for the other directives -/
def update (what : String) (value : List Nat) : List Nat := text "UPDATE directives SET " ++ text what ++ text "=" ++ value ++ text ";\n"

def directives (o : Opts) (items : List Item) (S : Word) : List Nat :=
  update "start_symbol" (num (number o items S)) ++ ((argOf o items ("stack_size", false)).elim [] fun t => update "stack_size" (quoted t)) ++
    ((wildcards items).head?.elim [] fun X => update "wildcard" (num (number o items X)))

end Verif.Spec.Sql
