/-
Specification for the lists of the rules and of the symbols in the report of byacc (`-v`).
-/
set_option autoImplicit false
namespace Verif.Spec.YList

def txt (s : String) : List Nat := s.toList.map Char.toNat

def num (n : Nat) : List Nat := (Nat.toDigits 10 n).map Char.toNat

/-- Right-adjusted in a column that is `w` wide; longer texts are not cut. -/
def column (w : Nat) (s : List Nat) : List Nat := List.replicate (w - s.length) 32 ++ s

/-- A rule: its left-hand side, its right-hand side, and the symbol of `%prec`. -/
structure PRule where
  lhs : List Nat
  rhs : List (List Nat)
  prec : Option (List Nat)

/-- Rule `n`.  If it has the left-hand side of the rule before it (`again`), then it is written as an alternative, with the bar below the colon; otherwise
there is an empty line in front of it (not for the first one). -/
def rule (n : Nat) (again : Bool) (r : PRule) : List Nat :=
  (if again then column 4 (num n) ++ txt "  " ++ List.replicate (r.lhs.length + 1) 32 ++ txt "|"
   else (if n = 0 then [] else txt "\n") ++ column 4 (num n) ++ txt "  " ++ r.lhs ++ txt " :") ++
  r.rhs.flatMap (fun X => txt " " ++ X) ++ (match r.prec with | some p => txt " %prec " ++ p | none => []) ++ txt "\n"

/-- The rules from number `n` on; `prev` is the left-hand side of the rule in front of them. -/
def rulesFrom (n : Nat) (prev : Option (List Nat)) : List PRule → List Nat
  | [] => []
  | r :: rs => rule n (prev == some r.lhs) r ++ rulesFrom (n + 1) (some r.lhs) rs

/-- The list of the rules: `$accept` is rule 0; those of the file are numbered from 1. -/
def rules (goal : List Nat) (rs : List PRule) : List Nat :=
  rule 0 false ⟨txt "$accept", [goal, txt "$end"], none⟩ ++ rulesFrom 1 none rs

/-- A line about a symbol: its number in the grammar, its number in the parser, its name. -/
def symbol (k v : Nat) (name : List Nat) : List Nat :=
  txt " " ++ column 5 (num k) ++ txt "  " ++ column 5 (num v) ++ txt "  " ++ name ++ txt "\n"

/-- The list of the symbols. -/
def symbols (rows : List (Nat × Nat × List Nat)) : List Nat :=
  txt "\ngrammar parser grammar\nsymbol# value# symbol\n" ++ rows.flatMap fun r => symbol r.1 r.2.1 r.2.2

end Verif.Spec.YList
