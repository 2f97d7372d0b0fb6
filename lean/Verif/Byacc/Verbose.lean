import Verif.Byacc.MkPar
/-
byacc/verbose.c: the report of a state's conflicts and empty reductions.
-/
set_option autoImplicit false
namespace Verif.Byacc

/-- The lines printed by `print_conflicts` (byacc/verbose.c:148-168): rule numbers as printed
(`number - 2`), and for each printed symbol name the symbol. -/
inductive CLine
  /-- `shift/reduce conflict (accept, reduce rule [lhs]) on $end` -/
  | accept (rule lhs : Nat)
  /-- `shift/reduce conflict (shift s, reduce rule [lhs]) on symbol` -/
  | sr (s rule lhs symbol : Nat)
  /-- `reduce/reduce conflict (reduce rule1 [lhs1], reduce rule2 [lhs2]) on symbol` -/
  | rr (rule1 lhs1 rule2 lhs2 symbol : Nat)
deriving DecidableEq, Repr

/-- The local variables `symbol`, `number`, `act == SHIFT`. -/
structure PCSt where
  symbol : Int
  number : Nat
  shift : Bool
deriving DecidableEq, Repr

/-- byacc/verbose.c:147-170: the line for the action `p`; `fin` is `state == final_state`.  Line 165
looks up the first left side with `r1`, which already is `number - 2`. -/
def conflictLine (g : Gram) (fin : Bool) (st : PCSt) (p : Action) : CLine :=
  let r2 := p.number - 2
  if fin && st.symbol == 0 then .accept r2 (g.lhs p.number)
  else if st.shift then .sr st.number r2 (g.lhs p.number) p.symbol
  else
    let r1 := st.number - 2
    .rr r1 (g.lhs r1) r2 (g.lhs p.number) p.symbol

/-- byacc/verbose.c:131-172: the loop. -/
def conflictLoop (g : Gram) (fin : Bool) : PCSt → List Action → List CLine
  | _, [] => []
  | st, p :: rest =>
    if p.suppressed = 2 then conflictLoop g fin st rest
    else if (p.symbol : Int) ≠ st.symbol then
      conflictLoop g fin ⟨p.symbol, p.number, p.code == .SHIFT⟩ rest
    else if p.suppressed = 1 then conflictLine g fin st p :: conflictLoop g fin st rest
    else conflictLoop g fin st rest

/-- byacc/verbose.c:121-173 `print_conflicts`.  (`number` is -1 and `act` 0 at first; they are not
used before they are set.) -/
def printConflicts (g : Gram) (fin : Bool) (acts : List Action) : List CLine :=
  conflictLoop g fin ⟨-1, 0, false⟩ acts

/-- byacc/verbose.c:221-236: insertion of rule `i` in `fs6_null_rules[0..nnulls-1]`. -/
def insertNull (i : Nat) : List Nat → List Nat
  | [] => [i]
  | x :: xs => if i > x then x :: insertNull i xs else if i ≠ x then i :: x :: xs else x :: xs

/-- byacc/verbose.c:207-239 `print_nulls`: the rules listed; line 220 recognises an empty rule. -/
def nullRules (g : Gram) (acts : List Action) : List Nat :=
  acts.foldl (fun acc p =>
    if p.code = .REDUCE ∧ (p.suppressed = 0 ∨ p.suppressed = 1) then
      if g.rhs p.number + 1 = g.rhs (p.number + 1) then insertNull p.number acc else acc
    else acc) []

end Verif.Byacc
