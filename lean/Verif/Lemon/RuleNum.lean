import Verif.Lemon.Msort
/-
Model of the numbering of rules in `main` of lemon.c.
-/
set_option autoImplicit false
namespace Verif.Lemon

/-- lemon.c:1780-1782, the first loop: rules with code get the next number, the others -1.
`code` tells for each rule of the list whether it has code; `i` is the counter.  Result: the
fields `iRule` and the final counter (`nruleWithAction`). -/
def numberCoded : Nat → List Bool → List Int × Nat
  | i, [] => ([], i)
  | i, c :: cs =>
    if c then
      let (l, k) := numberCoded (i+1) cs
      ((i : Int) :: l, k)
    else
      let (l, k) := numberCoded i cs
      (-1 :: l, k)

/-- lemon.c:1784-1786, the second loop: rules whose number is negative get the next number. -/
def numberOthers : Nat → List Int → List Int
  | _, [] => []
  | i, x :: xs => if x < 0 then (i : Int) :: numberOthers (i+1) xs else x :: numberOthers i xs

/-- lemon.c:1780: `nruleWithAction` -/
def nruleWithAction (code : List Bool) : Nat := (numberCoded 0 code).2

/-- lemon.c:1780-1786: the fields `iRule` of all rules, in the order of the grammar file -/
def iRules (code : List Bool) : List Int :=
  numberOthers (numberCoded 0 code).2 (numberCoded 0 code).1

/-- lemon.c:1806 `lem.rule = Rule_sort(lem.rule)`: the indices of the rules in their order
after sorting by `iRule`. -/
def sortedRules (code : List Bool) : List Nat :=
  ruleSort (fun r => (iRules code).getD r 0) (List.range code.length)

end Verif.Lemon
