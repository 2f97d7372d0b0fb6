import Verif.Spec.LemonTextRead
/-
Specification: the assertions in the function that runs the code of rules.
-/
set_option autoImplicit false
namespace Verif.Spec.LText
open Verif.Lemon
open Verif.Spec.GFile (text)
open Verif.Spec.RuleCode (num)

/-- the line ends with the assertion that the rule with number `n` is not reduced by -/
def Asserts (n : Nat) (l : List Nat) : Prop := text "assert(yyruleno!=" ++ num n ++ text ");" <:+ l

/-- the line ends with a mark that the rule with number `n` can be reduced by -/
def Marks (n : Nat) (l : List Nat) : Prop := text "yytestcase(yyruleno==" ++ num n ++ text ");" <:+ l

/-- In the text `t` the cases for the code of rules are `cs`, and the lines of the default case are `d`. -/
def Switch (I : LText) (ls : List (List Nat)) (t : List Nat) (cs : List Nat) (d : List (List Nat)) : Prop :=
  Between I ls 11 t (cs ++ text "      default:\n" ++ lines d ++ text "        break;\n")

end Verif.Spec.LText
