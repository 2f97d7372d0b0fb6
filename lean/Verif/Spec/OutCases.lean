import Verif.Spec.OutUser
/-
Specification: the cases of the generated parser's switch.
-/
set_option autoImplicit false
namespace Verif.Spec.OutText
open Spec.YText

/-- The lines of a text that stand in the file as they are. -/
def linesText (l : List (List Nat)) : List Nat := l.flatMap (fun s => s ++ [10])

/-- A case: the number of the action, in a parser that backtracks a test that this is not a trial, a directive that points to the grammar file, the action,
a directive that points to the file itself, `break`. -/
def caseBlock (lflag bt : Bool) (input code : List Nat) (m : Nat) (a : List Nat) (line self : Nat) : List Nat :=
  txt "case " ++ (toString m).toList.map Char.toNat ++ txt ":\n" ++ (if bt then txt "  if (!yytrial)\n" else []) ++ directive lflag line input ++ a ++ [10] ++
    directive lflag self code ++ txt "break;\n"

/-- No line of the text (ended by a newline, if it is not already) is a directive for line 1 of a file without a name. -/
def NoMark (a : List Nat) : Prop := ∀ p s, a ++ [10] = p ++ txt "#line 1 \"\"\n" ++ s → ¬ LineStart p

end Verif.Spec.OutText
