import Verif.Byacc.TextFile
/-
The action file: the cases that the reader writes, one for every action.
-/
set_option autoImplicit false
namespace Verif.Byacc
open Rd

/-- byacc/reader.c:28-33 `begin_case`, `end_case`, 2907-2915, 3161, 3181, 3223: the text written for an action (number and text).  `ln` is the line of the action.
The other text of the action, with `$$`, `$1`, ... replaced, is written by `copy_action` (modelled in `Byacc/Action.lean`).  Not modelled: actions in brackets. -/
def caseText (lflag bt : Bool) (name : List Nat) (ln : Nat) (a : Nat × List Nat) : List Nat :=
  str "case " ++ decDigits a.1 ++ str ":\n" ++ (if bt then str "  if (!yytrial)\n" else []) ++ (if !lflag then lineText ln name else []) ++ a.2 ++
    [10] ++ (if !lflag then placeholder else []) ++ str "break;\n"

/-- byacc/reader.c:2886-3228: the action file; the line numbers are given -/
def actionFile (lflag bt : Bool) (name : List Nat) (lns : List Nat) (acts : List (Nat × List Nat)) : List Nat :=
  (acts.zip lns).flatMap (fun x => caseText lflag bt name x.2 x.1)

end Verif.Byacc
