import Verif.Lemon.Actions
import Verif.Lemon.Number
import Verif.Lemon.Code
import Verif.Lemon.Main
/-
The errors lemon counts after the grammar file has been read, and the exit status of `main` (lemon.c:1868-1887).

Simplification: opening and writing files is assumed to succeed, so that the errors counted by `file_open` (lemon.c:3333) and `tplt_open` (lemon.c:4012-4047) are left out.
-/
set_option autoImplicit false
namespace Verif.Lemon

/-- the errors "The start symbol occurs on the right-hand side of a rule", lemon.c:983-995 -/
def startErrors (g : Gram) : Nat := (g.rules.map fun r => (r.rhs.filter fun X => X == g.start).length).sum

/-- the digits at the beginning of a text as a number, for `atoi` -/
def atoiDigits (n : Nat) : List Nat → Nat
  | [] => n
  | c :: t => if 48 ≤ c ∧ c ≤ 57 then atoiDigits (10 * n + (c - 48)) t else n

/-- the sign before a number, for `atoi` -/
def atoiSign : List Nat → Int
  | [] => 0
  | c :: t => if c = 45 then -(atoiDigits 0 t : Int) else if c = 43 then atoiDigits 0 t else atoiDigits 0 (c :: t)

/-- `atoi` of the C library.  Simplification: the number is not limited to the type `int`. -/
def atoi (t : List Nat) : Int := atoiSign (t.dropWhile isSpace)

/-- `nexpect`, lemon.c:1868 -/
def RState.nexpect (s : RState) : Int :=
  match s.args .expect with
  | some z => atoi z
  | none => 0

/-- the error about a start symbol that does not exist, lemon.c:966-972 -/
def RState.startMissing (s : RState) : Nat := match s.startName with | some (_, true) => 1 | _ => 0

/-- `lem.errorcnt` at the end of `main`, if there were no errors in the grammar file: lemon.c:971, 992, 1469, 1276, and the messages of `translate_code` -/
def RState.lateErrors (s : RState) (g : Gram) (m : Mach) (A : Acts) (ts : List Trans) : Nat :=
  s.startMissing + startErrors g + noRuleErrors g m + (cannotReduce g A.acts).length + (ts.map fun t => t.errs.length).sum

/-- `exitcode`, lemon.c:1875; `ts` is what `translate_code` makes of the rules -/
def RState.exitcode (s : RState) (g : Gram) (m : Mach) (A : Acts) (ts : List Trans) : Nat :=
  if 0 < s.lateErrors g m A ts ∨ (A.count.err : Int) ≠ s.nexpect then 1 else 0

/-- the message printed at the end, lemon.c:1870-1872 -/
def RState.conflictMessage (s : RState) (A : Acts) : List Nat :=
  if (A.count.err : Int) ≠ s.nexpect then decimal A.count.err ++ cstr " parsing conflicts.\n" else []

end Verif.Lemon
