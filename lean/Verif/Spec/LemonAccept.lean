import Verif.Spec.LemonGen
import Verif.Spec.LemonRun
import Verif.Spec.LemonTable
import Verif.Spec.Parse
/-
Specification: sentences and derivations that a lemon parser finds.
-/
set_option autoImplicit false
namespace Verif.Lemon

/-- The tokens that a token can be taken for: itself, what its fallback can be taken for, and the
wildcard (but not the end of input for the wildcard). -/
inductive ReadAs (fb : Nat → Option Nat) (wild : Option Nat) : Nat → Nat → Prop
  | self (t : Nat) : ReadAs fb wild t t
  | fallback {t t' u : Nat} : fb t = some t' → ReadAs fb wild t' u → ReadAs fb wild t u
  | wildcard {t W : Nat} : wild = some W → t ≠ 0 → ReadAs fb wild t W

/-- `Skips g compress ps es`: `es` are the numbers (in the generated parser) of the rules `ps`, in the
same order, except that rules with one symbol on the right-hand side and no code may be left out
if the tables are compressed. -/
inductive Skips (g : Gram) (compress : Bool) : List Nat → List Nat → Prop
  | nil : Skips g compress [] []
  | keep {ps es : List Nat} (r : Nat) : Skips g compress ps es → Skips g compress (ps ++ [r]) (es ++ [g.iRule r])
  | skip {ps es : List Nat} {r : Nat} : compress = true → g.unitRule r → Skips g compress ps es → Skips g compress (ps ++ [r]) es

end Verif.Lemon
