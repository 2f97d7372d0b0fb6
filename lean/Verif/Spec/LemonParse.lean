import Verif.Spec.LemonTable
import Verif.Lemon.Report
/-
Specification: the numbers for actions in the generated tables.
-/
set_option autoImplicit false
namespace Verif.Lemon

/-- The number for an action on symbol `X` in the generated parser, for `nstate` states in the given
order: first the states, then shifting and reducing by a rule, then error, acceptance, (no action,)
then reducing by a rule.  After a reduction to `X` the next reduction is a reduction like any other;
the error symbol is shifted. -/
def actNum (g : Gram) (nstate : Nat) (order : List Nat) (X : Nat) : AType × Nat → Nat
  | (.SHIFT, q) => order.idxOf q
  | (.SHIFTREDUCE, r) => if X < g.nterm ∨ g.errsym = some X then nstate + g.iRule r else nstate + g.rules.length + 3 + g.iRule r
  | (.REDUCE, r) => nstate + g.rules.length + 3 + g.iRule r
  | (.ACCEPT, _) => nstate + g.rules.length + 1
  | _ => nstate + g.rules.length

end Verif.Lemon
