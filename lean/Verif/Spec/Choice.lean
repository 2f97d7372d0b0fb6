/-
Specification: what a parser may do in a state on a token, and how a list of alternatives is
written in an array of integers.
-/
set_option autoImplicit false
namespace Verif.Spec

/-- What can be done on a token: shift it and go to a state, or reduce by a rule. -/
inductive Choice where
  | shift (s : Nat)
  | reduce (r : Nat)
deriving DecidableEq, Repr

/-- From place `j` on the array says: shift to state `sh` (-1: there is no shift); then rules to
reduce by; then -1. -/
def Lists (table : List Int) (j : Nat) (sh : Int) (rules : List Nat) : Prop :=
  (sh :: rules.map (fun r : Nat => (r : Int)) ++ [-1]) <+: table.drop j

/-- The list `sh`, `rules` consists of the choices `P`, each once, the rules by increasing number. -/
def Enumerates (sh : Int) (rules : List Nat) (P : Choice → Prop) : Prop :=
  (∀ s : Nat, P (.shift s) ↔ sh = s) ∧ (sh = -1 ∨ 0 ≤ sh) ∧ (∀ r, P (.reduce r) ↔ r ∈ rules) ∧ rules.Pairwise (· < ·)

end Verif.Spec
