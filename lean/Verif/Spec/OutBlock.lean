import Verif.Spec.OutText
/-
Specification: `%code` blocks.
-/
set_option autoImplicit false
namespace Verif.Spec.OutText
open Spec.YText

/-- The text between a brace and the brace that closes it: braces in it match.  (Strings and comments are not looked at.) -/
def Matching (body : List Nat) : Prop := (∀ p s, body = p ++ s → p.count 125 ≤ p.count 123) ∧ body.count 125 = body.count 123

/-- The text behind the opening brace that is skipped, with what follows it: white space to the end of the line, or up to something else. -/
def SkippedIn (ws rest : List Nat) : Prop :=
  (∃ s, ws = s ++ [10] ∧ ∀ c ∈ s, Space c ∧ c ≠ 10) ∨ ((∀ c ∈ ws, Space c ∧ c ≠ 10) ∧ ∀ c r, rest = c :: r → ¬ Space c)

end Verif.Spec.OutText
