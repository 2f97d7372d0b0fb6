/-
Specification: values of integer types of C.
-/
set_option autoImplicit false
namespace Verif.Lemon

/-- the value can be stored in the integer type with that signedness (`true` for signed) and number
of bytes -/
def Fits (ty : Bool × Nat) (v : Int) : Prop :=
  if ty.1 then -2 ^ (8 * ty.2 - 1) ≤ v ∧ v < 2 ^ (8 * ty.2 - 1) else 0 ≤ v ∧ v < 2 ^ (8 * ty.2)

instance (ty : Bool × Nat) (v : Int) : Decidable (Fits ty v) := by unfold Fits; infer_instance

end Verif.Lemon
