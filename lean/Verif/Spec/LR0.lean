import Verif.Spec.Grammar
/-
Specification: LR(0) item sets.  An item is `(r,d)`: rule number and dot position.
-/
namespace Verif.Spec

/-- `(r,d)` is an item of the grammar. -/
def IsItem (G : CFG) (r d : Nat) : Prop := ∃ A α, G.rules[r]? = some (A, α) ∧ d ≤ α.length

/-- The item `(r,d)` has its dot before symbol `X`. -/
def DotBefore (G : CFG) (r d X : Nat) : Prop :=
  ∃ A α, G.rules[r]? = some (A, α) ∧ α[d]? = some X

/-- The item `(r,d)` is complete: the dot is at the end. -/
def Complete (G : CFG) (r d : Nat) : Prop := ∃ A α, G.rules[r]? = some (A, α) ∧ d = α.length

/-- Closure of a kernel: when an item has its dot before `B`, every rule of `B` is added
with the dot at the start. -/
inductive Closed (G : CFG) (K : Nat → Nat → Prop) : Nat → Nat → Prop
  | kern {r d : Nat} (h : K r d) : Closed G K r d
  | step {r d r' B : Nat} {η : List Nat} (h : Closed G K r d) (hB : DotBefore G r d B)
      (hr' : G.rules[r']? = some (B, η)) : Closed G K r' 0

end Verif.Spec
