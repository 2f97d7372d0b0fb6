import Verif.Proofs.Warshall
/-
C01 — relation closure is exactly reachability (byacc/warshall.c).
-/
set_option autoImplicit false
namespace Verif.Byacc
open Relation

/-- The relation stored in the first `n` rows and columns of a bit matrix. -/
def matRel (R : List (List Word)) (n : Nat) (a b : Nat) : Prop :=
  a < n ∧ b < n ∧ BIT (row R a) b = true

/-- C01, `transitive_closure`: entry `(i,j)` is set iff there is a path of one or
more steps from `i` to `j`. -/
theorem C01_transitive_closure (R : List (List Word)) (n : Nat)
    (hR : R.length = n) (hrow : ∀ i, i < n → (row R i).length = wordsize n)
    (i j : Nat) (hi : i < n) (hj : j < n) :
    BIT (row (transitiveClosure R n) i) j = true ↔ TransGen (matRel R n) i j := by
  rw [(transitiveClosure_W ⟨hR, hrow⟩).2 i hi j, W_iff hi hj]
  rfl

/-- C01, `reflexive_transitive_closure`: entry `(i,j)` is set iff `j` is reachable
from `i` in zero or more steps. -/
theorem C01_reflexive_transitive_closure (R : List (List Word)) (n : Nat)
    (hR : R.length = n) (hrow : ∀ i, i < n → (row R i).length = wordsize n)
    (i j : Nat) (hi : i < n) (hj : j < n) :
    BIT (row (reflexiveTransitiveClosure R n) i) j = true ↔ ReflTransGen (matRel R n) i j := by
  rw [(reflexiveTransitiveClosure_bits ⟨hR, hrow⟩).2 i hi j, Bool.or_eq_true,
    C01_transitive_closure R n hR hrow i j hi hj, reflTransGen_iff_eq_or_transGen,
    decide_eq_true_eq]
  rw [or_comm, eq_comm]

/-- C01, nothing outside the `n` by `n` square is set, and the shape is kept. -/
theorem C01_frame (R : List (List Word)) (n : Nat)
    (hR : R.length = n) (hrow : ∀ i, i < n → (row R i).length = wordsize n)
    (hclean : ∀ i j, i < n → n ≤ j → BIT (row R i) j = false) :
    (reflexiveTransitiveClosure R n).length = n ∧
    (∀ i, i < n → (row (reflexiveTransitiveClosure R n) i).length = wordsize n) ∧
    (∀ i j, i < n → n ≤ j → BIT (row (reflexiveTransitiveClosure R n) i) j = false) := by
  have h := reflexiveTransitiveClosure_bits (R := R) (n := n) ⟨hR, hrow⟩
  refine ⟨h.1.1, h.1.2, ?_⟩
  intro i j hi hj
  rw [h.2 i hi j, (transitiveClosure_W ⟨hR, hrow⟩).2 i hi j,
    W_bounded hclean n (Nat.le_refl n) hi hj]
  simp; omega

/-- A 70-node relation `0 → 1 → … → 69`, two words per row. -/
def c01Chain : List (List Word) :=
  (List.range 70).map fun i => if i < 69 then SETBIT (zeroRow 2) (i+1) else zeroRow 2

/-- non-vacuity: the hypotheses hold for the chain, with rows of two words. -/
example : c01Chain.length = 70 ∧ (∀ i, i < 70 → (row c01Chain i).length = wordsize 70) ∧
    BIT (row c01Chain 63) 64 = true ∧ BIT (row c01Chain 0) 2 = false := by
  decide +kernel

/-- The same routine on a cycle `0 → 1 → 2 → 0` next to an isolated edge `3 → 4`. -/
def c01Small : List (List Word) :=
  [[2#64], [4#64], [1#64], [16#64], [0#64]]

example : transitiveClosure c01Small 5 = [[7#64], [7#64], [7#64], [16#64], [0#64]] ∧
    reflexiveTransitiveClosure c01Small 5 = [[7#64], [7#64], [7#64], [24#64], [16#64]] := by
  decide +kernel

end Verif.Byacc
