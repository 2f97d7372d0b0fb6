import Verif.Proofs.LemonFlow
import Verif.Proofs.LemonClosure
/-
C31: follow-set propagation reaches the least fixpoint.
-/
set_option autoImplicit false
namespace Verif.Lemon
open Relation

/-- C31.  For every graph of links between `n` configurations and every family of initial sets,
the loop of `FindFollowSets` ends, and a set finally has exactly the elements of the initial sets
of the configurations from which it is reachable. -/
theorem C31_propagation (n k : Nat) (links : List (List Nat)) (sets : List TSet) (hlen : sets.length = n)
    (hsize : ∀ s ∈ sets, s.length = k) (hlinks : links.length = n) (hl : ∀ l ∈ links, ∀ j ∈ l, j < n) :
    ∃ F, propagate links sets = some F ∧ F.length = n ∧ (∀ s ∈ F, s.length = k) ∧
      ∀ j t, setFind (F.getD j []) t = true ↔
        ∃ i, ReflTransGen (fun a b => b ∈ links.getD a []) i j ∧ setFind (sets.getD i []) t = true := by
  obtain ⟨F, h1, h2, h3⟩ := propagate_spec (links := links) (sets := sets) (n := n) (k := k) ⟨hlen, hsize⟩ (by
    intro i j hij
    unfold Linked at hij
    rw [List.getD_eq_getElem?_getD] at hij
    rcases hx : links[i]? with _ | l
    · rw [hx] at hij; simp at hij
    · rw [hx] at hij
      exact ⟨hlinks ▸ (List.getElem?_eq_some_iff.mp hx).1, hl l (List.mem_of_getElem? hx) j hij⟩)
  exact ⟨F, h1, h2.1, h2.2, h3⟩

/-- The number of passes allowed does not matter once it suffices. -/
theorem C31_fuel (links : List (List Nat)) (sets F : List TSet) (a : Nat) (n k : Nat) (hlen : sets.length = n)
    (hsize : ∀ s ∈ sets, s.length = k) (hlinks : links.length = n) (hl : ∀ l ∈ links, ∀ j ∈ l, j < n)
    (h : propagateWith links sets a = some F) : propagate links sets = some F := by
  obtain ⟨F', h1, _⟩ := C31_propagation n k links sets hlen hsize hlinks hl
  unfold propagate propagateWith at *
  obtain ⟨x, e1, e2⟩ := Option.map_eq_some_iff.mp h
  obtain ⟨y, e3, e4⟩ := Option.map_eq_some_iff.mp h1
  have k1 := doWhile_mono (Nat.le_max_left a ((sets.map List.length).sum + 1)) e1
  have k2 := doWhile_mono (Nat.le_max_right a ((sets.map List.length).sum + 1)) e3
  rw [k1] at k2
  simp only [Option.some.injEq] at k2
  rw [e3, ← k2]
  simp [e2]

/-- A cycle between 0 and 1, leading to 2; 3 is apart. -/
example : propagate [[1], [0, 2], [], [2]] [[true, false, false], [false, true, false], [false, false, false],
    [false, false, true]] = some [[true, true, false], [true, true, false], [true, true, true], [false, false, true]] := by
  decide +kernel

end Verif.Lemon
