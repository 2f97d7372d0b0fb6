import Verif.Proofs.Digraph
/-
C06 — the digraph algorithm (byacc/lalr.c).
-/
set_option autoImplicit false
namespace Verif.Byacc
open Relation

/-- C06: for every relation `R` on nodes `0 .. n-1` (given by successor lists) and every
assignment of bit rows of one length, the routine terminates and the row of `x` becomes the
union of the initial rows of all nodes reachable from `x`. -/
theorem C06_digraph (n w : Nat) (R : List (List Nat)) (F0 : List (List Word))
    (hR : ∀ succs ∈ R, ∀ y ∈ succs, y < n)
    (hn : F0.length = n) (hw : ∀ r ∈ F0, r.length = w) :
    ∃ F, digraph n R F0 = some F ∧ F.length = n ∧ (∀ r ∈ F, r.length = w) ∧
      ∀ (x m : Nat) (r : List Word), F[x]? = some r →
        (BIT r m = true ↔ ∃ (y : Nat) (r0 : List Word),
          ReflTransGen (fun u v => ∃ succs, R[u]? = some succs ∧ v ∈ succs) x y ∧ F0[y]? = some r0 ∧ BIT r0 m = true) := by
  have hR' : ∀ x, ∀ y ∈ R.getD x [], y < n := by
    intro x y hy
    rw [List.getD_eq_getElem?_getD] at hy
    cases hx : R[x]? with
    | none => rw [hx] at hy; simp at hy
    | some s => rw [hx] at hy; exact hR s (List.mem_of_getElem? hx) y hy
  have hrow : ∀ (F : List (List Word)) (x : Nat) (r : List Word), F[x]? = some r → row F x = r := by
    intro F x r h; simp [row, List.getD_eq_getElem?_getD, h]
  have hmat : MatOK F0 n w := ⟨hn, fun i hi => by
    have := List.getElem?_eq_getElem (l := F0) (i := i) (by omega)
    rw [hrow _ _ _ this]
    exact hw _ (List.getElem_mem _)⟩
  obtain ⟨F, e, hF, hspec⟩ := digraph_spec hR' hmat
  refine ⟨F, e, hF.1, ?_, ?_⟩
  · intro r hr
    obtain ⟨i, hi, rfl⟩ := List.getElem_of_mem hr
    have := hF.2 i (by rw [← hF.1]; exact hi)
    rw [hrow F i _ (List.getElem?_eq_getElem hi)] at this
    exact this
  · intro x m r hr
    have hx : x < n := by rw [← hF.1]; exact (List.getElem?_eq_some_iff.mp hr).1
    have hrel : (fun u v => v ∈ R.getD u []) = (fun u v => ∃ succs, R[u]? = some succs ∧ v ∈ succs) := by
      funext u v
      apply propext
      rw [List.getD_eq_getElem?_getD]
      cases R[u]? with
      | none => simp
      | some s => simp
    have := hspec x hx m
    rw [hrow F x r hr, hrel] at this
    rw [this]
    constructor
    · rintro ⟨y, h1, h2⟩
      have hy : y < F0.length := by
        by_contra hc
        have : F0[y]? = none := List.getElem?_eq_none (by omega)
        simp [row, List.getD_eq_getElem?_getD, this, BIT, rdw] at h2
      refine ⟨y, _, h1, List.getElem?_eq_getElem hy, ?_⟩
      rw [hrow F0 y _ (List.getElem?_eq_getElem hy)] at h2
      exact h2
    · rintro ⟨y, r0, h1, h2, h3⟩
      exact ⟨y, h1, by rw [hrow F0 y r0 h2]; exact h3⟩

/-- Two nested cycles `0 → 1 → 2 → 1`, `2 → 0`, and `3 → 2`, `4` isolated. -/
example : digraph 5 [[1], [2], [1, 0], [2], []] [[1#64], [2#64], [4#64], [8#64], [16#64]] =
    some [[7#64], [7#64], [7#64], [15#64], [16#64]] := by decide +kernel

end Verif.Byacc
