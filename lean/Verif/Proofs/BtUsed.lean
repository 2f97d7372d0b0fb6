import Verif.Byacc.Backtrack
import Mathlib.Tactic.Tauto
/-
The rules used by the actions of a backtracking parser.
-/
set_option autoImplicit false
namespace Verif.Byacc

theorem rowUsedB_spec (acts : List Action) (used : List Bool) (i : Nat) :
    (acts.foldl (fun used p => if p.code = .REDUCE ∧ p.may then used.set p.number true else used) used).length = used.length ∧
    ((acts.foldl (fun used p => if p.code = .REDUCE ∧ p.may then used.set p.number true else used) used).getD i false = true ↔
      used.getD i false = true ∨ (i < used.length ∧ ∃ p ∈ acts, p.code = .REDUCE ∧ p.may = true ∧ p.number = i)) := by
  induction acts generalizing used with
  | nil => simp
  | cons p l ih =>
    rw [List.foldl_cons]
    by_cases hp : p.code = .REDUCE ∧ p.may
    · rw [if_pos hp]
      obtain ⟨h1, h2⟩ := ih (used.set p.number true)
      rw [List.length_set] at h1
      refine ⟨h1, ?_⟩
      rw [h2, List.length_set]
      have hset : (used.set p.number true).getD i false = true ↔ used.getD i false = true ∨ (i < used.length ∧ p.number = i) := by
        rw [List.getD_eq_getElem?_getD, List.getElem?_set]
        split
        · rename_i h; subst h
          split
          · rename_i h; simp [h]
          · rename_i h; simp [h]
        · rename_i h; simp [List.getD_eq_getElem?_getD]
          intro _ h'; exact absurd h' h
      rw [hset]
      simp only [List.mem_cons, exists_eq_or_imp, hp.1, hp.2, true_and]
      tauto
    · rw [if_neg hp]
      obtain ⟨h1, h2⟩ := ih used
      refine ⟨h1, ?_⟩
      rw [h2]
      simp only [List.mem_cons, exists_eq_or_imp]
      constructor
      · rintro (h | ⟨h, h'⟩)
        · exact .inl h
        · exact .inr ⟨h, .inr h'⟩
      · rintro (h | ⟨h, h' | h'⟩)
        · exact .inl h
        · exact absurd ⟨h'.1, h'.2.1⟩ hp
        · exact .inr ⟨h, h'⟩

theorem rulesUsedB_spec (n : Nat) (rows : List (List Action)) (i : Nat) :
    (rulesUsedB n rows).length = n ∧
    ((rulesUsedB n rows).getD i false = true ↔
      i < n ∧ ∃ row ∈ rows, ∃ p ∈ row, p.code = .REDUCE ∧ p.may = true ∧ p.number = i) := by
  unfold rulesUsedB
  have key : ∀ (rows : List (List Action)) (used : List Bool), used.length = n →
      (rows.foldl (fun used acts => acts.foldl (fun used p =>
        if p.code = .REDUCE ∧ p.may then used.set p.number true else used) used) used).length = n ∧
      ((rows.foldl (fun used acts => acts.foldl (fun used p =>
        if p.code = .REDUCE ∧ p.may then used.set p.number true else used) used) used).getD i false = true ↔
      used.getD i false = true ∨
        i < n ∧ ∃ row ∈ rows, ∃ p ∈ row, p.code = .REDUCE ∧ p.may = true ∧ p.number = i) := by
    intro rows
    induction rows with
    | nil => intro used hu; simp [hu]
    | cons row rows ih =>
      intro used hu
      rw [List.foldl_cons]
      have hs := rowUsedB_spec row used i
      obtain ⟨h1, h2⟩ := ih _ (hs.1.trans hu)
      refine ⟨h1, ?_⟩
      rw [h2, hs.2, hu]
      simp only [List.mem_cons, exists_eq_or_imp]
      constructor
      · rintro ((h | ⟨h, h'⟩) | ⟨h, h'⟩)
        · exact .inl h
        · exact .inr ⟨h, .inl h'⟩
        · exact .inr ⟨h, .inr h'⟩
      · rintro (h | ⟨h, h' | h'⟩)
        · exact .inl (.inl h)
        · exact .inl (.inr ⟨h, h'⟩)
        · exact .inr ⟨h, h'⟩
  obtain ⟨h1, h2⟩ := key rows (List.replicate n false) (by simp)
  refine ⟨h1, ?_⟩
  rw [h2]
  have : ¬ (List.replicate n false).getD i false = true := by
    rw [List.getD_eq_getElem?_getD, List.getElem?_replicate]
    split <;> simp
  exact ⟨fun h => h.resolve_left this, .inr⟩

end Verif.Byacc
