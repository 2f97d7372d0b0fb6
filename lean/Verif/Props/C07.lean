import Verif.Byacc.Lalr
import Verif.Proofs.Loop
import Mathlib.Data.List.Count
/-
C07 — transposition of a relation (byacc/lalr.c).
-/
set_option autoImplicit false
namespace Verif.Byacc

theorem getD_set {α : Type} (l : List α) (j k : Nat) (v d : α) (hj : j < l.length) :
    (l.set j v).getD k d = if k = j then v else l.getD k d := by
  simp only [List.getD_eq_getElem?_getD]
  split
  · rename_i h; subst h; rw [List.getElem?_set_self hj]; rfl
  · rename_i h; rw [List.getElem?_set_ne (Ne.symm h)]

theorem transRow_spec (n i : Nat) (es : List Nat) (T : List (List Nat)) (hT : T.length = n) (hes : ∀ j ∈ es, j < n) :
    (es.foldl (fun T j => T.set j (T.getD j [] ++ [i])) T).length = n ∧
    ∀ j, (es.foldl (fun T j => T.set j (T.getD j [] ++ [i])) T).getD j [] =
      T.getD j [] ++ List.replicate (es.count j) i := by
  induction es generalizing T with
  | nil => simp [hT]
  | cons e es ih =>
    have he := hes e List.mem_cons_self
    obtain ⟨h1, h2⟩ := ih (T.set e (T.getD e [] ++ [i])) (by simpa using hT) (fun j hj => hes j (List.mem_cons_of_mem _ hj))
    refine ⟨h1, fun j => ?_⟩
    simp only [List.foldl_cons]
    rw [h2, getD_set _ _ _ _ _ (by omega)]
    by_cases hj : j = e
    · subst hj
      rw [if_pos rfl, List.count_cons_self, List.append_assoc]
      congr 1
    · rw [if_neg hj, List.count_cons_of_ne (Ne.symm hj)]

theorem countRow_spec (n : Nat) (es : List Nat) (T : List Nat) (hT : T.length = n) (hes : ∀ j ∈ es, j < n) :
    (es.foldl (fun cnt j => cnt.set j (cnt.getD j 0 + 1)) T).length = n ∧
    ∀ j, (es.foldl (fun cnt j => cnt.set j (cnt.getD j 0 + 1)) T).getD j 0 = T.getD j 0 + es.count j := by
  induction es generalizing T with
  | nil => simp [hT]
  | cons e es ih =>
    have he := hes e List.mem_cons_self
    obtain ⟨h1, h2⟩ := ih (T.set e (T.getD e 0 + 1)) (by simpa using hT) (fun j hj => hes j (List.mem_cons_of_mem _ hj))
    refine ⟨h1, fun j => ?_⟩
    simp only [List.foldl_cons]
    rw [h2, getD_set _ _ _ _ _ (by omega)]
    by_cases hj : j = e
    · subst hj
      rw [if_pos rfl, List.count_cons_self]; omega
    · rw [if_neg hj, List.count_cons_of_ne (Ne.symm hj)]

theorem replicate_getD {α : Type} (n k : Nat) (d : α) : (List.replicate n d).getD k d = d := by
  simp only [List.getD_eq_getElem?_getD, List.getElem?_replicate]
  split <;> rfl

theorem transpose_spec (n : Nat) (R : List (List Nat)) (hR : ∀ i, ∀ j ∈ R.getD i [], j < n) :
    (transpose n R).length = n ∧
    ∀ j, (transpose n R).getD j [] = (List.range n).flatMap (fun i => List.replicate ((R.getD i []).count j) i) := by
  unfold transpose
  refine loop_inv (fun p (T : List (List Nat)) => T.length = n ∧
    ∀ j, T.getD j [] = (List.range p).flatMap (fun i => List.replicate ((R.getD i []).count j) i)) ?_ ?_
  · refine ⟨by simp, fun j => ?_⟩
    rw [replicate_getD]; rfl
  · intro p T hp ⟨h1, h2⟩
    obtain ⟨h3, h4⟩ := transRow_spec n p (R.getD p []) T h1 (hR p)
    refine ⟨h3, fun j => ?_⟩
    rw [h4, h2, List.range_succ, List.flatMap_append]
    simp

theorem transposeCounts_spec (n : Nat) (R : List (List Nat)) (hR : ∀ i, ∀ j ∈ R.getD i [], j < n) :
    (transposeCounts n R).length = n ∧
    ∀ j, (transposeCounts n R).getD j 0 = ((List.range n).map (fun i => (R.getD i []).count j)).sum := by
  unfold transposeCounts
  refine loop_inv (fun p (T : List Nat) => T.length = n ∧
    ∀ j, T.getD j 0 = ((List.range p).map (fun i => (R.getD i []).count j)).sum) ?_ ?_
  · refine ⟨by simp, fun j => ?_⟩
    rw [replicate_getD]; rfl
  · intro p T hp ⟨h1, h2⟩
    obtain ⟨h3, h4⟩ := countRow_spec n (R.getD p []) T h1 (hR p)
    refine ⟨h3, fun j => ?_⟩
    rw [h4, h2, List.range_succ, List.map_append, List.sum_append]
    simp

theorem count_flatMap_range (n i : Nat) (f : Nat → Nat) :
    ((List.range n).flatMap (fun k => List.replicate (f k) k)).count i = if i < n then f i else 0 := by
  induction n with
  | zero => simp
  | succ n ih =>
    rw [List.range_succ, List.flatMap_append, List.count_append, ih]
    simp only [List.flatMap_cons, List.flatMap_nil, List.append_nil, List.count_replicate]
    rcases Nat.lt_trichotomy i n with h | h | h
    · have h1 : (n == i) = false := by simp; omega
      simp [h1, h, Nat.lt_succ_of_lt h]
    · subst h; simp
    · have h1 : (n == i) = false := by simp; omega
      have h2 : ¬ i < n := by omega
      have h3 : ¬ i < n + 1 := by omega
      simp [h1, h2, h3]

/-- C07: for every list of `n` edge lists over nodes below `n`, the edge `j → i` occurs in the
transposed lists exactly as often as `i → j` in the given ones, each transposed list is in
ascending order, and it has exactly the number of entries that were counted for its
allocation. -/
theorem C07_transpose (n : Nat) (R : List (List Nat)) (hlen : R.length = n)
    (hR : ∀ es ∈ R, ∀ j ∈ es, j < n) :
    (transpose n R).length = n ∧
    (∀ (i j : Nat) (es ts : List Nat), R[i]? = some es → (transpose n R)[j]? = some ts → ts.count i = es.count j) ∧
    (∀ (j : Nat) (ts : List Nat), (transpose n R)[j]? = some ts →
      ts.Pairwise (· ≤ ·) ∧ (∀ i ∈ ts, i < n) ∧ (transposeCounts n R)[j]? = some ts.length) := by
  have hR' : ∀ i, ∀ j ∈ R.getD i [], j < n := by
    intro x y hy
    rw [List.getD_eq_getElem?_getD] at hy
    cases hx : R[x]? with
    | none => rw [hx] at hy; simp at hy
    | some s => rw [hx] at hy; exact hR s (List.mem_of_getElem? hx) y hy
  obtain ⟨h1, h2⟩ := transpose_spec n R hR'
  obtain ⟨h3, h4⟩ := transposeCounts_spec n R hR'
  have hget : ∀ (j : Nat) (ts : List Nat), (transpose n R)[j]? = some ts →
      ts = (List.range n).flatMap (fun i => List.replicate ((R.getD i []).count j) i) := by
    intro j ts h
    rw [← h2, List.getD_eq_getElem?_getD, h]; rfl
  refine ⟨h1, ?_, ?_⟩
  · intro i j es ts hi hj
    have hil : i < n := by rw [← hlen]; exact (List.getElem?_eq_some_iff.mp hi).1
    rw [hget j ts hj, count_flatMap_range, if_pos hil]
    rw [List.getD_eq_getElem?_getD, hi]; rfl
  · intro j ts hj
    have hjl : j < n := by rw [← h1]; exact (List.getElem?_eq_some_iff.mp hj).1
    rw [hget j ts hj]
    refine ⟨?_, ?_, ?_⟩
    · rw [List.pairwise_flatMap]
      constructor
      · intro a _
        rw [List.pairwise_replicate]; right; exact Nat.le_refl _
      · refine List.pairwise_lt_range.imp ?_
        intro a b hab x hx y hy
        rw [List.mem_replicate] at hx hy
        omega
    · intro i hi
      simp only [List.mem_flatMap, List.mem_range, List.mem_replicate] at hi
      obtain ⟨a, ha, -, rfl⟩ := hi
      exact ha
    · rw [List.getElem?_eq_getElem (by omega)]
      have := h4 j
      rw [List.getD_eq_getElem?_getD, List.getElem?_eq_getElem (by omega)] at this
      simp only [Option.getD_some] at this
      rw [this, List.length_flatMap]
      simp

example : transpose 3 [[1, 2, 1], [], [0, 1]] = [[2], [0, 0, 2], [0]] := by decide

end Verif.Byacc
