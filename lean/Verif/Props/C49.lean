import Verif.Lemon.Header
import Verif.Spec.LemonHeader
import Verif.Proofs.LemonPreproc
import Mathlib.Data.List.Chain
/-
C49: the generated C file starts with a well-formed comment (violated).
-/
set_option autoImplicit false
namespace Verif.Lemon

/-- trailing white space behind a character is determined by the text -/
theorem blank_tail {w w' : List Nat} (hw : Blank w) (hw' : Blank w') {x : Nat} (hx : ¬ Blank [x]) :
    ∀ {u v : List Nat}, u ++ x :: w = v ++ x :: w' → u = v := by
  intro u v h
  rcases List.append_eq_append_iff.1 h with ⟨a, h1, h2⟩ | ⟨a, h1, h2⟩
  · cases a with
    | nil => simpa using h1.symm
    | cons d a =>
      simp only [List.cons_append, List.cons.injEq] at h2
      exfalso
      apply hx
      intro c hc
      rw [List.mem_singleton] at hc
      subst hc
      exact hw _ (by rw [h2.2]; simp)
  · cases a with
    | nil => simpa using h1
    | cons d a =>
      simp only [List.cons_append, List.cons.injEq] at h2
      exfalso
      apply hx
      intro c hc
      rw [List.mem_singleton] at hc
      subst hc
      exact hw' _ (by rw [h2.2]; simp)

/-- the text with one closer after the file name and one at the end -/
theorem header_shape (filename : List Nat) (m : Macros) : ∃ A D,
    (reportHeader filename m).1 = [47, 42] ++ A ++ [42, 47] ++ (10 :: D ++ [42, 47]) ++ [10] := by
  unfold reportHeader
  by_cases h : m.used.count true = 0
  · exact ⟨headerStart.drop 2 ++ filename ++ [34, 46, 32], [46, 10], by simp [h, headerStart, headerFile]⟩
  · exact ⟨headerStart.drop 2 ++ filename ++ [34, 46, 32], [32, 119, 105, 116, 104, 32, 116, 104, 101, 115, 101, 32, 111, 112, 116, 105, 111, 110, 115, 58, 10, 42, 42, 10] ++ headerOptions m,
      by simp [h, headerStart, headerFile]⟩

/-- Whatever the name of the grammar file and the options: the text at the start of the generated C file is
not one comment. -/
theorem C49_violated (filename : List Nat) (m : Macros) : ¬ OneComment (reportHeader filename m).1 := by
  rintro ⟨c, r, ⟨h, hc⟩, hr⟩
  obtain ⟨A, D, hs⟩ := header_shape filename m
  rw [hs] at h
  have hb : Blank [10] := by intro c hc; simp at hc; omega
  have h47 : ¬ Blank [47] := fun h => by have := h 47 (by simp); omega
  have key : ([47, 42] ++ A ++ [42, 47] ++ (10 :: D ++ [42])) = [47, 42] ++ c ++ [42] := by
    refine blank_tail hb hr h47 ?_
    simpa using h
  have key2 : ([47, 42] ++ A ++ [42, 47] ++ (10 :: D)) = [47, 42] ++ c := by
    refine List.append_cancel_right (as := _) (bs := [42]) ?_
    simpa using key
  apply hc
  have : c = A ++ [42, 47] ++ (10 :: D) := by simpa using key2.symm
  exact ⟨A, 10 :: D, this.symm⟩

/-- what stands behind the comment when no option was used and the file name contains no `*`: a dot and a
second closer -/
theorem C49_rest_partial (filename : List Nat) (m : Macros) (hf : 42 ∉ filename) (hm : m.used.count true = 0) :
    ∃ c, Comment (reportHeader filename m).1 c ([10, 46, 10] ++ [42, 47] ++ [10]) := by
  refine ⟨headerStart.drop 2 ++ filename ++ [34, 46, 32], by simp [reportHeader, hm, headerStart, headerFile], ?_⟩
  have hch : List.IsChain (fun a b : Nat => ¬ (a = 42 ∧ b = 47)) (headerStart.drop 2 ++ filename ++ [34, 46, 32]) := by
    rw [List.append_assoc, List.isChain_append]
    refine ⟨by decide +kernel, ?_, fun x hx y _ h => ?_⟩
    · rw [List.isChain_append]
      refine ⟨?_, by decide, fun x hx y _ h => hf (h.1 ▸ List.mem_of_getLast? hx)⟩
      clear hm
      induction filename with
      | nil => exact .nil
      | cons a f ih =>
        have ih := ih fun h => hf (by simp [h])
        have ha : a ≠ 42 := fun h => hf (by simp [h])
        cases f with
        | nil => exact .singleton a
        | cons b f => exact .cons_cons (fun h => ha h.1) ih
    · have : x = 34 := by
        have : (headerStart.drop 2).getLast? = some 34 := by decide
        rw [Option.mem_def, this] at hx
        exact (Option.some.inj hx).symm
      omega
  intro h
  have := hch.infix h
  rw [List.isChain_pair] at this
  exact this ⟨rfl, rfl⟩

/-- the hypotheses are met, and the text is what the program writes for the file `a.y` -/
example : 42 ∉ ([97, 46, 121] : List Nat) ∧ (Macros.mk [[65]] [false]).used.count true = 0 ∧
    (reportHeader [97, 46, 121] ⟨[[65]], [false]⟩).1.drop 85 = [46, 121, 34, 46, 32, 42, 47, 10, 46, 10, 42, 47, 10] := by decide +kernel

theorem options_count : ∀ (names : List (List Nat)) (used : List Bool), (∀ n ∈ names, 10 ∉ n) →
    used.length ≤ names.length → (headerOptions ⟨names, used⟩).count 10 = used.count true := by
  intro names
  induction names with
  | nil => intro used _ h; cases used with
    | nil => rfl
    | cons b u => simp at h
  | cons n names ih =>
    intro used hn h
    cases used with
    | nil => rfl
    | cons b u =>
      have := ih u (fun k hk => hn k (by simp [hk])) (by simpa using h)
      have h0 := List.count_eq_zero_of_not_mem (hn n (by simp))
      unfold headerOptions at this ⊢
      simp only [List.zip_cons_cons, List.map_cons, List.flatten_cons, List.count_append] at this ⊢
      rw [this]
      cases b with
      | true => simp [List.count_append, h0]; omega
      | false => simp

/-- The line number kept for the `#line` directives counts the lines of this text. -/
theorem C49_lines (filename : List Nat) (m : Macros) (hf : 10 ∉ filename) (hn : ∀ n ∈ m.names, 10 ∉ n)
    (hu : m.used.length = m.names.length) : (reportHeader filename m).2 = 1 + (reportHeader filename m).1.count 10 := by
  have h0 := List.count_eq_zero_of_not_mem hf
  have h1 := options_count m.names m.used hn (by omega)
  have h2 : headerStart.count 10 = 1 := by decide
  have h3 : headerFile.count 10 = 1 := by decide
  unfold reportHeader
  by_cases h : m.used.count true = 0
  · simp only [h, if_true, List.count_append, h0, h2, h3]
    rfl
  · simp only [h, if_false, List.count_append, h0, h2, h3, h1]
    have e1 : ([32, 119, 105, 116, 104, 32, 116, 104, 101, 115, 101, 32, 111, 112, 116, 105, 111, 110, 115, 58, 10, 42, 42, 10] : List Nat).count 10 = 2 := by decide
    have e2 : ([42, 47, 10] : List Nat).count 10 = 1 := by decide
    rw [e1, e2]
    omega

example : (reportHeader [97, 46, 121] ⟨[[65], [66]], [false, true]⟩).2 = 7 := by decide +kernel

end Verif.Lemon
