import Verif.Proofs.LemonHFile
/-
C113: where lemon puts its files (violated for directories with a dot, and for grammar files called like an output file).
-/
set_option autoImplicit false
namespace Verif.Lemon
open Verif.Spec.HFile
open Verif.Spec.GFile (text)

/-- C113.  The files are in the directory given with `-d`, or else in that of the grammar file; their names are that of the grammar file with the extension replaced.
(Full statement: without the hypothesis that the grammar file has an extension or the directory has no dot, see `C113_directory_violated`.) -/
theorem C113_names_partial (outputDir : Option (List Nat)) (path dir stem ext suffix : List Nat) (h : IsPath path dir stem ext)
    (hd : ext ≠ [] ∨ 46 ∉ outputDir.getD dir) :
    fileMakename outputDir path suffix = outputFile outputDir dir stem suffix := by
  have key : ∀ d : List Nat, (ext ≠ [] ∨ 46 ∉ d) → ((strrchr 46 (d ++ (stem ++ ext))).map Prod.fst).getD (d ++ (stem ++ ext)) = d ++ stem := by
    intro d hd
    rcases h.isExt with ⟨rfl, hs⟩ | ⟨e, rfl, he, -⟩
    · have : 46 ∉ d ++ (stem ++ []) := by
        rcases hd with hd | hd
        · exact absurd rfl hd
        · simp [hd, hs]
      rw [strrchr_none this]
      simp
    · rw [← List.append_assoc, strrchr_append he]
      rfl
  unfold fileMakename outputFile
  cases outputDir with
  | none =>
    have := key dir hd
    rw [← List.append_assoc, ← h.eq] at this
    simp only [Option.isSome_none, Bool.false_eq_true, if_false, Option.map_none, Option.getD_none, List.nil_append]
    rw [this]
  | some d =>
    have := key (d ++ [47]) (hd.imp id (by simp))
    simp only [Option.isSome_some, if_true, Option.map_some, Option.getD_some, base_name h]
    rw [this]

/-- C113, different files.  Files with different suffixes have different names. -/
theorem C113_distinct (outputDir : Option (List Nat)) (path s1 s2 : List Nat) (h : s1 ≠ s2) : fileMakename outputDir path s1 ≠ fileMakename outputDir path s2 := by
  unfold fileMakename
  exact fun e => h (List.append_cancel_left e)

/-- C113, the grammar file.  Without `-d` the file with a suffix is the grammar file itself exactly if the name of that ends with the suffix. -/
theorem C113_input (path e : List Nat) (he : 46 ∉ e) : fileMakename none path (46 :: e) = path ↔ (46 :: e) <:+ path := by
  unfold fileMakename
  simp only [Option.isSome_none, Bool.false_eq_true, if_false, Option.map_none, Option.getD_none, List.nil_append]
  constructor
  · intro h
    exact ⟨_, h⟩
  · rintro ⟨t, rfl⟩
    rw [strrchr_append he]
    rfl

/-- C113 is violated: a grammar file without extension in a directory with a dot.  The file is put beside the directory, and the name of the grammar file has no
influence on it: the files made from all such grammar files in the directory overwrite each other.  With `-d` the same happens to the directory given. -/
theorem C113_directory_violated (a b stem suffix : List Nat) (hb : 46 ∉ b) (hs : 46 ∉ stem) :
    fileMakename none (a ++ [46] ++ b ++ [47] ++ stem) suffix = a ++ suffix ∧
    (47 ∉ stem → fileMakename (some (a ++ [46] ++ b)) stem suffix = a ++ suffix) := by
  have key : strrchr 46 (a ++ [46] ++ b ++ [47] ++ stem) = some (a, b ++ [47] ++ stem) := by
    rw [show a ++ [46] ++ b ++ [47] ++ stem = a ++ 46 :: (b ++ [47] ++ stem) by simp]
    exact strrchr_append (by simp [hb, hs]) a
  unfold fileMakename
  constructor
  · simp only [Option.isSome_none, Bool.false_eq_true, if_false, Option.map_none, Option.getD_none, List.nil_append, key, Option.map_some, Option.getD_some]
  · intro h
    simp only [Option.isSome_some, if_true, strrchr_none h, Option.map_none, Option.getD_none, Option.map_some, Option.getD_some, key]

/-- C113 is violated: a grammar file whose name ends with `.c`, `.h`, `.out` or `.sql` is overwritten. -/
theorem C113_input_violated (x : List Nat) : ∀ suffix ∈ [text ".c", text ".h", text ".out", text ".sql"], fileMakename none (x ++ suffix) suffix = x ++ suffix := by
  intro suffix h
  simp only [List.mem_cons, List.not_mem_nil, or_false] at h
  rcases h with rfl | rfl | rfl | rfl <;> exact (C113_input _ _ (by decide)).2 ⟨x, rfl⟩

/-! ### examples -/

example : IsPath (text "a.d/gram.y") (text "a.d/") (text "gram") (text ".y") :=
  ⟨by decide, by decide, by decide, .inr ⟨text "y", by decide, by decide, by decide⟩⟩
example : fileMakename none (text "a.d/gram.y") (text ".c") = text "a.d/gram.c" := by decide
example : fileMakename (some (text "out")) (text "a.d/gram.y") (text ".h") = text "out/gram.h" := by decide
example : IsPath (text "src/gram") (text "src/") (text "gram") [] := ⟨by decide, by decide, by decide, .inl ⟨rfl, by decide⟩⟩
example : fileMakename none (text "../gram") (text ".c") = text "..c" := by decide
example : fileMakename (some (text "build.dir")) (text "gram") (text ".out") = text "build.out" := by decide

end Verif.Lemon
