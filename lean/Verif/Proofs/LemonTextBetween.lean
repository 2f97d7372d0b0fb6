import Verif.Proofs.LemonTextRead
/-
Lemmas: the parts of the C file made by lemon stand between sections of the template.
-/
set_option autoImplicit false
namespace Verif.Lemon.LT
open Verif.Spec.LText
open Verif.Spec.GFile (text)
open Verif.Spec.RuleCode (num)

variable {I : LText} {ls : List (List Nat)} {t : List Nat}

theorem ls_append {a b : List Nat} (ha : LineStart a) (hb : LineStart b) : LineStart (a ++ b) := by
  rcases hb with rfl | hb
  · simpa using ha
  · exact .inr (by rw [List.getLast?_append, hb]; rfl)

theorem ls_nl (a : List Nat) : LineStart (a ++ [10]) := .inr (by simp)

theorem ls_flatMap {α : Type} (f : α → List Nat) (h : ∀ a, LineStart (f a)) (l : List α) : LineStart (l.flatMap f) := by
  induction l with
  | nil => exact .inl rfl
  | cons a l ih => exact ls_append (h a) ih

theorem ls_lines (l : List (List Nat)) : LineStart (lines l) := ls_flatMap _ ls_nl l

theorem ls_section {i : Nat} (h : Section I ls i t) : LineStart t := by
  obtain ⟨outs, -, rfl⟩ := h
  exact ls_lines _

theorem ls_verbatim {c : List Nat} (h : Verbatim c t) : LineStart t := by
  rcases h with ⟨-, rfl⟩ | ⟨rfl, h⟩ | ⟨rfl, -⟩
  · exact .inl rfl
  · exact .inr h
  · exact ls_nl _

theorem ls_verbatimArg {k : Kw} (h : VerbatimArg I k t) : LineStart t := by
  unfold VerbatimArg at h
  split at h
  · exact .inl h
  · exact ls_verbatim h

theorem ls_array {type : List Nat} {name : String} {l : List Int} (h : IsArray type name l t) : LineStart t := by
  obtain ⟨b, -, rfl⟩ := h
  rw [show text "};\n" = text "};" ++ [10] by decide, ← List.append_assoc]
  exact ls_nl _

theorem ls_tables (h : IsTables I t) : LineStart t := by
  obtain ⟨a1, a2, a3, a4, a5, h1, h2, h3, h4, h5, rfl⟩ := h
  exact ls_append (ls_append (ls_append (ls_append (ls_append (ls_append (ls_append (ls_lines _) (ls_array h1)) (ls_array h2)) (ls_lines _)) (ls_array h3)) (ls_lines _)) (ls_array h4)) (ls_array h5)

theorem ls_destructors : LineStart (destructorsText I) := by
  refine ls_flatMap _ ?_ _
  intro c
  unfold destructorCase
  rw [show text "      break;\n" = text "      break;" ++ [10] by decide, ← List.append_assoc]
  exact ls_nl _

theorem ls_actions : LineStart (actionsText I) := by
  unfold actionsText
  rw [show text "        break;\n" = text "        break;" ++ [10] by decide, ← List.append_assoc]
  exact ls_nl _

theorem mkBetween {i : Nat} {a s s' p b : List Nat} (h1 : Section I ls i s) (h2 : Section I ls (i + 1) s') (h3 : LineStart a) (h4 : t = a ++ s ++ p ++ s' ++ b) : Between I ls i t p :=
  ⟨a, s, s', b, h1, h2, h3, h4⟩

/-- the parts and the sections around them -/
theorem layout_between (h : Layout I ls t) :
    Between I ls 1 t (lines (tokenIf I :: tokenLines I)) ∧ Between I ls 2 t (lines (defineLines I)) ∧ (∃ tables, IsTables I tables ∧ Between I ls 3 t tables) ∧
    Between I ls 4 t (lines (fallbackLines I)) ∧ Between I ls 5 t (lines (symbolLines I)) ∧ Between I ls 6 t (lines (ruleLines I)) ∧ Between I ls 7 t (destructorsText I) ∧
    (∃ x, VerbatimArg I .stackOverflow x ∧ Between I ls 8 t x) ∧ Between I ls 9 t (lines (lhsLines I)) ∧ Between I ls 10 t (lines (lenLines I)) ∧ Between I ls 11 t (actionsText I) ∧
    (∃ x, VerbatimArg I .parseFailure x ∧ Between I ls 12 t x) ∧ (∃ x, VerbatimArg I .syntaxError x ∧ Between I ls 13 t x) ∧ (∃ x, VerbatimArg I .parseAccept x ∧ Between I ls 14 t x) := by
  obtain ⟨S, incl, incText, tables, ov, fl, er, ac, co, hS, -, hv, ht, h1, h2, h3, h4, h5, e⟩ := h
  have l0 : LineStart (lines (headerLines I.filename I.defs) ++ (if incl.head? = some 47 then [] else S 0) ++ incText ++ lines (if I.mhflag then [text "#include \"" ++ I.incName ++ text "\""] else [])) := by
    refine ls_append (ls_append (ls_append (ls_lines _) ?_) (ls_verbatim hv)) (ls_lines _)
    split
    · exact .inl rfl
    · exact ls_section (hS 0)
  generalize lines (headerLines I.filename I.defs) ++ (if incl.head? = some 47 then [] else S 0) ++ incText ++ lines (if I.mhflag then [text "#include \"" ++ I.incName ++ text "\""] else []) = a0 at l0 e
  have s : ∀ i, LineStart (S i) := fun i => ls_section (hS i)
  have l1 := ls_append (ls_append l0 (s 1)) (ls_lines (tokenIf I :: tokenLines I))
  have l2 := ls_append (ls_append l1 (s 2)) (ls_lines (defineLines I))
  have l3 := ls_append (ls_append l2 (s 3)) (ls_tables ht)
  have l4 := ls_append (ls_append l3 (s 4)) (ls_lines (fallbackLines I))
  have l5 := ls_append (ls_append l4 (s 5)) (ls_lines (symbolLines I))
  have l6 := ls_append (ls_append l5 (s 6)) (ls_lines (ruleLines I))
  have l7 := ls_append (ls_append l6 (s 7)) (ls_destructors (I := I))
  have l8 := ls_append (ls_append l7 (s 8)) (ls_verbatimArg h1)
  have l9 := ls_append (ls_append l8 (s 9)) (ls_lines (lhsLines I))
  have l10 := ls_append (ls_append l9 (s 10)) (ls_lines (lenLines I))
  have l11 := ls_append (ls_append l10 (s 11)) (ls_actions (I := I))
  have l12 := ls_append (ls_append l11 (s 12)) (ls_verbatimArg h2)
  have l13 := ls_append (ls_append l12 (s 13)) (ls_verbatimArg h3)
  refine ⟨?_, ?_, ⟨tables, ht, ?_⟩, ?_, ?_, ?_, ?_, ⟨ov, h1, ?_⟩, ?_, ?_, ?_, ⟨fl, h2, ?_⟩, ⟨er, h3, ?_⟩, ⟨ac, h4, ?_⟩⟩
  · apply mkBetween (hS 1) (hS 2) l0; rw [e]; simp only [List.append_assoc]; rfl
  · apply mkBetween (hS 2) (hS 3) l1; rw [e]; simp only [List.append_assoc]; rfl
  · apply mkBetween (hS 3) (hS 4) l2; rw [e]; simp only [List.append_assoc]; rfl
  · apply mkBetween (hS 4) (hS 5) l3; rw [e]; simp only [List.append_assoc]; rfl
  · apply mkBetween (hS 5) (hS 6) l4; rw [e]; simp only [List.append_assoc]; rfl
  · apply mkBetween (hS 6) (hS 7) l5; rw [e]; simp only [List.append_assoc]; rfl
  · apply mkBetween (hS 7) (hS 8) l6; rw [e]; simp only [List.append_assoc]; rfl
  · apply mkBetween (hS 8) (hS 9) l7; rw [e]; simp only [List.append_assoc]; rfl
  · apply mkBetween (hS 9) (hS 10) l8; rw [e]; simp only [List.append_assoc]; rfl
  · apply mkBetween (hS 10) (hS 11) l9; rw [e]; simp only [List.append_assoc]; rfl
  · apply mkBetween (hS 11) (hS 12) l10; rw [e]; simp only [List.append_assoc]; rfl
  · apply mkBetween (hS 12) (hS 13) l11; rw [e]; simp only [List.append_assoc]; rfl
  · apply mkBetween (hS 13) (hS 14) l12; rw [e]; simp only [List.append_assoc]; rfl
  · apply mkBetween (hS 14) (hS 15) l13; rw [e]

theorem between_split {i : Nat} {p : List Nat} (h : Between I ls i t p) : ∃ a b, t = a ++ p ++ b ∧ LineStart a := by
  obtain ⟨a, s, s', b, hs, -, ha, e⟩ := h
  exact ⟨a ++ s, s' ++ b, by rw [e]; simp, ls_append ha (ls_section hs)⟩

/-- a line of a part -/
theorem line_split {L : List (List Nat)} {l : List Nat} (hl : l ∈ L) (h : ∃ a b, t = a ++ lines L ++ b ∧ LineStart a) : ∃ a b, t = a ++ (l ++ [10]) ++ b ∧ LineStart a := by
  obtain ⟨a, b, e, ha⟩ := h
  obtain ⟨x, y, rfl⟩ := List.append_of_mem hl
  refine ⟨a ++ lines x, lines y ++ b, ?_, ls_append ha (ls_lines _)⟩
  rw [e]
  simp [lines]

theorem hasDefine_of {L : List (List Nat)} {l name : List Nat} {v : Int} (hl : l ∈ L) (hn : 10 ∉ l) (hr : readDefine l = some (name, v)) (h : ∃ a b, t = a ++ lines L ++ b ∧ LineStart a) :
    HasDefine t name v := by
  obtain ⟨a, b, e, ha⟩ := line_split hl h
  exact ⟨a, l, b, e, ha, hn, hr⟩

theorem read_fixed (name : List Nat) (k : Nat) (v : Int) (s : String) (hs : text s = text "#define " ++ (name ++ 32 :: List.replicate k 32)) (hn : 32 ∉ name) :
    readDefine (text s ++ num v) = some (name, v) := by
  rw [hs]
  have : text "#define " ++ (name ++ 32 :: List.replicate k 32) ++ num v = text "#define " ++ (name ++ 32 :: (List.replicate k 32 ++ num v)) := by simp
  rw [this, readDefine_of name _ k v hn (macroNumber_num v) (num_head _ _ (by omega) (by omega))]

theorem read_paren (name : List Nat) (k : Nat) (v : Int) (s : String) (hs : text s = text "#define " ++ (name ++ 32 :: List.replicate k 32) ++ [40]) (hn : 32 ∉ name) :
    readDefine (text s ++ num v ++ text ")") = some (name, v) := by
  rw [hs, show text ")" = [41] by decide]
  have : text "#define " ++ (name ++ 32 :: List.replicate k 32) ++ [40] ++ num v ++ [41] = text "#define " ++ (name ++ 32 :: (List.replicate k 32 ++ 40 :: (num v ++ [41]))) := by simp
  rw [this, readDefine_of name _ k v hn (macroNumber_paren v) (by simp)]

theorem nn_num (v : Int) : 10 ∉ num v := num_ne v 10 (by omega) (by omega)

theorem nn_text (s : String) (v : Int) (h : 10 ∉ text s) : 10 ∉ text s ++ num v := by
  rw [List.mem_append, not_or]
  exact ⟨h, nn_num v⟩

end Verif.Lemon.LT
