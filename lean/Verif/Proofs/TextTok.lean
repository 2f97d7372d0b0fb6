import Verif.Spec.OutDefs
import Verif.Proofs.TextFile
import Verif.Proofs.ByaccWords
set_option autoImplicit false
namespace Verif.Byacc
open Rd Spec.OutText Spec.YText

/-! The macros for the tokens -/

theorem isName1_word (c : Nat) : isName1 c = true ↔ Letter c ∨ c = 95 ∨ c = 36 := by
  simp [isName1, isAlpha_iff, or_assoc]

theorem isName2_word (c : Nat) : isName2 c = true ↔ Letter c ∨ Digit c ∨ c = 95 ∨ c = 36 := by
  simp [isName2, isAlnum, isAlpha_iff, isDigit_iff, or_assoc]

theorem word_iff (n : List Nat) : CWord n ↔ ∃ c r, n = c :: r ∧ isName1 c = true ∧ r.all isName2 = true := by
  unfold CWord
  simp only [isName1_word, List.all_eq_true, isName2_word]

theorem lit_word (s : List Nat) (h : ∀ x ∈ (s.flatMap (litChar 34) ++ [34]).takeWhile (· != 34), x ≠ 92) :
    (s.flatMap (litChar 34) ++ [34]).takeWhile (· != 34) = s.flatMap (litChar 34) := by
  induction s with
  | nil => rfl
  | cons c s ih =>
    rw [List.flatMap_cons, List.append_assoc] at h ⊢
    rcases litChar_cases 34 c with ⟨-, e⟩ | ⟨-, h2, -, e⟩ | ⟨-, -, d, w, e, -, -⟩
    · rw [e] at h
      exact absurd rfl (h 92 (by simp))
    · rw [e] at h ⊢
      rw [List.singleton_append, List.takeWhile_cons, if_pos (by simpa using h2)] at h ⊢
      rw [ih fun x hx => h x (by simp [hx])]
      rfl
    · rw [e] at h
      exact absurd rfl (h 92 (by simp))

theorem name1_ne34 {c : Nat} (h : isName1 c = true) : c ≠ 34 ∧ c ≠ 92 := by
  rw [isName1_word] at h; unfold Letter at h; omega
theorem name2_ne34 {c : Nat} (h : isName2 c = true) : c ≠ 34 ∧ c ≠ 92 := by
  rw [isName2_word] at h; unfold Letter Digit at h; omega

theorem takeWhile_quote (m : List Nat) (h : ∀ x ∈ m, x ≠ 34) : (m ++ [34]).takeWhile (· != 34) = m := by
  induction m with
  | nil => rfl
  | cons c m ih =>
    rw [List.cons_append, List.takeWhile_cons, if_pos (by simpa using h c (by simp)), ih fun x hx => h x (by simp [hx])]

theorem cword_plain {m : List Nat} (h : CWord m) : (∀ x ∈ m, x ≠ 34 ∧ x ≠ 92) ∧ m ≠ [] := by
  obtain ⟨c, r, rfl, h1, h2⟩ := (word_iff m).1 h
  rw [List.all_eq_true] at h2
  refine ⟨fun x hx => ?_, by simp⟩
  rcases List.mem_cons.1 hx with rfl | hx
  · exact name1_ne34 h1
  · exact name2_ne34 (h2 x hx)

theorem ident_other {c : Nat} (r : List Nat) (h : c ≠ 34) : isCIdent (c :: r) = (isName1 c && r.all isName2) ∧ defName (c :: r) = c :: r := by
  constructor
  · unfold isCIdent
    split
    · next e => cases e
    · next e => cases e; exact absurd rfl h
    · next e => cases e; rfl
  · unfold defName
    split
    · next e => cases e; exact absurd rfl h
    · rfl

theorem lit_rest {r : List Nat} (hn : SymName (34 :: r)) : ∃ s : List Nat, r = s.flatMap (litChar 34) ++ [34] := by
  generalize e : 34 :: r = n at hn
  cases hn with
  | word _ hc => subst e; exact absurd rfl (nameChar_plain (hc 34 (by simp))).1
  | lit s =>
    rw [litName_eq] at e
    by_cases hl : s.length = 1
    · rw [if_pos hl] at e; simp at e
    · rw [if_neg hl] at e; exact ⟨s, (List.cons.inj e).2⟩

/-- the test of `output_defines`, and the name it writes -/
theorem macro_iff (sflag : Bool) (n : List Nat) (hn : SymName n) :
    ((isCIdent n && (!sflag || n.head? ≠ some 34)) = true → MacroOf sflag n (defName n)) ∧
    (∀ m, MacroOf sflag n m → (isCIdent n && (!sflag || n.head? ≠ some 34)) = true) := by
  constructor
  · intro h
    rw [Bool.and_eq_true] at h
    obtain ⟨h1, h2⟩ := h
    cases n with
    | nil => cases h1
    | cons c r =>
      by_cases h34 : c = 34
      · subst h34
        have hs : sflag = false := by simpa using h2
        obtain ⟨s, hr⟩ := lit_rest hn
        cases r with
        | nil => exact absurd h1 (by decide)
        | cons c r =>
          change (isName1 c && (r.takeWhile (· != 34)).all isName2) = true at h1
          rw [Bool.and_eq_true, List.all_eq_true] at h1
          have h5 : (c :: r).takeWhile (· != 34) = c :: r.takeWhile (· != 34) := by
            rw [List.takeWhile_cons, if_pos (by simpa using (name1_ne34 h1.1).1)]
          have hd : defName (34 :: c :: r) = c :: r.takeWhile (· != 34) := h5
          have hw : CWord (c :: r.takeWhile (· != 34)) := (word_iff _).2 ⟨_, _, rfl, h1.1, by rw [List.all_eq_true]; exact h1.2⟩
          refine ⟨by rw [hd]; exact hw, .inr ⟨hs, ?_⟩⟩
          have := lit_word s (by
            rw [← hr, h5]
            exact fun x hx => ((cword_plain hw).1 x hx).2)
          rw [hd, ← h5, hr, this]
      · rw [(ident_other r h34).1, Bool.and_eq_true] at h1
        rw [(ident_other r h34).2]
        exact ⟨(word_iff _).2 ⟨c, r, rfl, h1.1, h1.2⟩, .inl rfl⟩
  · rintro m ⟨hw, rfl | ⟨hs, rfl⟩⟩
    · obtain ⟨c, r, rfl, h1, h2⟩ := (word_iff n).1 hw
      have := (name1_ne34 h1).1
      rw [(ident_other r this).1, h1, h2]
      simp [this]
    · obtain ⟨c, r, rfl, h1, h2⟩ := (word_iff m).1 hw
      have e : isCIdent (34 :: (c :: r ++ [34])) = true := by
        change (isName1 c && ((r ++ [34]).takeWhile (· != 34)).all isName2) = true
        rw [takeWhile_quote r fun x hx => ((cword_plain hw).1 x (by simp [hx])).1, h1, h2]
        rfl
      rw [e, hs]
      rfl

variable {I : TextIn}

/-- the line for a token -/
def defLine (I : TextIn) (i : Nat) : List Nat :=
  if isCIdent (I.names.getD i []) && (!I.sflag || (I.names.getD i []).head? ≠ some 34) then
    str "#define " ++ defName (I.names.getD i []) ++ [32] ++ decInt (I.values.getD i 0) ++ [10]
  else []

theorem ft_define (f : OFile) (w : Wr) (i : Nat) : fileText I f (w.define I f i) = fileText I f w ++ defLine I i := by
  unfold Wr.define defLine
  dsimp only
  split
  · rw [ft_put, ft_bumpIf]
  · simp

theorem ft_defineAll (f : OFile) (l : List Nat) (w : Wr) : fileText I f (l.foldl (Wr.define I f) w) = fileText I f w ++ l.flatMap (defLine I) := by
  induction l generalizing w with
  | nil => simp
  | cons i l ih => rw [List.foldl_cons, ih, ft_define, List.flatMap_cons, List.append_assoc]

theorem defLines_all (hn : ∀ n ∈ I.names, SymName n) (l : List Nat) :
    DefLines I.sflag (l.map fun i => (I.names.getD i [], I.values.getD i 0)) (l.flatMap (defLine I)) := by
  induction l with
  | nil => exact .nil
  | cons i l ih =>
    rw [List.map_cons, List.flatMap_cons]
    have hs : SymName (I.names.getD i []) := by
      by_cases h : i < I.names.length
      · rw [show I.names.getD i [] = I.names[i] by simp [h]]
        exact hn _ (List.getElem_mem h)
      · rw [show I.names.getD i [] = [] by simp [h]]
        exact .word [] (by simp)
    obtain ⟨h1, h2⟩ := macro_iff I.sflag _ hs
    unfold defLine
    split
    · next e => exact .line _ _ _ _ _ _ (h1 e) ((decInt_iff _ _).2 rfl) ih
    · next e => exact .skip _ _ _ _ (fun ⟨m, hm⟩ => e (h2 m hm)) ih

theorem grow_fileText {w w' : Wr} (f : OFile) (h : Grow w w') : ∃ b, fileText I f w' = fileText I f w ++ b := by
  obtain ⟨⟨a, h1⟩, ⟨b, h2⟩, ⟨c, h3⟩, ⟨d, h4⟩⟩ := h
  cases f
  · exact ⟨bytes I.codeName a, by change bytes _ _ = _; rw [h1, bytes_append]; rfl⟩
  · exact ⟨b, h2⟩
  · exact ⟨c, h3⟩
  · exact ⟨d, h4⟩

theorem grow_definesEnd {w0 w : Wr} (f : OFile) (h : Grow w0 w) : Grow w0 (w.definesEnd I f) := by
  unfold Wr.definesEnd
  cases I.union with
  | none => dsimp only; grow
  | some u => dsimp only; grow

/-- `output_defines` writes the macros -/
theorem defines_has (hn : ∀ n ∈ I.names, SymName n) (f : OFile) (w w' : Wr) (hs : LineStart (fileText I f w)) (hg : Grow (w.defines I f) w') :
    HasDefines (fileText I f w') I.sflag ((List.range' 2 (I.ntokens - 2)).map fun i => (I.names.getD i [], I.values.getD i 0))
      (if f ≠ .defs || I.iflag then some (I.values.getD 1 0) else none) := by
  rw [defines_eq] at hg
  generalize hw1 : (if f = .defs then w.codeLines I f "requires" I.requires else w) = w1 at hg
  have hs1 : LineStart (fileText I f w1) := by
    rw [← hw1]
    by_cases e : f = .defs
    · rw [if_pos e]
      subst e
      unfold Wr.codeLines
      cases I.requires with
      | none => exact hs
      | some b =>
        dsimp only
        rw [if_neg (by simp), ft_put]
        exact lineStart_append (by decide)
    · rw [if_neg e]; exact hs
  have hg2 : Grow (let w := ((List.range' 2 (I.ntokens - 2)).foldl (Wr.define I f) w1).bumpIf f
      if f ≠ .defs || I.iflag then w.put f (str "#define YYERRCODE " ++ decInt (I.values.getD 1 0) ++ [10]) else w) w' := by
    refine Grow.trans ?_ hg
    unfold Wr.definesMid
    refine grow_definesEnd f ?_
    dsimp only
    refine grow_if ?_ ?_
    · grow
    · grow
  obtain ⟨b, hb⟩ := grow_fileText (I := I) f hg2
  refine ⟨fileText I f w1, _, if f ≠ .defs || I.iflag then str "#define YYERRCODE " ++ decInt (I.values.getD 1 0) ++ [10] else [], b, ?_, hs1, defLines_all hn _, ?_⟩
  · rw [hb]
    dsimp only
    congr 1
    split
    · rw [ft_put, ft_bumpIf, ft_defineAll]
    · rw [ft_bumpIf, ft_defineAll, List.append_nil]
  · split
    · next e => split at e <;> simp_all
    · next v e =>
      split at e
      · next h => rw [if_pos h]; cases e; exact ⟨_, (decInt_iff _ _).2 rfl, rfl⟩
      · cases e

end Verif.Byacc
