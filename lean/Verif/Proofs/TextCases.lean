import Verif.Byacc.CaseText
import Verif.Spec.OutCases
import Verif.Proofs.TextUser
import Verif.Proofs.TextActs
set_option autoImplicit false
namespace Verif.Byacc
open Rd Spec.OutText Spec.YText

/-! The action file is copied case by case -/

variable {I : TextIn}

theorem putcs_append (w : Wr) (a b : List Nat) : w.putcs .code (a ++ b) = (w.putcs .code a).putcs .code b := by
  unfold Wr.putcs; rw [List.foldl_append]

theorem putcs_one (w : Wr) (c : Nat) : w.putcs .code [c] = w.putcCode .code c := rfl

theorem copy_free (l rest : List Nat) (hl : 10 ∉ l) (last : Nat) (h : last ≠ 10) (w : Wr) :
    w.copyActs I (l ++ 10 :: rest) last 0 = (w.putcs .code (l ++ [10])).copyActs I rest 10 0 := by
  induction l generalizing last w with
  | nil =>
    rw [List.nil_append, Wr.copyActs, if_neg (by simp [h])]; rfl
  | cons c l ih =>
    rw [List.cons_append, Wr.copyActs, if_neg (by simp [h]), ih (by simp at hl; exact hl.2) c (by simp at hl; exact fun e => hl.1 e.symm)]
    rfl

theorem copy_lflag (hf : I.lflag = true) (l rest : List Nat) (last : Nat) (w : Wr) :
    w.copyActs I (l ++ 10 :: rest) last 0 = (w.putcs .code (l ++ [10])).copyActs I rest 10 0 := by
  induction l generalizing last w with
  | nil => rw [List.nil_append, Wr.copyActs, if_neg (by simp [hf])]; rfl
  | cons c l ih => rw [List.cons_append, Wr.copyActs, if_neg (by simp [hf]), ih c]; rfl

theorem copy_match (hf : I.lflag = false) (l rest : List Nat) (hl : 10 ∉ l) (last st : Nat) (hs : last = 10 ∨ 0 < st)
    (hne : placeholder.take st ++ (l ++ [10]) ≠ placeholder) (w : Wr) :
    w.copyActs I (l ++ 10 :: rest) last st = (w.putcs .code (placeholder.take st ++ (l ++ [10]))).copyActs I rest 10 0 := by
  induction l generalizing last st w with
  | nil =>
    rw [List.nil_append, Wr.copyActs, if_pos (by simpa [hf] using hs)]
    by_cases hc : placeholder[st]? = some 10
    · exfalso
      by_cases h1 : st + 1 = placeholder.length
      · refine hne ?_
        rw [List.nil_append, ← take_snoc hc, h1, List.take_length]
      · exact placeholder_inner h1 hc
    · rw [if_neg hc, List.nil_append, putcs_append, putcs_one]
  | cons c l ih =>
    have h1 : c ≠ 10 := by simp at hl; exact fun e => hl.1 e.symm
    have h2 : 10 ∉ l := by simp at hl; exact hl.2
    rw [List.cons_append, Wr.copyActs, if_pos (by simpa [hf] using hs)]
    by_cases hc : placeholder[st]? = some c
    · rw [if_pos hc]
      by_cases h3 : st + 1 = placeholder.length
      · exfalso
        have hp : placeholder = [35, 108, 105, 110, 101, 32, 49, 32, 34, 34, 10] := by decide
        have : st = 10 := by rw [hp] at h3; simpa using h3
        rw [this, hp] at hc
        simp at hc
        exact h1 hc.symm
      · rw [if_neg h3, ih h2 c (st + 1) (.inr (by omega)) (by rw [take_snoc hc]; simpa using hne)]
        rw [take_snoc hc]
        simp
    · rw [if_neg hc, copy_free l rest h2 c h1, List.cons_append, ← List.singleton_append (l := l ++ [10]), putcs_append w, putcs_append _ [c], putcs_one]

theorem copy_line (l rest : List Nat) (hl : 10 ∉ l) (hne : I.lflag = true ∨ l ++ [10] ≠ placeholder) (w : Wr) :
    w.copyActs I (l ++ 10 :: rest) 10 0 = (w.putcs .code (l ++ [10])).copyActs I rest 10 0 := by
  cases hf : I.lflag with
  | true => exact copy_lflag hf l rest 10 w
  | false => exact copy_match hf l rest hl 10 0 (.inl rfl) (by
    rcases hne with x | x
    · rw [hf] at x; cases x
    · simpa using x) w

theorem copy_mark (hf : I.lflag = false) (rest : List Nat) (w : Wr) :
    w.copyActs I (placeholder ++ rest) 10 0 = (w.codeLineno I .code).copyActs I rest 10 0 := by
  have hp : placeholder = [35, 108, 105, 110, 101, 32, 49, 32, 34, 34, 10] := by decide
  simp [hp, Wr.copyActs, hf]

/-- Text whose lines are not marks is copied. -/
theorem copy_lines (n : Nat) (t rest : List Nat) (hn : t.length ≤ n) (ht : LineStart t) (hm : I.lflag = true ∨ ∀ p s, t = p ++ placeholder ++ s → ¬ LineStart p) (w : Wr) :
    w.copyActs I (t ++ rest) 10 0 = (w.putcs .code t).copyActs I rest 10 0 := by
  induction n generalizing t w with
  | zero =>
    have : t = [] := List.length_eq_zero_iff.1 (by omega)
    subst this; rfl
  | succ n ih =>
    by_cases h0 : t = []
    · subst h0; rfl
    have hlast : t.getLast? = some 10 := by
      rcases ht with x | x
      · exact absurd x h0
      · exact x
    have hin : 10 ∈ t := List.mem_of_getLast? hlast
    obtain ⟨l, r, e, hl⟩ := List.eq_append_cons_of_mem hin
    subst e
    rw [List.append_assoc, List.cons_append, copy_line l (r ++ rest) hl (hm.imp_right fun hm e => hm [] r (by rw [List.nil_append, ← e]; simp) (.inl rfl))]
    rw [ih r (by simp at hn; omega) ?_ (hm.imp_right ?_), ← putcs_append]
    · simp
    · by_cases hr : r = []
      · exact .inl hr
      · right
        have : (l ++ 10 :: r).getLast? = r.getLast? := by
          rw [show l ++ 10 :: r = (l ++ [10]) ++ r by simp, List.getLast?_append]
          cases h : r.getLast? with
          | none => exact absurd (List.getLast?_eq_none_iff.1 h) hr
          | some x => rfl
        rw [← this]; exact hlast
    · intro hm p s e hp
      refine hm (l ++ [10] ++ p) s (by rw [e]; simp) ?_
      right
      rcases hp with x | x
      · subst x; simp
      · rw [List.getLast?_append, x]; rfl

theorem ft_self (w : Wr) : fileText I .code (w.codeLineno I .code) = fileText I .code w ++ directive I.lflag (w.outline + 2) I.codeName := by
  unfold Wr.codeLineno directive
  cases hf : I.lflag with
  | true => simp
  | false =>
    simp only [Bool.not_false, Bool.true_and, decide_true, if_true, Bool.false_eq_true, if_false]
    rw [str_num]
    simp [fileText, bytes, Piece.bytes, lineText, str, txt]

theorem directive_eq (lf : Bool) (n : Nat) (name : List Nat) : (if !lf then lineText n name else []) = directive lf n name := by
  unfold directive
  rw [str_num]
  cases lf <;> rfl

theorem lineText_ne_mark (n : Nat) (name : List Nat) (h : name ≠ []) : lineText n name ≠ placeholder := by
  intro e
  have hp : placeholder.length = 11 := by decide
  have := congrArg List.length e
  rw [hp] at this
  unfold lineText at this
  have h1 : 0 < (decDigits n).length := by
    unfold decDigits
    rw [List.length_map]
    exact Nat.length_toDigits_pos
  have h2 : 0 < name.length := List.length_pos_iff.2 h
  have e1 : (str "#line ").length = 6 := by decide
  have e2 : (str " \"").length = 2 := by decide
  have e3 : (str "\"\n").length = 2 := by decide
  simp only [List.length_append, e1, e2, e3] at this
  omega

/-- One case. -/
theorem copy_case (hi : Plain I.inputName) (hi0 : I.inputName ≠ []) (m : Nat) (a : List Nat) (ha : I.lflag = true ∨ NoMark a) (ln : Nat) (rest : List Nat) (w : Wr) :
    ∃ w' k, w.copyActs I (caseText I.lflag I.backtrack I.inputName ln (m, a) ++ rest) 10 0 = w'.copyActs I rest 10 0 ∧
      fileText I .code w' = fileText I .code w ++ caseBlock I.lflag I.backtrack I.inputName I.codeName m a ln k := by
  have hp : placeholder = [35, 108, 105, 110, 101, 32, 49, 32, 34, 34, 10] := by decide
  have hd : ∀ c ∈ decDigits m, c ≠ 10 := by
    intro c hc
    unfold decDigits at hc
    obtain ⟨x, hx, rfl⟩ := List.mem_map.1 hc
    have := Nat.isDigit_of_mem_toDigits (by omega) (by omega) hx
    intro e
    rw [show x = Char.ofNat 10 from by rw [← e]; simp] at this
    exact absurd this (by decide)
  have h1 : (str "case " ++ decDigits m ++ str ":\n") = (str "case " ++ decDigits m ++ str ":") ++ [10] := by
    rw [show str ":\n" = str ":" ++ [10] by decide]; simp
  have hb : (str "break;\n") = str "break;" ++ [10] := by decide
  have ht : (str "  if (!yytrial)\n") = str "  if (!yytrial)" ++ [10] := by decide
  -- the first line
  have s1 : ∀ (w : Wr) (r : List Nat), w.copyActs I ((str "case " ++ decDigits m ++ str ":\n") ++ r) 10 0 =
      (w.putcs .code (str "case " ++ decDigits m ++ str ":\n")).copyActs I r 10 0 := by
    intro w r
    rw [h1]
    rw [List.append_assoc (str "case " ++ decDigits m ++ str ":"), List.singleton_append]
    refine copy_line _ r ?_ (.inr ?_) w
    · simp only [List.mem_append, not_or]
      exact ⟨⟨by decide, fun h => hd 10 h rfl⟩, by decide⟩
    · rw [hp, show str "case " = 99 :: str "ase " by decide]; simp
  have s2 : ∀ (w : Wr) (r : List Nat), w.copyActs I ((if I.backtrack then str "  if (!yytrial)\n" else []) ++ r) 10 0 =
      (w.putcs .code (if I.backtrack then str "  if (!yytrial)\n" else [])).copyActs I r 10 0 := by
    intro w r
    cases I.backtrack with
    | false => rfl
    | true =>
      simp only [if_true]
      rw [ht, List.append_assoc, List.singleton_append]
      exact copy_line _ r (by decide) (.inr (by decide)) w
  have s3 : ∀ (w : Wr) (r : List Nat), w.copyActs I ((if !I.lflag then lineText ln I.inputName else []) ++ r) 10 0 =
      (w.putcs .code (if !I.lflag then lineText ln I.inputName else [])).copyActs I r 10 0 := by
    intro w r
    cases hf : I.lflag with
    | true => rfl
    | false =>
      simp only [Bool.not_false, if_true]
      have hx : lineText ln I.inputName = (str "#line " ++ decDigits ln ++ str " \"" ++ I.inputName ++ str "\"") ++ [10] := by
        unfold lineText
        rw [show str "\"\n" = str "\"" ++ [10] by decide]; simp
      have hne := lineText_ne_mark ln I.inputName hi0
      rw [hx] at hne ⊢
      rw [List.append_assoc _ [10] r, List.singleton_append]
      refine copy_line _ r ?_ (.inr hne) w
      have hd' : ∀ c ∈ decDigits ln, c ≠ 10 := by
        intro c hc
        unfold decDigits at hc
        obtain ⟨x, hx, rfl⟩ := List.mem_map.1 hc
        have := Nat.isDigit_of_mem_toDigits (by omega) (by omega) hx
        intro e
        rw [show x = Char.ofNat 10 from by rw [← e]; simp] at this
        exact absurd this (by decide)
      simp only [List.mem_append, not_or]
      exact ⟨⟨⟨⟨by decide, fun h => hd' 10 h rfl⟩, by decide⟩, hi⟩, by decide⟩
  have s4 : ∀ (w : Wr) (r : List Nat), w.copyActs I ((a ++ [10]) ++ r) 10 0 = (w.putcs .code (a ++ [10])).copyActs I r 10 0 :=
    fun w r => copy_lines _ _ r (Nat.le_refl _) (.inr (by simp)) ha w
  have s5 : ∀ (w : Wr) (r : List Nat), w.copyActs I ((if !I.lflag then placeholder else []) ++ r) 10 0 = (w.codeLineno I .code).copyActs I r 10 0 := by
    intro w r
    cases hf : I.lflag with
    | true => simp [Wr.codeLineno, hf]
    | false => exact copy_mark hf r w
  have s6 : ∀ (w : Wr) (r : List Nat), w.copyActs I (str "break;\n" ++ r) 10 0 = (w.putcs .code (str "break;\n")).copyActs I r 10 0 := by
    intro w r
    rw [hb, List.append_assoc, List.singleton_append]
    exact copy_line _ r (by decide) (.inr (by decide)) w
  have e : caseText I.lflag I.backtrack I.inputName ln (m, a) ++ rest = (str "case " ++ decDigits m ++ str ":\n") ++ ((if I.backtrack then str "  if (!yytrial)\n" else []) ++
      ((if !I.lflag then lineText ln I.inputName else []) ++ ((a ++ [10]) ++ ((if !I.lflag then placeholder else []) ++ (str "break;\n" ++ rest))))) := by
    unfold caseText; simp only [List.append_assoc]
  rw [e, s1, s2, s3, s4, s5, s6]
  refine ⟨_, (Wr.putcs OFile.code (a ++ [10]) (Wr.putcs OFile.code (if (!I.lflag) = true then lineText ln I.inputName else [])
    (Wr.putcs OFile.code (if I.backtrack = true then str "  if (!yytrial)\n" else []) (Wr.putcs OFile.code (str "case " ++ decDigits m ++ str ":\n") w)))).outline + 2, rfl, ?_⟩
  rw [ft_putcs, ft_self, ft_putcs, ft_putcs, ft_putcs, ft_putcs, directive_eq]
  unfold caseBlock
  rw [str_num]
  simp only [List.append_assoc]
  rfl

/-- All cases. -/
theorem copy_cases (hi : Plain I.inputName) (hi0 : I.inputName ≠ []) (l : List ((Nat × List Nat) × Nat)) (ha : ∀ x ∈ l, I.lflag = true ∨ NoMark x.1.2) (w : Wr) :
    ∃ w' ks, ks.length = l.length ∧ w.copyActs I (l.flatMap fun x => caseText I.lflag I.backtrack I.inputName x.2 x.1) 10 0 = w'.copyActs I [] 10 0 ∧
      fileText I .code w' = fileText I .code w ++ (l.zip ks).flatMap (fun y => caseBlock I.lflag I.backtrack I.inputName I.codeName y.1.1.1 y.1.1.2 y.1.2 y.2) := by
  induction l generalizing w with
  | nil => exact ⟨w, [], rfl, rfl, by simp⟩
  | cons x l ih =>
    obtain ⟨⟨m, a⟩, ln⟩ := x
    obtain ⟨w1, k, h1, h2⟩ := copy_case hi hi0 m a (ha ((m, a), ln) List.mem_cons_self) ln (l.flatMap fun x => caseText I.lflag I.backtrack I.inputName x.2 x.1) w
    obtain ⟨w2, ks, h3, h4, h5⟩ := ih (fun x hx => ha x (List.mem_cons_of_mem _ hx)) w1
    refine ⟨w2, k :: ks, by simp [h3], ?_, ?_⟩
    · rw [List.flatMap_cons, h1, h4]
    · rw [h5, h2]; simp

theorem semantic_cases (hi : Plain I.inputName) (hi0 : I.inputName ≠ []) (l : List ((Nat × List Nat) × Nat)) (hne : l ≠ []) (ha : ∀ x ∈ l, I.lflag = true ∨ NoMark x.1.2)
    (hI : I.actions = l.flatMap fun x => caseText I.lflag I.backtrack I.inputName x.2 x.1) (w : Wr) :
    ∃ ks k, ks.length = l.length ∧ fileText I .code (w.semantic I) = fileText I .code w ++
      (l.zip ks).flatMap (fun y => caseBlock I.lflag I.backtrack I.inputName I.codeName y.1.1.1 y.1.1.2 y.1.2 y.2) ++ directive I.lflag k I.codeName := by
  obtain ⟨w', ks, h1, h2, h3⟩ := copy_cases hi hi0 l ha w
  have hp : placeholder = [35, 108, 105, 110, 101, 32, 49, 32, 34, 34, 10] := by decide
  have e : w.semantic I = w.copyActs I I.actions 10 0 := by
    unfold Wr.semantic
    cases l with
    | nil => exact absurd rfl hne
    | cons x l =>
      have : ∃ r, I.actions = 99 :: r := by
        rw [hI, List.flatMap_cons]
        simp only [caseText]
        rw [show str "case " = 99 :: str "ase " by decide]
        exact ⟨_, rfl⟩
      obtain ⟨r, hr⟩ := this
      rw [hr]
      dsimp only
      rw [Wr.copyActs]
      split
      · rw [if_neg (by rw [hp]; simp)]; rfl
      · rfl
  rw [e, hI, h2]
  refine ⟨ks, w'.outline + 2, h1, ?_⟩
  rw [Wr.copyActs, if_neg (by simp), ft_self, h3]

end Verif.Byacc
