import Verif.Spec.OutStr
import Verif.Proofs.TextDefs
set_option autoImplicit false
namespace Verif.Byacc
open Rd Spec.OutText Spec.YText

/-! The arrays of strings -/

variable {I : TextIn}

theorem cBody_append {a b s t : List Nat} (h1 : CBody a s) (h2 : CBody b t) (hb : ∀ c u, b = c :: u → ¬ Octal c ∧ ∀ d, ¬ HexDigit c d) : CBody (a ++ b) (s ++ t) := by
  induction h1 with
  | nil => exact h2
  | plain c t s x1 x2 x3 _ ih => exact .plain c _ _ x1 x2 x3 ih
  | escape c n t s h _ ih => exact .escape c n _ _ h ih
  | octal ds t s x1 x2 x3 _ ih =>
    have : 92 :: (ds ++ t) ++ b = 92 :: (ds ++ (t ++ b)) := by simp
    rw [this]
    refine .octal ds _ _ x1 x2 ?_ ih
    rcases x3 with x3 | ⟨x3, x4⟩
    · exact .inl x3
    · refine .inr ⟨x3, ?_⟩
      cases t with
      | nil => exact fun c u e => (hb c u e).1
      | cons c u => intro c' u' e; cases e; exact x4 c u rfl
  | hex ds n t s x1 x2 x3 _ ih =>
    have : 92 :: 120 :: (ds ++ t) ++ b = 92 :: 120 :: (ds ++ (t ++ b)) := by simp
    rw [this]
    refine .hex ds n _ _ x1 x2 ?_ ih
    cases t with
    | nil => exact fun c u e => by rintro ⟨d, hd⟩; exact (hb c u e).2 d hd
    | cons c u => intro c' u' e; cases e; exact x3 c u rfl

/-- a text that stands for itself -/
theorem cBody_self (s t : List Nat) (r : List Nat) (h : ∀ c ∈ s, c ≠ 34 ∧ c ≠ 92 ∧ c ≠ 10) (ht : CBody t r) : CBody (s ++ t) (s ++ r) := by
  induction s with
  | nil => exact ht
  | cons c s ih =>
    obtain ⟨h1, h2, h3⟩ := h c (by simp)
    exact .plain c _ _ h1 h2 h3 (ih (fun c hc => h c (by simp [hc])))

theorem nameChar_plain {c : Nat} (h : NameChar c) : c ≠ 34 ∧ c ≠ 92 ∧ c ≠ 10 ∧ c ≠ 39 := by
  unfold NameChar Letter Digit at h
  omega

/-- letters and digits -/
def Tame (c : Nat) : Prop := c ≠ 34 ∧ c ≠ 92 ∧ c ≠ 10 ∧ c ≠ 39

theorem litChar_cases (q c : Nat) :
    ((c = 92 ∨ c = q) ∧ litChar q c = [92, c]) ∨ (c ≠ 92 ∧ c ≠ q ∧ c ≠ 10 ∧ litChar q c = [c]) ∨
      (c ≠ 92 ∧ c ≠ q ∧ ∃ d w, litChar q c = 92 :: d :: w ∧ Tame d ∧ ∀ x ∈ w, Tame x) := by
  unfold litChar
  by_cases h1 : (c == 92 || c == q) = true
  · left
    rw [if_pos h1]
    simp only [Bool.or_eq_true, beq_iff_eq] at h1
    exact ⟨h1, rfl⟩
  · rw [if_neg h1]
    simp only [Bool.or_eq_true, beq_iff_eq, not_or] at h1
    right
    by_cases h2 : isPrint c = true
    · left
      rw [if_pos h2]
      refine ⟨h1.1, h1.2, ?_, rfl⟩
      rintro rfl
      revert h2; decide
    · right
      rw [if_neg h2]
      refine ⟨h1.1, h1.2, ?_⟩
      have k1 : ∀ n : Nat, 92 :: [n] = 92 :: n :: [] := fun _ => rfl
      split
      · exact ⟨97, [], rfl, by unfold Tame; omega, by simp⟩
      split
      · exact ⟨98, [], rfl, by unfold Tame; omega, by simp⟩
      split
      · exact ⟨102, [], rfl, by unfold Tame; omega, by simp⟩
      split
      · exact ⟨110, [], rfl, by unfold Tame; omega, by simp⟩
      split
      · exact ⟨114, [], rfl, by unfold Tame; omega, by simp⟩
      split
      · exact ⟨116, [], rfl, by unfold Tame; omega, by simp⟩
      split
      · exact ⟨118, [], rfl, by unfold Tame; omega, by simp⟩
      · refine ⟨_, _, rfl, by unfold Tame; omega, ?_⟩
        intro x hx
        simp only [List.mem_cons, List.not_mem_nil, or_false] at hx
        rcases hx with rfl | rfl <;> (unfold Tame; omega)

theorem escBody_tame (q : Nat) (hq : q = 39 ∨ q = 34) (w r : List Nat) (h : ∀ x ∈ w, Tame x) : escBody q (w ++ r) = w ++ escBody q r := by
  induction w with
  | nil => rfl
  | cons c w ih =>
    have := h c (by simp)
    unfold Tame at this
    rw [List.cons_append, escBody.eq_def]
    simp only
    rw [if_neg (by omega), if_neg (by omega), ih (fun x hx => h x (by simp [hx]))]
    rfl

theorem escBody_back (q : Nat) (hq : q = 39 ∨ q = 34) (d : Nat) (r : List Nat) :
    escBody q (92 :: d :: r) = [92, 92] ++ (if d = 92 then [92, 92] else [d]) ++ escBody q r := by
  rw [escBody.eq_def]
  simp only
  rw [if_neg (by omega), if_pos trivial]

/-- the characters behind the first quote of a literal -/
theorem escBody_lit (q : Nat) (hq : q = 39 ∨ q = 34) (s r : List Nat) (h : 34 ∉ s) (t u : List Nat) (ht : CBody t u) :
    CBody (escBody q (s.flatMap (litChar q) ++ q :: r) ++ t) (s.flatMap (litChar q) ++ u) := by
  induction s with
  | nil =>
    rw [List.flatMap_nil, List.nil_append, escBody.eq_def]
    simp only
    rw [if_pos trivial]
    exact ht
  | cons c s ih =>
    have ih := ih (fun x => h (by simp [x]))
    have hc : c ≠ 34 := fun e => h (by simp [e])
    rw [List.flatMap_cons, List.append_assoc, List.append_assoc]
    generalize s.flatMap (litChar q) = S at *
    rcases litChar_cases q c with ⟨h1, e⟩ | ⟨h1, h2, h3, e⟩ | ⟨h1, h2, d, w, e, hd, hw⟩
    · rw [e]
      simp only [List.cons_append, List.nil_append]
      rw [escBody_back q hq]
      rcases h1 with rfl | rfl
      · rw [if_pos rfl]
        exact .escape 92 92 _ _ (by decide) (.escape 92 92 _ _ (by decide) ih)
      · have : c = 39 := by omega
        subst this
        rw [if_neg (by omega)]
        exact .escape 92 92 _ _ (by decide) (.plain 39 _ _ (by omega) (by omega) (by omega) ih)
    · rw [e]
      simp only [List.cons_append, List.nil_append]
      rw [escBody.eq_def]
      simp only
      rw [if_neg h2, if_neg h1]
      exact .plain c _ _ hc h1 h3 ih
    · rw [e]
      simp only [List.cons_append]
      rw [escBody_back q hq, if_neg hd.2.1]
      unfold Tame at hd
      refine .escape 92 92 _ _ (by decide) (.plain d _ _ hd.1 hd.2.1 hd.2.2.1 ?_)
      rw [escBody_tame q hq w _ hw]
      change CBody ((w ++ escBody q (S ++ q :: r)) ++ t) _
      rw [List.append_assoc]
      exact cBody_self w _ _ (fun x hx => ⟨(hw x hx).1, (hw x hx).2.1, (hw x hx).2.2.1⟩) ih

/-- The entry for a name is right. -/
def NameOk (n : List Nat) : Prop := SymName n ∧ NoQuote n

theorem litName_eq (s : List Nat) : litName s = (if s.length = 1 then 39 else 34) :: (s.flatMap (litChar (if s.length = 1 then 39 else 34)) ++ [if s.length = 1 then 39 else 34]) := by
  unfold litName
  by_cases h : s.length = 1 <;> simp [h]

theorem nameItem_ok (n : List Nat) (h : NameOk n) : ∃ d, nameItem (some n) = d ++ [44] ∧ CString d n := by
  obtain ⟨h1, h2⟩ := h
  cases h1 with
  | word _ hc =>
    cases n with
    | nil => exact ⟨[34, 34], by decide, [], rfl, .nil⟩
    | cons c n =>
      have k := nameChar_plain (hc c (by simp))
      refine ⟨34 :: ((c :: n) ++ [34]), ?_, c :: n, rfl, ?_⟩
      · unfold nameItem
        split
        · next e => cases e
        · next e => cases e; omega
        · next e => cases e; omega
        · next e => cases e; simp [show str "\"," = [34, 44] by decide]
      · have := cBody_self (c :: n) [] [] (fun x hx => let y := nameChar_plain (hc x hx); ⟨y.1, y.2.1, y.2.2.1⟩) .nil
        simpa using this
  | lit s =>
    have h2 := h2 s rfl
    rw [litName_eq]
    by_cases hl : s.length = 1
    · rw [if_pos hl]
      match s, hl with
      | [c], _ =>
        by_cases hc : c = 34
        · subst hc
          refine ⟨[34, 39, 92, 34, 39, 34], by decide, [39, 92, 34, 39], rfl, ?_⟩
          exact .plain 39 _ _ (by omega) (by omega) (by omega) (.escape 34 34 _ _ (by decide) (.plain 39 _ _ (by omega) (by omega) (by omega) .nil))
        · refine ⟨34 :: (([39] ++ (escBody 39 ([c].flatMap (litChar 39) ++ [39]) ++ [39])) ++ [34]), ?_, _, rfl, ?_⟩
          · unfold nameItem
            simp only
            rw [if_neg]
            · simp [show str "'\"," = [39, 34, 44] by decide, show str "\"'" = [34, 39] by decide]
            · rcases litChar_cases 39 c with ⟨-, e⟩ | ⟨-, -, -, e⟩ | ⟨-, -, d, w, e, -⟩ <;> simp [e, hc]
          · refine cBody_self [39] _ (_ ++ [39]) (by intro x hx; simp at hx; omega) ?_
            exact escBody_lit 39 (.inl rfl) [c] [] (by simpa using fun e => hc e.symm) [39] [39] (.plain 39 _ _ (by omega) (by omega) (by omega) .nil)
    · rw [if_neg hl]
      have hq : 34 ∉ s := by rcases h2 with h2 | h2; exact absurd h2 hl; exact h2
      refine ⟨34 :: ((92 :: 34 :: (escBody 34 (s.flatMap (litChar 34) ++ [34]) ++ [92, 34])) ++ [34]), ?_, _, rfl, ?_⟩
      · unfold nameItem
        simp [show str "\"\\\"" = [34, 92, 34] by decide, show str "\\\"\"," = [92, 34, 34, 44] by decide]
      · refine .escape 34 34 _ _ (by decide) ?_
        exact escBody_lit 34 (.inr rfl) s [] hq [92, 34] [34] (.escape 34 34 _ _ (by decide) .nil)

/-! Quotes inside strings -/

/-- no quote without a backslash -/
def scanQ : List Nat → Bool
  | [] => true
  | 92 :: [] => false
  | 92 :: _ :: t => scanQ t
  | 34 :: _ => false
  | _ :: t => scanQ t

theorem scan_plain (c : Nat) (t : List Nat) (h1 : c ≠ 34) (h2 : c ≠ 92) : scanQ (c :: t) = scanQ t := by
  rw [scanQ.eq_def]
  split
  · next e => cases e
  · next e => cases e; exact absurd rfl h2
  · next e => cases e; exact absurd rfl h2
  · next e => cases e; exact absurd rfl h1
  · next e => cases e; rfl

theorem scan_back (c : Nat) (t : List Nat) : scanQ (92 :: c :: t) = scanQ t := by rw [scanQ]

theorem scan_plains (w t : List Nat) (h : ∀ c ∈ w, c ≠ 34 ∧ c ≠ 92) : scanQ (w ++ t) = scanQ t := by
  induction w with
  | nil => rfl
  | cons c w ih =>
    rw [List.cons_append, scan_plain _ _ (h c (by simp)).1 (h c (by simp)).2, ih (fun x hx => h x (by simp [hx]))]

theorem hex_digits {ds : List Nat} {n : Nat} (h : Hex ds n) : ∀ d ∈ ds, d ≠ 34 ∧ d ≠ 92 := by
  induction h with
  | nil => simp
  | snoc ds n c d _ hd ih =>
    intro x hx
    rcases List.mem_append.1 hx with hx | hx
    · exact ih x hx
    · simp only [List.mem_singleton] at hx
      subst hx
      unfold HexDigit Digit at hd
      omega

theorem cBody_scan {b s : List Nat} (h : CBody b s) : scanQ b = true := by
  induction h with
  | nil => rfl
  | plain c t s h1 h2 _ _ ih => rw [scan_plain _ _ h1 h2]; exact ih
  | escape c n t s _ _ ih => rw [scan_back]; exact ih
  | octal ds t s h1 h2 _ _ ih =>
    cases ds with
    | nil => exact absurd rfl h1
    | cons d ds =>
      rw [List.cons_append, scan_back, scan_plains ds t (fun c hc => by have := h2 c (by simp [hc]); unfold Octal at this; omega)]
      exact ih
  | hex ds n t s _ h2 _ _ ih => rw [scan_back, scan_plains ds t (hex_digits h2)]; exact ih

theorem scan_lit (s t : List Nat) (h : 34 ∈ s) : scanQ (escBody 34 (s.flatMap (litChar 34) ++ [34]) ++ t) = false := by
  induction s with
  | nil => cases h
  | cons c s ih =>
    rw [List.flatMap_cons, List.append_assoc]
    rcases litChar_cases 34 c with ⟨h1, e⟩ | ⟨h1, h2, h3, e⟩ | ⟨h1, h2, d, w, e, hd, hw⟩
    · rw [e]
      simp only [List.cons_append, List.nil_append]
      rw [escBody_back 34 (.inr rfl)]
      rcases h1 with rfl | rfl
      · rw [if_pos rfl]
        have := ih (by rcases List.mem_cons.1 h with h | h; omega; exact h)
        simp only [List.cons_append, List.nil_append]
        rw [scan_back, scan_back]
        exact this
      · rw [if_neg (by omega)]
        simp only [List.cons_append, List.nil_append]
        rw [scan_back]
        rfl
    all_goals
      have ih := ih (by rcases List.mem_cons.1 h with h | h; exact absurd h.symm h2; exact h)
      rw [e]
      simp only [List.cons_append, List.nil_append]
    · rw [escBody.eq_def]
      simp only
      rw [if_neg h2, if_neg h1, List.cons_append, scan_plain _ _ h2 h1]
      exact ih
    · rw [escBody_back 34 (.inr rfl), if_neg hd.2.1, escBody_tame 34 (.inr rfl) w _ hw]
      simp only [List.cons_append, List.nil_append, List.append_assoc]
      rw [scan_back, scan_plain _ _ hd.1 hd.2.1, scan_plains w _ (fun x hx => ⟨(hw x hx).1, (hw x hx).2.1⟩)]
      exact ih

/-- The entry for a string with a quote in it is no string. -/
theorem nameItem_bad (s : List Nat) (hl : s.length ≠ 1) (h : 34 ∈ s) (d n : List Nat) (e : nameItem (some (litName s)) = d ++ [44]) :
    ¬ CString d n := by
  rintro ⟨b, rfl, hb⟩
  rw [litName_eq, if_neg hl] at e
  unfold nameItem at e
  have : (34 :: ((92 :: 34 :: (escBody 34 (s.flatMap (litChar 34) ++ [34]) ++ [92, 34])) ++ [34])) ++ [44] = 34 :: (b ++ [34]) ++ [44] := by
    rw [← e]
    simp [show str "\"\\\"" = [34, 92, 34] by decide, show str "\\\"\"," = [92, 34, 34, 44] by decide]
  have := List.append_cancel_right this
  rw [List.cons.injEq] at this
  have := List.append_cancel_right this.2
  have hb := cBody_scan hb
  rw [← this, scan_back, scan_lit s _ h] at hb
  cases hb

/-! `yyrule` -/

theorem takeWhile_tame (w r : List Nat) (h : ∀ x ∈ w, Tame x) : (w ++ 39 :: r).takeWhile (· != 39) = w := by
  induction w with
  | nil => rfl
  | cons c w ih =>
    have := h c (by simp)
    rw [List.cons_append, List.takeWhile_cons_of_pos (by simpa using this.2.2.2), ih (fun x hx => h x (by simp [hx]))]

theorem ruleItem_ok (n : List Nat) (h : NameOk n) (t r : List Nat) (ht : CBody t r) : CBody (ruleItem n ++ t) (32 :: n ++ r) := by
  obtain ⟨h1, h2⟩ := h
  have h32 : ∀ (a b : List Nat), CBody a b → CBody (32 :: a) (32 :: b) := fun a b h => .plain 32 _ _ (by omega) (by omega) (by omega) h
  have h39 : ∀ (a b : List Nat), CBody a b → CBody (39 :: a) (39 :: b) := fun a b h => .plain 39 _ _ (by omega) (by omega) (by omega) h
  have h92 : ∀ (a b : List Nat), CBody a b → CBody (92 :: 92 :: a) (92 :: b) := fun a b h => .escape 92 92 _ _ (by decide) h
  cases h1 with
  | word _ hc =>
    cases n with
    | nil => exact h32 _ _ ht
    | cons c n =>
      have k := nameChar_plain (hc c (by simp))
      have e : ruleItem (c :: n) = 32 :: c :: n := by
        unfold ruleItem
        split
        · next e => cases e; omega
        · next e => cases e; omega
        · next e => cases e; omega
        · next e => cases e; omega
        · next e => cases e; omega
        · rfl
      rw [e]
      exact h32 _ _ (cBody_self (c :: n) _ _ (fun x hx => let y := nameChar_plain (hc x hx); ⟨y.1, y.2.1, y.2.2.1⟩) ht)
  | lit s =>
    have h2 := h2 s rfl
    rw [litName_eq]
    by_cases hl : s.length = 1
    · rw [if_pos hl]
      match s, hl with
      | [c], _ =>
        rw [List.flatMap_cons, List.flatMap_nil, List.append_nil]
        rcases litChar_cases 39 c with ⟨h1, e⟩ | ⟨h1, h2, h3, e⟩ | ⟨h1, h2, d, w, e, hd, hw⟩
        · rw [e]
          rcases h1 with rfl | rfl
          · exact h32 _ _ (h39 _ _ (h92 _ _ (h92 _ _ (h39 _ _ ht))))
          · exact h32 _ _ (h39 _ _ (h92 _ _ (h39 _ _ (h39 _ _ ht))))
        · rw [e]
          by_cases hc : c = 34
          · subst hc
            exact h32 _ _ (h39 _ _ (.escape 34 34 _ _ (by decide) (h39 _ _ ht)))
          · have e' : ruleItem (39 :: ([c] ++ [39])) = [32, 39, c, 39] := by
              unfold ruleItem
              simp only [List.cons_append, List.nil_append]
              split
              · next e => cases e
              · next e => cases e; omega
              · next e => cases e
              · next e => cases e; omega
              · next e => cases e; rfl
              · next a => exact absurd rfl (a _ _)
            rw [e']
            exact h32 _ _ (h39 _ _ (.plain c _ _ hc h1 h3 (h39 _ _ ht)))
        · rw [e]
          have e' : ruleItem (39 :: (92 :: d :: w ++ [39])) = [32, 39, 92, 92, d] ++ w ++ [39] := by
            unfold ruleItem
            simp only [List.cons_append, List.nil_append]
            unfold Tame at hd
            split
            · next e => cases e
            · next e => cases e
            · next e => cases e; omega
            · next e => cases e; rw [takeWhile_tame w [] hw]; simp [show str " '\\\\" = [32, 39, 92, 92] by decide]
            · next a e => cases e; exact (a _ _ rfl rfl).elim
            · next a => exact (a _ _ rfl).elim
          rw [e']
          simp only [List.cons_append, List.nil_append, List.append_assoc]
          exact h32 _ _ (h39 _ _ (h92 _ _ (.plain d _ _ hd.1 hd.2.1 hd.2.2.1 (cBody_self w _ _ (fun x hx => ⟨(hw x hx).1, (hw x hx).2.1, (hw x hx).2.2.1⟩) (h39 _ _ ht)))))
    · rw [if_neg hl]
      have hq : 34 ∉ s := by rcases h2 with h2 | h2; exact absurd h2 hl; exact h2
      have e : ruleItem (34 :: (s.flatMap (litChar 34) ++ [34])) = 32 :: 92 :: 34 :: (escBody 34 (s.flatMap (litChar 34) ++ [34]) ++ [92, 34]) := by
        unfold ruleItem
        simp [show str " \\\"" = [32, 92, 34] by decide, show str "\\\"" = [92, 34] by decide]
      rw [e]
      refine h32 _ _ (.escape 34 34 _ _ (by decide) ?_)
      have := escBody_lit 34 (.inr rfl) s [] hq ([92, 34] ++ t) ([34] ++ r) (.escape 34 34 _ _ (by decide) ht)
      simpa using this

/-! The arrays -/

/-- the entry of `yyname` is right -/
def ItemOk (s : Option (List Nat)) : Prop := ∃ d, nameItem s = d ++ [44] ∧ StrEntry d s

theorem item_none : ItemOk none := ⟨[48], by decide, rfl⟩

theorem item_name {n : List Nat} (h : NameOk n) : ItemOk (some n) := nameItem_ok n h

theorem item_illegal : ItemOk (some (str "illegal-symbol")) := by
  refine ⟨34 :: (str "illegal-symbol" ++ [34]), by decide, _, rfl, ?_⟩
  have := cBody_self (str "illegal-symbol") [] [] (by decide) .nil
  simpa using this

theorem strList_nl (t : List Nat) (l : List (Option (List Nat))) (h : StrList t l) : StrList ([10] ++ t) l := by
  cases h with
  | nil _ hw => exact .nil _ (by intro c hc; rcases List.mem_append.1 hc with h | h; exact space_nl c h; exact hw c h)
  | cons ws d t v l hw hd ht =>
    rw [show [10] ++ (ws ++ (d ++ 44 :: t)) = ([10] ++ ws) ++ (d ++ 44 :: t) by simp]
    exact .cons _ _ _ _ _ (by intro c hc; rcases List.mem_append.1 hc with h | h; exact space_nl c h; exact hw c h) hd ht

theorem nameItems_text (l : List (Option (List Nat))) (hl : ∀ s ∈ l, ItemOk s) (j : Nat) (w : Wr) :
    ∃ t, outText I (w.nameItems I l j) = outText I w ++ t ∧ ∀ u m, StrList u m → StrList (t ++ u) (l ++ m) := by
  induction l generalizing j w with
  | nil => exact ⟨[], by simp [Wr.nameItems], fun u m h => h⟩
  | cons v l ih =>
    obtain ⟨d, h2, h3⟩ := hl v (by simp)
    have ih := ih (fun s hs => hl s (by simp [hs]))
    unfold Wr.nameItems
    dsimp only
    split
    · obtain ⟨t, e, f⟩ := ih (nameItem v).length ((w.newline I).put I.out (nameItem v))
      refine ⟨[10] ++ (d ++ 44 :: t), ?_, ?_⟩
      · rw [e, outText_put, outText_newline, h2]; simp
      · intro u m hu
        rw [show [10] ++ (d ++ 44 :: t) ++ u = [10] ++ (d ++ 44 :: (t ++ u)) by simp]
        exact .cons _ _ _ _ _ space_nl h3 (f u m hu)
    · obtain ⟨t, e, f⟩ := ih (j + (nameItem v).length) (w.put I.out (nameItem v))
      refine ⟨d ++ 44 :: t, ?_, ?_⟩
      · rw [e, outText_put, h2]; simp
      · intro u m hu
        rw [show d ++ 44 :: t ++ u = [] ++ (d ++ 44 :: (t ++ u)) by simp]
        exact .cons _ _ _ _ _ (by simp) h3 (f u m hu)

/-- what a rule looks like in `yyrule` -/
def ruleName (names : List (List Nat)) (r : Nat × List Nat) : List Nat := ruleText (names.getD r.1 []) (r.2.map fun X => names.getD X [])

theorem ruleName_eq (names : List (List Nat)) (r : Nat × List Nat) :
    ruleName names r = names.getD r.1 [] ++ [32, 58] ++ r.2.flatMap (fun X => 32 :: names.getD X []) := by
  unfold ruleName ruleText
  rw [List.flatMap_map]
  rfl

theorem rule_body (names : List (List Nat)) (l : List Nat) (h : ∀ X ∈ l, NameOk (names.getD X [])) :
    CBody (l.flatMap (fun X => ruleItem (names.getD X []))) (l.flatMap (fun X => 32 :: names.getD X [])) := by
  induction l with
  | nil => exact .nil
  | cons X l ih =>
    rw [List.flatMap_cons, List.flatMap_cons]
    exact ruleItem_ok _ (h X (by simp)) _ _ (ih (fun Y hY => h Y (by simp [hY])))

theorem rule_entry (r : Nat × List Nat) (h1 : ∀ c ∈ I.names.getD r.1 [], NameChar c) (h2 : ∀ X ∈ r.2, NameOk (I.names.getD X [])) (w : Wr) :
    ∃ d, outText I (w.rule I r) = outText I w ++ (d ++ 44 :: [10]) ∧ StrEntry d (some (ruleName I.names r)) := by
  refine ⟨34 :: ((I.names.getD r.1 [] ++ ([32, 58] ++ r.2.flatMap (fun X => ruleItem (I.names.getD X [])))) ++ [34]), ?_, _, rfl, ?_⟩
  · unfold Wr.rule
    rw [outText_newline, outText_put]
    simp [show str " :" = [32, 58] by decide, show str "\"," = [34, 44] by decide]
  · rw [ruleName_eq, List.append_assoc]
    exact cBody_self _ _ _ (fun x hx => let y := nameChar_plain (h1 x hx); ⟨y.1, y.2.1, y.2.2.1⟩)
      (cBody_self [32, 58] _ _ (by intro x hx; simp at hx; omega) (rule_body _ _ h2))

theorem rules_text (l : List (Nat × List Nat)) (h1 : ∀ r ∈ l, ∀ c ∈ I.names.getD r.1 [], NameChar c)
    (h2 : ∀ r ∈ l, ∀ X ∈ r.2, NameOk (I.names.getD X [])) (w : Wr) :
    ∃ t, outText I (l.foldl (Wr.rule I) w) = outText I w ++ t ∧
      ∀ u m, StrList u m → StrList (t ++ u) (l.map (fun r => some (ruleName I.names r)) ++ m) := by
  induction l generalizing w with
  | nil => exact ⟨[], by simp, fun u m h => h⟩
  | cons r l ih =>
    obtain ⟨d, e, hd⟩ := rule_entry r (h1 r (by simp)) (h2 r (by simp)) w
    obtain ⟨t, e', f⟩ := ih (fun r hr => h1 r (by simp [hr])) (fun r hr => h2 r (by simp [hr])) (w.rule I r)
    refine ⟨d ++ 44 :: ([10] ++ t), ?_, ?_⟩
    · rw [List.foldl_cons, e', e]; simp
    · intro u m hu
      rw [show d ++ 44 :: ([10] ++ t) ++ u = [] ++ (d ++ 44 :: ([10] ++ (t ++ u))) by simp]
      exact .cons _ _ _ _ _ (by simp) hd (strList_nl _ _ (f u m hu))

theorem startStr_text (w : Wr) (name : String) : outText I (w.startStr I name) =
    outText I w ++ (if !I.rflag then txt "static " else []) ++ txt "const char *const " ++ (I.pfx ++ txt name) ++ txt "[] = {\n" := by
  unfold Wr.startStr
  rw [outText_newline, outText_put]
  have hs : I.static = if !I.rflag then txt "static " else [] := by
    unfold TextIn.static; cases I.rflag <;> rfl
  rw [hs, show txt "[] = {\n" = str "[] = {" ++ [10] by decide]
  simp only [List.append_assoc]
  rfl

theorem hasStrArray {w w1 w' : Wr} (name : String) (l : List (Option (List Nat))) (hs : LineStart (outText I w))
    (h1 : ∃ t, outText I w1 = outText I (w.startStr I name) ++ t ∧ ∀ u m, StrList u m → StrList (t ++ u) (l ++ m)) (hg : Grow (w1.endTable I) w') :
    HasStrArray (outText I w') (!I.rflag) (I.pfx ++ txt name) l := by
  obtain ⟨t, e, f⟩ := h1
  obtain ⟨b, eb⟩ := grow_outText (I := I) hg
  refine ⟨outText I w, t ++ [10], b, ?_, hs, ?_⟩
  · rw [eb]
    unfold Wr.endTable
    rw [outText_line, outText_newline, e, startStr_text, show txt "};\n" = txt "};" ++ [10] by decide]
    simp only [List.append_assoc]
  · have := f [10] [] (.nil _ space_nl)
    simpa using this

end Verif.Byacc
