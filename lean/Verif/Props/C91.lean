import Verif.Spec.OutBlock
import Verif.Props.C87
import Verif.Props.C80
/-
C91: `%code` blocks.
-/
set_option autoImplicit false
namespace Verif.Byacc
open Rd Spec.OutText Spec.YText

theorem skipLine_iff (t rest : List Nat) : skipLineBlanks t = rest ↔ ∃ ws, t = ws ++ rest ∧ SkippedIn ws rest := by
  induction t with
  | nil =>
    unfold skipLineBlanks
    constructor
    · rintro rfl
      exact ⟨[], rfl, .inr ⟨by simp, by simp⟩⟩
    · rintro ⟨ws, e, -⟩
      simp at e; exact e.2.symm
  | cons c t ih =>
    unfold skipLineBlanks
    by_cases h1 : c = 10
    · rw [if_pos h1]
      subst h1
      constructor
      · rintro rfl
        exact ⟨[10], rfl, .inl ⟨[], rfl, by simp⟩⟩
      · rintro ⟨ws, e, ⟨s, rfl, hs⟩ | ⟨hw, hr⟩⟩
        · cases s with
          | nil => simpa using e
          | cons a s =>
            simp only [List.cons_append, List.cons.injEq] at e
            exact absurd e.1.symm (hs a (by simp)).2
        · cases ws with
          | nil => exact absurd (by unfold Space; omega) (hr 10 t e.symm)
          | cons a ws =>
            simp only [List.cons_append, List.cons.injEq] at e
            exact absurd e.1.symm (hw a (by simp)).2
    · rw [if_neg h1]
      by_cases h2 : isSpace c = true
      · rw [if_pos h2, ih]
        have hc : Space c := (isSpace_iff c).1 h2
        constructor
        · rintro ⟨ws, rfl, ⟨s, rfl, hs⟩ | ⟨hw, hr⟩⟩
          · exact ⟨c :: s ++ [10], by simp, .inl ⟨c :: s, rfl, by intro x hx; rcases List.mem_cons.1 hx with rfl | hx; exact ⟨hc, h1⟩; exact hs x hx⟩⟩
          · exact ⟨c :: ws, rfl, .inr ⟨by intro x hx; rcases List.mem_cons.1 hx with rfl | hx; exact ⟨hc, h1⟩; exact hw x hx, hr⟩⟩
        · rintro ⟨ws, e, ⟨s, rfl, hs⟩ | ⟨hw, hr⟩⟩
          · cases s with
            | nil => simp at e; exact absurd e.1 h1
            | cons a s =>
              simp only [List.cons_append, List.cons.injEq, List.append_assoc] at e
              exact ⟨s ++ [10], by simp [e.2], .inl ⟨s, rfl, fun x hx => hs x (by simp [hx])⟩⟩
          · cases ws with
            | nil => exact absurd hc (hr c t e.symm)
            | cons a ws =>
              simp only [List.cons_append, List.cons.injEq] at e
              exact ⟨ws, e.2, .inr ⟨fun x hx => hw x (by simp [hx]), hr⟩⟩
      · rw [if_neg h2]
        have hc : ¬ Space c := fun h => h2 ((isSpace_iff c).2 h)
        constructor
        · rintro rfl
          exact ⟨[], rfl, .inr ⟨by simp, by intro x r e; cases e; exact hc⟩⟩
        · rintro ⟨ws, e, ⟨s, rfl, hs⟩ | ⟨hw, hr⟩⟩
          · cases s with
            | nil => simp at e; exact absurd e.1 h1
            | cons a s =>
              simp only [List.cons_append, List.cons.injEq, List.append_assoc] at e
              exact absurd (e.1 ▸ (hs a (by simp)).1) hc
          · cases ws with
            | nil => exact e
            | cons a ws =>
              simp only [List.cons_append, List.cons.injEq] at e
              exact absurd (e.1 ▸ (hw a (by simp)).1) hc

/-- the number of characters counted on the last line -/
def onLine (on : Nat) (body : List Nat) : Nat := body.foldl (fun k c => if c = 10 then 1 else k + 1) on

theorem blockGo_iff (t : List Nat) : ∀ (d on n : Nat) (out : List Nat) (b : CodeBlock) (r : List Nat),
    blockGo t (d + 1) on n out = some (b, r) ↔ ∃ body, t = body ++ 125 :: r ∧
      ((∀ p s, body = p ++ s → p.count 125 ≤ p.count 123 + d) ∧ body.count 125 = body.count 123 + d) ∧
      b = (if onLine on body > 1 then ⟨out ++ body ++ [10], n + body.count 10 + 1⟩ else ⟨out ++ body, n + body.count 10⟩) := by
  induction t with
  | nil => intro d on n out b r; simp [blockGo]
  | cons c t ih =>
    intro d on n out b r
    have step : ∀ (d' on' n' : Nat), c ≠ 125 ∨ d ≠ 0 →
        (d' + (if c = 125 then 1 else 0) = d + (if c = 123 then 1 else 0)) → on' = (if c = 10 then 1 else on + 1) → n' = n + (if c = 10 then 1 else 0) →
        (blockGo t (d' + 1) on' n' (out ++ [c]) = some (b, r) ↔ ∃ body, c :: t = body ++ 125 :: r ∧
      ((∀ p s, body = p ++ s → p.count 125 ≤ p.count 123 + d) ∧ body.count 125 = body.count 123 + d) ∧
      b = (if onLine on body > 1 then ⟨out ++ body ++ [10], n + body.count 10 + 1⟩ else ⟨out ++ body, n + body.count 10⟩)) := by
      intro d' on' n' hcd hd hon hn
      rw [ih]
      constructor
      · rintro ⟨body, rfl, ⟨hp, hb⟩, rfl⟩
        refine ⟨c :: body, rfl, ⟨?_, ?_⟩, ?_⟩
        · intro p s e
          cases p with
          | nil => simp
          | cons a p =>
            simp only [List.cons_append, List.cons.injEq] at e
            have := hp p s e.2
            rw [← e.1, List.count_cons, List.count_cons]
            simp only [beq_iff_eq]
            omega
        · rw [List.count_cons, List.count_cons]
          simp only [beq_iff_eq]
          omega
        · have h1 : onLine on (c :: body) = onLine on' body := by rw [hon]; rfl
          have h2 : n + (c :: body).count 10 = n' + body.count 10 := by
            rw [List.count_cons, hn]; simp only [beq_iff_eq]; omega
          rw [h1, h2, show out ++ c :: body = out ++ [c] ++ body by simp]
      · rintro ⟨body, e, ⟨hp, hb⟩, rfl⟩
        cases body with
        | nil =>
          simp at e hb
          omega
        | cons a body =>
          simp only [List.cons_append, List.cons.injEq] at e
          obtain ⟨rfl, rfl⟩ := e
          refine ⟨body, rfl, ⟨?_, ?_⟩, ?_⟩
          · intro p s e
            have := hp (c :: p) s (by rw [e]; rfl)
            rw [List.count_cons, List.count_cons] at this
            simp only [beq_iff_eq] at this
            omega
          · rw [List.count_cons, List.count_cons] at hb
            simp only [beq_iff_eq] at hb
            omega
          · have h1 : onLine on (c :: body) = onLine on' body := by rw [hon]; rfl
            have h2 : n + (c :: body).count 10 = n' + body.count 10 := by
              rw [List.count_cons, hn]; simp only [beq_iff_eq]; omega
            rw [h1, h2, show out ++ c :: body = out ++ [c] ++ body by simp]
    unfold blockGo
    by_cases h1 : c = 10
    · rw [if_pos h1]
      exact step d 1 (n + 1) (.inl (by omega)) (by rw [if_neg (by omega), if_neg (by omega)]) (by rw [if_pos h1]) (by rw [if_pos h1])
    · rw [if_neg h1]
      by_cases h2 : c = 123
      · rw [if_pos h2]
        exact step (d + 1) (on + 1) n (.inl (by omega)) (by rw [if_neg (by omega), if_pos h2]) (by rw [if_neg h1]) (by rw [if_neg h1]; rfl)
      · rw [if_neg h2]
        by_cases h3 : c = 125
        · rw [if_pos h3]
          cases d with
          | zero =>
            rw [if_pos rfl]
            subst h3
            constructor
            · intro e
              rw [Option.some_inj, Prod.mk.injEq] at e
              obtain ⟨e1, rfl⟩ := e
              refine ⟨[], rfl, ⟨by intro p s e; simp at e; simp [e.1], rfl⟩, ?_⟩
              rw [← e1]
              simp [onLine]
            · rintro ⟨body, e, ⟨hp, hb⟩, rfl⟩
              cases body with
              | nil =>
                simp only [List.nil_append, List.cons.injEq, true_and] at e
                subst e
                simp [onLine]
              | cons a body =>
                simp only [List.cons_append, List.cons.injEq] at e
                obtain ⟨rfl, rfl⟩ := e
                have := hp [125] body rfl
                simp at this
          | succ d =>
            rw [if_neg (by omega)]
            exact step d (on + 1) n (.inr (by omega)) (by rw [if_pos h3, if_neg h2]) (by rw [if_neg h1]) (by rw [if_neg h1]; rfl)
        · rw [if_neg h3]
          exact step d (on + 1) n (.inl h3) (by rw [if_neg h3, if_neg h2]) (by rw [if_neg h1]) (by rw [if_neg h1]; rfl)

theorem onLine_iff (body : List Nat) : (onLine 0 body > 1 ↔ (10 ∈ body ∧ body.getLast? ≠ some 10) ∨ (10 ∉ body ∧ 1 < body.length)) := by
  induction body using List.reverseRecOn with
  | nil => simp [onLine]
  | append_singleton l c ih =>
    have e : onLine 0 (l ++ [c]) = if c = 10 then 1 else onLine 0 l + 1 := by unfold onLine; rw [List.foldl_append]; rfl
    have h0 : 0 < onLine 0 l ↔ l ≠ [] := by
      cases l using List.reverseRecOn with
      | nil => simp [onLine]
      | append_singleton l d => unfold onLine; rw [List.foldl_append]; simp; split <;> omega
    rw [e]
    by_cases hc : c = 10
    · subst hc; simp
    · rw [if_neg hc]
      have : onLine 0 l + 1 > 1 ↔ l ≠ [] := by rw [← h0]; omega
      rw [this]
      have hl : l ≠ [] ↔ 1 < (l ++ [c]).length := by
        rw [List.length_append, List.length_singleton]
        have := List.length_pos_iff (l := l)
        rw [← this]; omega
      simp only [List.getLast?_concat, Option.some_inj, List.mem_append, List.mem_singleton]
      by_cases hm : 10 ∈ l
      · have : l ≠ [] := List.ne_nil_of_mem hm
        simp [hm, this, hc]
      · have : ¬ 10 = c := fun h => hc h.symm
        simp only [hm, this, or_self, false_and, not_false_eq_true, true_and, false_or]
        exact hl

/-- What is read of a block: the text up to the brace that closes it, without the white space at its front; in front of it a directive, behind it
a newline, unless it ends with one or has only one character; it is appended to the blocks of the same kind before it. -/
theorem C91_text (lflag : Bool) (lineno : Nat) (name : List Nat) (old : Option CodeBlock) (t : List Nat) (b : CodeBlock) (r : List Nat) :
    readBlock lflag lineno name old t = some (b, r) ↔ ∃ ws body nl, t = ws ++ (body ++ 125 :: r) ∧ SkippedIn ws (body ++ 125 :: r) ∧ Matching body ∧
      b.lines = (old.elim [] CodeBlock.lines) ++ (if lflag then [] else lineText lineno name) ++ body ++ nl ∧
      b.num = (old.elim 0 CodeBlock.num) + 1 + (body ++ nl).count 10 ∧
      nl = if (10 ∈ body ∧ body.getLast? ≠ some 10) ∨ (10 ∉ body ∧ 1 < body.length) then [10] else [] := by
  have hl : (old.getD ⟨[], 0⟩).lines = old.elim [] CodeBlock.lines ∧ (old.getD ⟨[], 0⟩).num = old.elim 0 CodeBlock.num := by cases old <;> exact ⟨rfl, rfl⟩
  unfold readBlock
  dsimp only
  rw [hl.1, hl.2, blockGo_iff _ 0]
  constructor
  · rintro ⟨body, e, hm, rfl⟩
    obtain ⟨ws, e1, e2⟩ := (skipLine_iff t _).1 e
    refine ⟨ws, body, _, e1, e2, hm, ?_, ?_, rfl⟩
    · split
      · next h => rw [if_pos ((onLine_iff body).1 h)]
      · next h => rw [if_neg (fun h' => h ((onLine_iff body).2 h'))]; simp
    · split
      · next h => rw [if_pos ((onLine_iff body).1 h)]; simp; omega
      · next h => rw [if_neg (fun h' => h ((onLine_iff body).2 h'))]; simp
  · rintro ⟨ws, body, nl, e1, e2, hm, h1, h2, rfl⟩
    refine ⟨body, (skipLine_iff t _).2 ⟨ws, e1, e2⟩, hm, ?_⟩
    obtain ⟨bl, bn⟩ := b
    dsimp only at h1 h2
    split
    · next h =>
      rw [if_pos ((onLine_iff body).1 h)] at h1 h2
      rw [h1, h2]
      simp; omega
    · next h =>
      rw [if_neg (fun h' => h ((onLine_iff body).2 h'))] at h1 h2
      rw [h1, h2]
      simp

/-- If code stands on the line of the opening brace, then the directive gives every part of the text the line that it is on in the grammar file. -/
theorem C91_line_partial (lineno : Nat) (name : List Nat) (old : Option CodeBlock) (t : List Nat) (b : CodeBlock) (r : List Nat)
    (h : readBlock false lineno name old t = some (b, r)) (hc : ∀ s u, t = s ++ 10 :: u → ∃ c ∈ s, ¬ Space c) :
    ∃ ws body nl, t = ws ++ body ++ 125 :: r ∧ b.lines = old.elim [] CodeBlock.lines ++ lineText lineno name ++ body ++ nl ∧
      ∀ p s, body = p ++ s → lineno + p.count 10 = lineno + (ws ++ p).count 10 := by
  obtain ⟨ws, body, nl, e, hs, -, hl, -, -⟩ := (C91_text _ _ _ _ _ _ _).1 h
  refine ⟨ws, body, nl, by simpa using e, by simpa using hl, ?_⟩
  have hw : 10 ∉ ws := by
    rcases hs with ⟨s, rfl, hs⟩ | ⟨hs, -⟩
    · obtain ⟨c, hm, hn⟩ := hc s (body ++ 125 :: r) (by simpa using e)
      exact absurd (hs c hm).1 hn
    · exact fun hm => (hs 10 hm).2 rfl
  intro p s _
  rw [List.count_append, List.count_eq_zero_of_not_mem hw, Nat.zero_add]

/-- If nothing else stands behind the opening brace on its line, then the line that the directive gives to any part of the text is one less than
the line that it is on. -/
theorem C91_line_violated (lineno : Nat) (name : List Nat) (old : Option CodeBlock) (s t : List Nat) (hs : ∀ c ∈ s, Space c ∧ c ≠ 10) (b : CodeBlock) (r : List Nat)
    (h : readBlock false lineno name old (s ++ 10 :: t) = some (b, r)) :
    ∃ body nl, t = body ++ 125 :: r ∧ b.lines = old.elim [] CodeBlock.lines ++ lineText lineno name ++ body ++ nl ∧
      ∀ p q, body = p ++ q → lineno + p.count 10 + 1 = lineno + (s ++ 10 :: p).count 10 := by
  have hk : skipLineBlanks (s ++ 10 :: t) = t := (skipLine_iff _ _).2 ⟨s ++ [10], by simp, .inl ⟨s, rfl, hs⟩⟩
  obtain ⟨ws, body, nl, e, hw, -, hl, -, -⟩ := (C91_text _ _ _ _ _ _ _).1 h
  have hk' := (skipLine_iff _ _).2 ⟨ws, e, hw⟩
  rw [hk] at hk'
  refine ⟨body, nl, hk', by simpa using hl, ?_⟩
  intro p q _
  have : 10 ∉ s := fun hm => (hs 10 hm).2 rfl
  rw [List.count_append, List.count_eq_zero_of_not_mem this, List.count_cons]
  simp; omega

/-- What follows a block in the output starts on a new line, unless the block has only one character. -/
theorem C91_apart_partial (lineno : Nat) (name : List Nat) (old : Option CodeBlock) (t : List Nat) (b : CodeBlock) (r : List Nat)
    (h : readBlock false lineno name old t = some (b, r)) (h1 : ∀ ws c, t ≠ ws ++ [c] ++ 125 :: r ∨ ∃ x ∈ ws, ¬ Space x) :
    LineStart b.lines := by
  obtain ⟨ws, body, nl, e, hs, -, hl, -, hn⟩ := (C91_text _ _ _ _ _ _ _).1 h
  rw [hl, hn, if_neg (by simp)]
  right
  have hw : ∀ x ∈ ws, Space x := by
    intro x hx
    rcases hs with ⟨s, rfl, hs⟩ | ⟨hs, -⟩
    · rcases List.mem_append.1 hx with hx | hx
      · exact (hs x hx).1
      · simp at hx; subst hx; exact .inr (by omega)
    · exact (hs x hx).1
  have hlt : ∀ p : List Nat, (p ++ lineText lineno name).getLast? = some 10 := by
    intro p
    have : lineText lineno name = str "#line " ++ decDigits lineno ++ str " \"" ++ name ++ [34] ++ [10] := by
      unfold lineText; simp [str]
    rw [this, ← List.append_assoc, List.getLast?_concat]
  by_cases hb : body = []
  · subst hb
    simp only [List.not_mem_nil, false_and, not_false_eq_true, true_and, List.length_nil, Nat.not_lt_zero, or_self, if_false, List.append_nil]
    exact hlt _
  · by_cases hc : (10 ∈ body ∧ body.getLast? ≠ some 10) ∨ (10 ∉ body ∧ 1 < body.length)
    · rw [if_pos hc, List.getLast?_concat]
    · rw [if_neg hc, List.append_nil, List.getLast?_append_of_ne_nil _ hb]
      by_cases hm : 10 ∈ body
      · by_contra hx
        exact hc (.inl ⟨hm, hx⟩)
      · have : body.length = 1 := by
          have := List.length_pos_iff.2 hb
          by_contra hx
          exact hc (.inr ⟨hm, by omega⟩)
        obtain ⟨c, rfl⟩ := List.length_eq_one_iff.1 this
        rcases h1 ws c with h | ⟨x, hx, hn⟩
        · exact absurd (by simpa using e) h
        · exact absurd (hw x hx) hn

/-- After a block of one character the directive of the next block of this kind is on the same line, where it is no directive. -/
theorem C91_apart_violated : ∃ t u b c, readBlock false 3 (txt "g.y") none t = some (b, txt "\n") ∧
    readBlock false 4 (txt "g.y") (some b) u = some (c, txt "\n") ∧
    c.lines = txt "#line 3 \"g.y\"\n;#line 4 \"g.y\"\nint b; \n" :=
  ⟨txt " ;}\n", txt " int b; }\n", ⟨txt "#line 3 \"g.y\"\n;", 1⟩, ⟨txt "#line 3 \"g.y\"\n;#line 4 \"g.y\"\nint b; \n", 3⟩,
    by decide +kernel, by decide +kernel, rfl⟩

/-- A brace in a C string or a comment counts like any other: the block ends in the middle of the string. -/
theorem C91_brace_violated : ∃ t b, readBlock false 3 (txt "g.y") none t = some (b, txt "\"; }\n") ∧ t = txt " char *s = \"}\"; }\n" ∧
    b.lines = txt "#line 3 \"g.y\"\nchar *s = \"\n" :=
  ⟨txt " char *s = \"}\"; }\n", ⟨txt "#line 3 \"g.y\"\nchar *s = \"\n", 2⟩, by decide +kernel, rfl, rfl⟩

/-- With `-l` one line more than it has is counted for every block. -/
theorem C91_count_violated (lineno : Nat) (name : List Nat) (old : Option CodeBlock) (t : List Nat) (b : CodeBlock) (r : List Nat)
    (h : readBlock true lineno name old t = some (b, r)) :
    b.num + (old.elim [] CodeBlock.lines).count 10 = b.lines.count 10 + 1 + old.elim 0 CodeBlock.num := by
  obtain ⟨ws, body, nl, -, -, -, hl, hn, -⟩ := (C91_text _ _ _ _ _ _ _).1 h
  rw [hl, hn]
  simp only [if_true, List.append_nil, List.count_append]
  omega

example : readBlock false 3 (txt "g.y") none (txt " if (a) { b(); }\nc(); }\n") = some (⟨txt "#line 3 \"g.y\"\nif (a) { b(); }\nc(); \n", 3⟩, txt "\n") := by decide +kernel
example : readBlock false 3 (txt "g.y") none (txt "\nint a;\n}\n") = some (⟨txt "#line 3 \"g.y\"\nint a;\n", 2⟩, txt "\n") := by decide +kernel
example : readBlock true 3 (txt "g.y") none (txt "\nint a;\n}\n") = some (⟨txt "int a;\n", 2⟩, txt "\n") := by decide +kernel

end Verif.Byacc
