import Verif.Proofs.ByaccWords
import Verif.Proofs.ByaccLines
/-
C78: byacc reads the words of a grammar file as they are written.

The reader's functions are compared with the relations of `Verif/Spec/ByaccText.lean`, in both directions: a function
gives a word and the text behind it exactly if the word is written there.
-/
set_option autoImplicit false
namespace Verif.Byacc
open Rd Spec.YText

/-- C78: the lines of the file are numbered one after the other; a `#line` directive sets the number and the file
name of the next line and is left out.  (What an unfinished directive does is part of the specification, see
`C78_line_directive_violated`.) -/
theorem C78_lines (file text : List Nat) (out : List NLine) :
    (linesOf file text).map nline = out ↔ ∃ ls, Splits text ls ∧ ReadLines 0 file ls out :=
  linesOf_iff file text out

example : (linesOf (txt "g.y") (txt "a\n # line 7 \"x.y\"\nb\nc")).map nline =
    [⟨txt "a\n", 1, txt "g.y"⟩, ⟨txt "b\n", 7, txt "x.y"⟩, ⟨txt "c\n", 8, txt "x.y"⟩] := by decide

/-- C78: without directives the text is read unchanged, except for a missing newline at its end, and the lines
are numbered from 1. -/
theorem C78_lines_plain (file text : List Nat) (h : ¬ [35] <:+: text) :
    (linesOf file text).flatMap Line.text = (if text = [] ∨ text.getLast? = some 10 then text else text ++ [10]) ∧
    ∀ (i : Nat) (l : Line), (linesOf file text)[i]? = some l → l.lineno = (i : Int) + 1 ∧ l.file = file := by
  obtain ⟨ls, h1, h2⟩ := (C78_lines file text _).1 rfl
  have hno : ∀ l, 35 ∉ l → (∀ k g, ¬ LineDirective l k g) ∧ (∀ k, ¬ HalfDirective l k) := by
    intro l hl
    constructor
    · rintro k g ⟨a, b, c, ds, d, rest, rfl, -⟩
      exact hl (by simp)
    · rintro k ⟨a, b, c, ds, d, rest, rfl, -⟩
      exact hl (by simp)
  have h35 : 35 ∉ text := by
    intro hm; apply h
    obtain ⟨a, b, rfl⟩ := List.append_of_mem hm
    exact ⟨a, b, by simp⟩
  have key : ∀ (t : List Nat) (ls : List (List Nat)) (n : Int) (f : List Nat) (out : List NLine), Splits t ls → ReadLines n f ls out → 35 ∉ t →
      out.flatMap NLine.text = (if t = [] ∨ t.getLast? = some 10 then t else t ++ [10]) ∧
      ∀ (i : Nat) l, out[i]? = some l → l.number = n + i + 1 ∧ l.file = f := by
    intro t ls n f out hs
    induction hs generalizing n f out with
    | nil =>
      intro hr _
      cases hr
      simp
    | line l t ls hl hs ih =>
      intro hr hmem
      have hl35 : 35 ∉ l ++ [10] := by simp at hmem ⊢; exact hmem.1
      cases hr with
      | directive _ _ _ _ _ k g hd => exact absurd hd ((hno _ hl35).1 k g)
      | half _ _ _ _ _ k hd => exact absurd hd ((hno _ hl35).2 k)
      | line _ _ _ _ out _ _ hr =>
        obtain ⟨i1, i2⟩ := ih _ _ _ hr (by simp at hmem; exact hmem.2)
        constructor
        · simp only [List.flatMap_cons, i1]
          have e : (l ++ 10 :: t = [] ∨ (l ++ 10 :: t).getLast? = some 10) ↔ (t = [] ∨ t.getLast? = some 10) := by
            rw [List.getLast?_append, List.getLast?_cons]
            cases t with
            | nil => simp
            | cons c t => simp [List.getLast?_cons]
          by_cases ht : t = [] ∨ t.getLast? = some 10
          · rw [if_pos ht, if_pos (e.2 ht)]; simp
          · rw [if_neg ht, if_neg (fun h => ht (e.1 h))]; simp
        · intro i x hx
          cases i with
          | zero => simp at hx; subst hx; simp
          | succ i =>
            rw [List.getElem?_cons_succ] at hx
            have := i2 i x hx
            refine ⟨?_, this.2⟩
            rw [this.1]; push_cast; omega
    | last l hl hne =>
      intro hr hmem
      have hl35 : 35 ∉ l ++ [10] := by simp; exact hmem
      cases hr with
      | directive _ _ _ _ _ k g hd => exact absurd hd ((hno _ hl35).1 k g)
      | half _ _ _ _ _ k hd => exact absurd hd ((hno _ hl35).2 k)
      | line _ _ _ _ out _ _ hr =>
        cases hr
        constructor
        · rw [if_neg]
          · simp
          · rintro (h | h)
            · exact hne h
            · exact hl (List.mem_of_getLast? h)
        · intro i x hx
          cases i with
          | zero => simp at hx; subst hx; simp
          | succ i => simp at hx
  obtain ⟨k1, k2⟩ := key text ls 0 file _ h1 h2 h35
  constructor
  · rw [← k1, List.flatMap_map]; rfl
  · intro i l hl
    have := k2 i (nline l) (by rw [List.getElem?_map, hl]; rfl)
    simpa [nline] using this

example : (linesOf (txt "g.y") (txt "a\nb")).flatMap Line.text = txt "a\nb\n" ∧ ¬ [35] <:+: txt "a\nb" := by decide

/-- C78: white space and comments are skipped, and nothing else. -/
theorem C78_space (t u : List Nat) : nextc t = .ok u ↔ Skips t u := nextc_iff t u

/-- C78: the only way to fail is a comment that is not closed; the message shows where it starts. -/
theorem C78_space_error (t : List Nat) (e : Stop) (h : nextc t = .error e) :
    ∃ pre rest, t = pre ++ 47 :: 42 :: rest ∧ ¬ [42, 47] <:+: rest ∧ e = .error .unterminatedComment (47 :: 42 :: rest) :=
  nextc_error t e h

example : nextc (txt " /* a * / */ // b\n\t%token") = .ok (txt "%token") := by decide
example : nextc (txt " /* a */ /*/ b") = .error (.error .unterminatedComment (txt "/*/ b")) := by decide

/-- C78: keywords: the longest word of letters, digits and `-_.$`, whatever its case, `_` and `-` being the same; or one of the
signs that can follow `%`. -/
theorem C78_keyword (t u : List Nat) (k : Kw) (ht : ∃ c r, Percent c ∧ t = c :: r) : keyword t = .ok (k, u) ↔ KwAt k t u :=
  keyword_iff t u k ht

example : keyword (txt "%Expect_RR 3") = .ok (.EXPECT_RR, txt " 3") := by decide
example : KwAt .TOKEN (txt "%TOKEN<x>") (txt "<x>") :=
  (C78_keyword _ _ _ ⟨37, _, .inl rfl, rfl⟩).1 (by decide)

/-- C78: names. -/
theorem C78_name (t n u : List Nat) (ht : ∃ c r, t = c :: r ∧ NameFirst c) : getName t = .ok (n, u) ↔ NameAt n t u ∧ ¬ Reserved n :=
  getName_iff t n u ht

example : getName (txt "expr.1_$x+2") = .ok (txt "expr.1_$x", txt "+2") := by decide
example : Reserved (txt "$$12") := .inr (.inr (.inr ⟨txt "12", by decide, by intro d hd; simp [txt] at hd; unfold Digit; omega, rfl⟩))

/-- C78: numbers, up to the greatest `int`. -/
theorem C78_number (t : List Nat) (n : Nat) (u : List Nat) (ht : ∃ c r, t = c :: r ∧ Digit c) :
    getNumber t = .ok (n, u) ↔ NumberAt n t u ∧ n ≤ 2147483647 :=
  getNumber_iff t n u ht

example : getNumber (txt "258 b") = .ok (258, txt " b") := by decide

/-- C78: literals: the escapes of C, octal and hexadecimal numbers. -/
theorem C78_literal (t s u : List Nat) (ht : ∃ c r, t = c :: r ∧ (c = 39 ∨ c = 34)) :
    getLiteral t = .ok (s, u) ↔ LiteralAt s t u :=
  getLiteral_iff t s u ht

example : getLiteral (txt "'\\n' x") = .ok ([10], txt " x") := by decide
example : getLiteral (txt "\"\\x41\\0019\\'\\\"\" x") = .ok (txt "A" ++ [1] ++ txt "9'\"", txt " x") := by decide

/-- C78: the name under which byacc keeps a literal (and prints it in the report, see C60) is read as the same literal. -/
theorem C78_literal_roundtrip (s u : List Nat) (hs : ∀ c ∈ s, c < 256) : getLiteral (litName s ++ u) = .ok (s, u) := by
  have hq : ∀ q, (q = 39 ∨ q = 34) → LitBody q s (s.flatMap (litChar q) ++ q :: u) u := by
    intro q hq
    induction s with
    | nil => exact .close u
    | cons c s ih =>
      have hr := ih (fun c hc => hs c (by simp [hc]))
      have hc := hs c (by simp)
      simp only [List.flatMap_cons, List.append_assoc]
      have hesc : ∀ n, (q, n) ∉ escapes := by
        intro n
        rw [escapes_iff]
        rcases hq with rfl | rfl <;> omega
      have hesc' : ∀ n, (92, n) ∉ escapes := by
        intro n
        rw [escapes_iff]; omega
      generalize s.flatMap (litChar q) ++ q :: u = v at hr ⊢
      unfold litChar
      by_cases h1 : c = 92 ∨ c = q
      · rw [if_pos (by simpa using h1)]
        rcases h1 with rfl | rfl
        · exact .other 92 s _ u (by decide) (by unfold Octal; omega) (by decide) hesc' hr
        · exact .other c s _ u (by omega) (by unfold Octal; omega) (by omega) hesc hr
      · rw [if_neg (by simpa using h1)]
        push Not at h1
        by_cases h2 : isPrint c = true
        · rw [if_pos h2]
          have : c ≠ 10 := by rintro rfl; revert h2; decide
          exact .plain c s _ u h1.2 this h1.1 hr
        · rw [if_neg h2]
          have hl : ∀ a n, (a, n) ∈ escapes → LitBody q (n :: s) (92 :: [a] ++ v) u :=
            fun a n h => .letter a n s _ u h hr
          by_cases e7 : c = 7
          · subst e7; exact hl 97 7 (by decide)
          by_cases e8 : c = 8
          · subst e8; exact hl 98 8 (by decide)
          by_cases e12 : c = 12
          · subst e12; exact hl 102 12 (by decide)
          by_cases e10 : c = 10
          · subst e10; exact hl 110 10 (by decide)
          by_cases e13 : c = 13
          · subst e13; exact hl 114 13 (by decide)
          by_cases e9 : c = 9
          · subst e9; exact hl 116 9 (by decide)
          by_cases e11 : c = 11
          · subst e11; exact hl 118 11 (by decide)
          simp only [beq_iff_eq, e7, e8, e12, e10, e13, e9, e11, if_false]
          refine .octal [(c / 64) % 8 + 48, (c / 8) % 8 + 48, c % 8 + 48] c s _ u (by simp) ?_ (.inl rfl) ?_ (by omega) hr
          · intro d hd
            simp only [List.mem_cons, List.not_mem_nil, or_false] at hd
            unfold Octal; omega
          · simp only [List.foldl_cons, List.foldl_nil]; omega
  unfold litName
  simp only
  generalize hqe : (if s.length == 1 then 39 else 34) = q
  have hq' : q = 39 ∨ q = 34 := by rw [← hqe]; split <;> simp
  rw [C78_literal _ _ _ ⟨q, _, by simp; rfl, hq'⟩]
  exact ⟨q, _, hq', by simp; rfl, by simpa using hq q hq'⟩

example : litName [10, 200] = txt "\"\\n\\310\"" := by decide

/-- C78: tags. -/
theorem C78_tag (t tag u : List Nat) (ht : ∃ r, t = 60 :: r) : getTag t = .ok (tag, u) ↔ TagAt tag t u :=
  getTag_iff t tag u ht

example : getTag (txt "< /* type */ val > x") = .ok (txt "val", txt " x") := by decide

/-- C78: what is not a tag gets a message: a comment is not closed, the file ends, or the tag is
illegal, and then the message shows where it starts. -/
theorem C78_tag_error (r : List Nat) (e : Stop) (h : getTag (60 :: r) = .error e) :
    (∃ rest, e = .error .unterminatedComment (47 :: 42 :: rest)) ∨
    (∃ v, (v = [] ∨ ∃ w, v = 255 :: w) ∧ e = .error .unexpectedEOF v) ∨ e = .error .illegalTag (60 :: r) := by
  have hend : ∀ v, peek v = none → v = [] ∨ ∃ w, v = 255 :: w := by
    intro v hv
    cases v with
    | nil => exact .inl rfl
    | cons c w =>
      simp only [peek] at hv
      split at hv
      · rename_i hc; exact .inr ⟨w, by rw [eq_of_beq hc]⟩
      · split at hv <;> cases hv
  unfold getTag at h
  cases h1 : nextc ((60 :: r).drop 1) with
  | error e' =>
    rw [h1] at h
    obtain ⟨-, rest, -, -, rfl⟩ := C78_space_error _ _ h1
    exact .inl ⟨rest, (Except.error.inj h).symm⟩
  | ok u =>
    rw [h1] at h
    simp only [Bind.bind, Except.bind] at h
    cases hp : peek u with
    | none =>
      simp only [hp] at h
      exact .inr (.inl ⟨u, hend u hp, (Except.error.inj h).symm⟩)
    | some c =>
      simp only [hp] at h
      split at h
      · exact .inr (.inr (Except.error.inj h).symm)
      · cases h2 : nextc ((u.drop 1).dropWhile isIdent) with
        | error e' =>
          rw [h2] at h
          obtain ⟨-, rest, -, -, rfl⟩ := C78_space_error _ _ h2
          exact .inl ⟨rest, (Except.error.inj h).symm⟩
        | ok v =>
          rw [h2] at h
          simp only at h
          cases hq : peek v with
          | none =>
            simp only [hq] at h
            exact .inr (.inl ⟨v, hend v hq, (Except.error.inj h).symm⟩)
          | some d =>
            simp only [hq] at h
            split at h
            · exact .inr (.inr (Except.error.inj h).symm)
            · cases h

example : getTag (txt "<a b> x") = .error (.error .illegalTag (txt "<a b> x")) ∧
    getTag (txt "<3> x") = .error (.error .illegalTag (txt "<3> x")) ∧ getTag (txt "<a") = .error (.error .unexpectedEOF []) := by decide

/-- C78: at every place at most one word is written: names, numbers, literals, tags and keywords, and the text behind them, are
determined by the text. -/
theorem C78_unique (t : List Nat) :
    (∀ n u n' u', NameAt n t u → NameAt n' t u' → n = n' ∧ u = u') ∧
    (∀ n u n' u', NumberAt n t u → NumberAt n' t u' → n = n' ∧ u = u') ∧
    (∀ s u s' u', LiteralAt s t u → LiteralAt s' t u' → s = s' ∧ u = u') ∧
    (∀ s u s' u', TagAt s t u → TagAt s' t u' → s = s' ∧ u = u') ∧
    (∀ k u k' u', KwAt k t u → KwAt k' t u' → k = k' ∧ u = u') ∧
    (∀ u u', Skips t u → Skips t u' → u = u') := by
  have inj : ∀ {α : Type} {x : R α} {a b : α}, x = .ok a → x = .ok b → a = b := by
    intro α x a b h1 h2; rw [h1] at h2; exact Except.ok.inj h2
  refine ⟨?_, ?_, ?_, ?_, ?_, ?_⟩
  · rintro n u n' u' ⟨h1, h2, -, h3⟩ ⟨h1', h2', -, h3'⟩
    have e1 := (span_iff isIdent NameChar isIdent_iff t n u).2 ⟨h1, h2, h3⟩
    have e2 := (span_iff isIdent NameChar isIdent_iff t n' u').2 ⟨h1', h2', h3'⟩
    exact ⟨e1.1.symm.trans e2.1, e1.2.symm.trans e2.2⟩
  · rintro n u n' u' ⟨ds, -, h2, h1, h3, rfl⟩ ⟨ds', -, h2', h1', h3', rfl⟩
    have e1 := (span_iff isDigit Digit isDigit_iff t ds u).2 ⟨h1, h2, h3⟩
    have e2 := (span_iff isDigit Digit isDigit_iff t ds' u').2 ⟨h1', h2', h3'⟩
    exact ⟨by rw [← e1.1, ← e2.1], e1.2.symm.trans e2.2⟩
  · intro s u s' u' h h'
    have ht : ∃ c r, t = c :: r ∧ (c = 39 ∨ c = 34) := by
      obtain ⟨q, r, hq, h, -⟩ := h; exact ⟨q, r, h, hq⟩
    exact Prod.mk.inj (inj ((C78_literal t s u ht).2 h) ((C78_literal t s' u' ht).2 h'))
  · intro s u s' u' h h'
    have ht : ∃ r, t = 60 :: r := by
      obtain ⟨t1, -, -, h, -⟩ := h; exact ⟨t1, h⟩
    exact Prod.mk.inj (inj ((C78_tag t s u ht).2 h) ((C78_tag t s' u' ht).2 h'))
  · intro s u s' u' h h'
    have ht : ∃ c r, Percent c ∧ t = c :: r := by
      obtain ⟨p, w, h1, h2, -⟩ := h; exact ⟨p, _, h1, h2⟩
    exact Prod.mk.inj (inj ((C78_keyword t u s ht).2 h) ((C78_keyword t u' s' ht).2 h'))
  · intro u u' h h'
    exact inj ((C78_space t u).2 h) ((C78_space t u').2 h')

/-- C78 violated: the pattern for `#line` directives (byacc/reader.c:118-124) allows one without a file name.  Such a directive
sets the line number, but is then read as part of the grammar, which is a syntax error.  With a file name
the same file is accepted. -/
theorem C78_line_directive_violated :
    (linesOf (txt "g.y") (txt "#line 5\n%token A\n")).map nline = [⟨txt "#line 5\n", 4, txt "g.y"⟩, ⟨txt "%token A\n", 5, txt "g.y"⟩] ∧
    readText ((linesOf (txt "g.y") (txt "#line 5\n%token A\n%%\ns:A;\n")).flatMap Line.text) =
      .error (.error .syntaxError (txt "#line 5\n%token A\n%%\ns:A;\n")) ∧
    (readText ((linesOf (txt "g.y") (txt "#line 5 \"g.y\"\n%token A\n%%\ns:A;\n")).flatMap Line.text)).isOk = true := by
  refine ⟨by decide, by decide +kernel, by decide +kernel⟩

/-- C78 violated: what follows a `#line` directive on its line is dropped without a message, here a declaration. -/
theorem C78_line_rest_violated :
    (linesOf (txt "g.y") (txt "#line 5 \"g.y\" %token A\n%%\n")).map nline = [⟨txt "%%\n", 5, txt "g.y"⟩] := by decide

/-- C78 violated: a byte 255 ends the file (`char` is signed, so it is `EOF`): the rules behind it are dropped without a
message. -/
theorem C78_byte_255_violated :
    (readText (txt "%token A\n%%\ns:A;\n" ++ 255 :: txt "t:s s;\nu:t")).map (fun s => (s.rd.plhs.length, s.d.syms.length)) = .ok (1, 3) ∧
    (readText (txt "%token A\n%%\ns:A;\n")).map (fun s => (s.rd.plhs.length, s.d.syms.length)) = .ok (1, 3) ∧
    (readText (txt "%token A\n%%\ns:A;\n" ++ txt "t:s s;\nu:t")).map (fun s => (s.rd.plhs.length, s.d.syms.length)) = .ok (3, 5) := by
  refine ⟨by decide +kernel, by decide +kernel, by decide +kernel⟩

end Verif.Byacc
