import Verif.Proofs.LemonTextAll
/-
Lemmas: line numbers in the C file made by lemon.
-/
set_option autoImplicit false
namespace Verif.Lemon.LT
open Verif.Spec.LText
open Verif.Spec.GFile (text directive)

variable {I : LText} {u v w : LW} {d : Int} {k : Nat}

/-- line numbers are right but for `d`, and the lines of the template that follow are not too long -/
structure IR (I : LText) (d : Int) (k : Nat) (w : LW) : Prop where
  inv : Inv I d k w
  rest : LinesOK w.rest

theorem IR.part {t : List Nat} (h : IR I d k u) (a : Adds u t w) (hi : Inv I d k w) : IR I d k w := ⟨hi, by rw [a.rest]; exact h.rest⟩

theorem IR.xfer (H : OneLine I) (h : IR I d k u) : IR I d k (u.xfer I) := by
  obtain ⟨h1, h2⟩ := inv_xferGo (I.s.args .name) (fun n e => H.args .name (by simp) n e) u.rest h.rest h.inv
  exact ⟨h1, h2⟩

theorem ir_print (H : OneLine I) {prev : Option Nat} (hp : prev = none ∨ prev = some 10) (str : Option (List Nat)) (h : IR I d k u) : IR I d k (u.print I prev str) := by
  cases str with
  | none => exact h
  | some c =>
    obtain ⟨t, _, a⟩ := adds_print (I := I) (u := u) prev hp c
    exact h.part a (inv_print H.outname hp _ h.inv)

theorem ir_back (H : OneLine I) (HT : Translated I) (h : IR I d k u) : IR I d k (u.back I) := by
  unfold LW.back
  dsimp only
  have h1 := h.xfer H
  have h2 := (h1.part adds_defines (inv_constants (inv_defines H h1.inv))).xfer H
  generalize LW.xfer I (LW.constants I (LW.defines I (LW.xfer I u))) = w2 at h2 ⊢
  obtain ⟨_, _, a3⟩ := adds_tables (I := I) (u := w2)
  have h3 := (h2.part a3 (inv_tables h2.inv)).xfer H
  generalize LW.xfer I (LW.tables I w2) = w3 at h3 ⊢
  have h4 := (h3.part adds_fallbacks (inv_fallbacks H h3.inv)).xfer H
  generalize LW.xfer I (LW.fallbacks I w3) = w4 at h4 ⊢
  have h5 := (h4.part adds_symNames (inv_symNames H h4.inv)).xfer H
  generalize LW.xfer I (LW.symNames I w4) = w5 at h5 ⊢
  have h6 := (h5.part adds_ruleNames (inv_ruleNames H h5.inv)).xfer H
  generalize LW.xfer I (LW.ruleNames I w5) = w6 at h6 ⊢
  have h7 := (h6.part adds_destructors (inv_destructors H h6.inv)).xfer H
  generalize LW.xfer I (LW.destructors I w6) = w7 at h7 ⊢
  have h8 := (ir_print H (.inl rfl) (I.s.args .stackOverflow) h7).xfer H
  generalize LW.xfer I (LW.print I none (I.s.args .stackOverflow) w7) = w8 at h8 ⊢
  have h9 := (h8.part adds_ruleLhs (inv_ruleLhs H h8.inv)).xfer H
  generalize LW.xfer I (LW.ruleLhs I w8) = w9 at h9 ⊢
  have h10 := (h9.part adds_ruleNRhs (inv_ruleNRhs H h9.inv)).xfer H
  generalize LW.xfer I (LW.ruleNRhs I w9) = w10 at h10 ⊢
  have h11 := (h10.part adds_actions (inv_actions H HT h10.inv)).xfer H
  generalize LW.xfer I (LW.actions I w10) = w11 at h11 ⊢
  have h12 := (ir_print H (.inl rfl) (I.s.args .parseFailure) h11).xfer H
  have h13 := (ir_print H (.inl rfl) (I.s.args .syntaxError) h12).xfer H
  have h14 := (ir_print H (.inl rfl) (I.s.args .parseAccept) h13).xfer H
  exact ir_print H (.inl rfl) (I.s.args .code) h14

theorem head_splitOnP (p : List Nat → Bool) (ls : List (List Nat)) : (ls.splitOnP p).getD 0 [] = ls.takeWhile fun l => !p l := by
  induction ls with
  | nil => simp
  | cons l ls ih =>
    rw [List.splitOnP_cons, List.takeWhile_cons]
    by_cases h : p l = true
    · simp [h]
    · have hne := List.splitOnP_ne_nil p ls
      rcases hs : ls.splitOnP p with _ | ⟨a, L⟩
      · exact absurd hs hne
      · rw [hs] at ih
        simp at ih
        simp [h, ih]

/-- the number of lines in the first section -/
theorem first_section {t : List Nat} {ls : List (List Nat)} (h : TemplateOK t ls) :
    ((templateLines t).takeWhile fun l => !isMark l).length = ((sections ls).getD 0 []).length := by
  unfold sections
  rw [head_splitOnP, templateLines_ok h]
  have : ∀ ls : List (List Nat), (List.takeWhile (fun l => !isMark l) (ls.map (· ++ [10]))) = (ls.takeWhile fun l => ![37, 37].isPrefixOf l).map (· ++ [10]) := by
    intro ls
    induction ls with
    | nil => rfl
    | cons l ls ih =>
      rw [List.map_cons, List.takeWhile_cons, List.takeWhile_cons, isMark_line, ih]
      split <;> simp
  rw [this, List.length_map]

/-- how far off the line numbers are in front of the macros for tokens -/
def skipped (I : LText) (ls : List (List Nat)) : Int := if I.incl.head? = some 47 then ((sections ls).getD 0 []).length else 0

theorem lines_last {l : List (List Nat)} (h : l ≠ []) : (lines l).getLast? = some 10 := by
  rcases List.eq_nil_or_concat l with rfl | ⟨l, x, rfl⟩
  · exact absurd rfl h
  · simp [lines, List.getLast?_append]

theorem ir_front (H : OneLine I) {ls : List (List Nat)} (h : TemplateOK I.template ls) : IR I (skipped I ls) 0 ((LW.mk [] 1 (templateLines I.template) false).front I) := by
  have h0 : Inv I 0 0 ((LW.mk [] 1 (templateLines I.template) false).header I) := by
    refine ⟨⟨?_, ?_⟩, ?_⟩
    · simp only [LW.header, LW.put, List.nil_append, bytes_text, lineAfter]
      rw [C49_lines _ _ H.filename H.defs H.used]
      omega
    · intro a n b e
      exfalso
      simp only [LW.header, LW.put, List.nil_append] at e
      rcases a with _ | ⟨x, a⟩ <;> simp at e
    · simp only [LW.header, LW.put, List.nil_append, bytes_text]
      right
      rw [header_lines _ _ H.used]
      exact lines_last (by simp [headerLines])
  have hr : ((LW.mk [] 1 (templateLines I.template) false).header I).rest = templateLines I.template := rfl
  have h1 : IR I (skipped I ls) 0 (if I.incl.head? = some 47 then ((LW.mk [] 1 (templateLines I.template) false).header I).skip else ((LW.mk [] 1 (templateLines I.template) false).header I).xfer I) := by
    unfold skipped
    split
    · obtain ⟨a, b⟩ := skipGo_spec (templateLines I.template) (linesOK_template h) h0 rfl (by intro n hn; simp [LW.header, LW.put] at hn)
      rw [first_section h, Int.zero_add] at a
      exact ⟨a, b⟩
    · exact IR.xfer H ⟨h0, by rw [hr]; exact linesOK_template h⟩
  have h2 := ir_print H (prevIncl (blankLines ((I.s.args .incl).getD []))) (some I.incl) h1
  unfold LW.front
  apply IR.xfer H
  unfold LW.includes
  dsimp only
  split
  · refine h2.part (adds_line _) (inv_line _ ?_ h2.inv.toMid)
    nl
    exact H.incName
  · exact h2

/-- without `-m` the line `#ifndef` is not counted -/
theorem ir_tokens (H : OneLine I) (h : IR I d 0 u) : IR I (if I.mhflag then d else d - 1) (u.code.length + 1) (u.tokens I) ∧
    ∃ x, (u.tokens I).code = u.code ++ .text (tokenIf I ++ [10]) :: x := by
  have hk : Inv I d (u.code.length + 1) u := ⟨⟨h.inv.off, fun a n b e _ => h.inv.selfs a n b e (Nat.zero_le _)⟩, h.inv.start⟩
  have hn : 10 ∉ tokenIf I := by
    unfold tokenIf
    split
    · decide
    · rw [text_cstr]
      have h1 : 10 ∉ arg I .tokenPrefix "" := nn_prefix H
      have h2 : 10 ∉ symbolName I 1 := nn_symName H 1
      have h3 : 10 ∉ cstr "#ifndef " := by decide
      simp [h1, h2, h3]
  have h1 : Inv I (if I.mhflag then d else d - 1) (u.code.length + 1) (if I.mhflag then u.line (tokenIf I) else u.put (tokenIf I ++ [10])) := by
    split
    · exact inv_line _ hn hk.toMid
    · refine ⟨⟨?_, ?_⟩, ?_⟩
      · have := hk.off
        simp only [LW.put, bytes_append, bytes_text, lineAfter, List.count_append, List.count_eq_zero_of_not_mem hn] at this ⊢
        simp
        omega
      · intro a n b e hl
        exfalso
        simp only [LW.put] at e
        have := congrArg List.length e
        simp at this
        have hb : b = [] := List.eq_nil_of_length_eq_zero (by omega)
        subst hb
        have := congrArg List.getLast? e
        simp at this
      · simp only [LW.put, bytes_append, bytes_text]
        exact lineStart_snoc _ _
  have hx : ∃ x, (if I.mhflag then u.line (tokenIf I) else u.put (tokenIf I ++ [10])).code = u.code ++ .text (tokenIf I ++ [10]) :: x := by
    split <;> exact ⟨[], rfl⟩
  refine ⟨⟨?_, by rw [(adds_tokens (I := I)).rest]; exact h.rest⟩, ?_⟩
  · have e : u.tokens I = ((if I.mhflag then u.line (tokenIf I) else u.put (tokenIf I ++ [10])).defineTokens I ((List.range I.s.nterminal).drop 1)).line (cstr "#endif") := by
      unfold LW.tokens tokenIf
      simp only [text_cstr]
      split <;> rfl
    rw [e]
    exact inv_line _ (by decide) (inv_defineTokens H _ h1).toMid
  · rw [tokens_run]
    obtain ⟨x, e⟩ := hx
    obtain ⟨⟨y, e2, -⟩, -⟩ := adds_runL (u := if I.mhflag then u.line (tokenIf I) else u.put (tokenIf I ++ [10])) (tokenLines I)
    exact ⟨x ++ y, by rw [e2, e]; simp⟩

/-- what is behind is added -/
theorem back_grow (w : LW) : ∃ x, (w.back I).code = w.code ++ x := by
  obtain ⟨_, _, _, _, _, _, _, _, _, _, _, _, h⟩ := reads_back (I := I) (reads_start (I := I) w w.rest rfl)
  obtain ⟨⟨x, e, -⟩, -⟩ := h
  exact ⟨x, e⟩

theorem noBlank_unique {t r r' : List Nat} (h : NoBlank t r) (h' : NoBlank t r') : r = r' := by
  have key : ∀ {b b' r r' : List Nat}, b ++ r = b' ++ r' → (∀ c ∈ b', isSpace c) → (b' = [] ∨ b'.getLast? = some 10) →
      (∀ ws x, r = ws ++ 10 :: x → ¬ ∀ c ∈ ws, isSpace c) → b.length ≤ b'.length → r = r' := by
    intro b b' r r' e hs hl hr hlen
    obtain ⟨a, rfl⟩ := List.prefix_of_prefix_length_le (show b <+: b' ++ r' from ⟨r, e⟩) (List.prefix_append b' r') hlen
    rw [List.append_assoc] at e
    have e := List.append_cancel_left e
    rcases List.eq_nil_or_concat a with rfl | ⟨a, x, rfl⟩
    · simpa using e
    · exfalso
      have hx : x = 10 := by
        rcases hl with hl | hl
        · simp at hl
        · simpa using hl
      subst hx
      exact hr a r' (by rw [e]; simp) (fun c hc => hs c (by simp [hc]))
  obtain ⟨b, e, h1, h2, h3⟩ := h
  obtain ⟨b', e', h1', h2', h3'⟩ := h'
  rcases Nat.le_total b.length b'.length with hl | hl
  · exact key (e.symm.trans e') h1' h2' h3 hl
  · exact (key (e'.symm.trans e) h1 h2 h3' hl).symm

end Verif.Lemon.LT
