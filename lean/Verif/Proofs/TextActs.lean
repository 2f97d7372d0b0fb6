import Verif.Proofs.TextAll
set_option autoImplicit false
namespace Verif.Byacc
open Rd Spec.OutText Spec.YText

/-! The copy of the actions, and lines that are not counted right -/

variable {I : TextIn}

/-- the pieces with the directives as they were in the action file -/
def restore (l : List Piece) : List Nat := l.flatMap (fun p => match p with | .text t => t | .self _ => placeholder)

theorem restore_append (a b : List Piece) : restore (a ++ b) = restore a ++ restore b := by simp [restore]

theorem putcCode_code (w : Wr) (c : Nat) : (w.putcCode .code c).code = w.code ++ [.text [c]] := by
  unfold Wr.putcCode Wr.bumpIf
  split <;> rfl

theorem putcs_code (w : Wr) (t : List Nat) : (w.putcs .code t).code = w.code ++ t.map (fun c => .text [c]) := by
  induction t generalizing w with
  | nil => simp [Wr.putcs]
  | cons c t ih =>
    have := ih (w.putcCode .code c)
    simp only [Wr.putcs, List.foldl_cons] at *
    rw [this, putcCode_code]; simp

theorem restore_texts (t : List Nat) : restore (t.map (fun c => .text [c])) = t := by
  induction t with
  | nil => rfl
  | cons c t ih => rw [List.map_cons, ← List.singleton_append, restore_append, ih]; rfl

theorem lineno_code (w : Wr) (hl : I.lflag = false) : (w.codeLineno I .code).code = w.code ++ [.self (w.outline + 2)] := by
  simp [Wr.codeLineno, hl]

theorem take_snoc {st c : Nat} (h : placeholder[st]? = some c) : placeholder.take (st + 1) = placeholder.take st ++ [c] := by
  obtain ⟨h1, h2⟩ := List.getElem?_eq_some_iff.1 h
  rw [List.take_succ, h]; rfl

theorem placeholder_inner {st : Nat} (h1 : st + 1 ≠ placeholder.length) (h2 : placeholder[st]? = some 10) : False := by
  have hp : placeholder = [35, 108, 105, 110, 101, 32, 49, 32, 34, 34, 10] := by decide
  rw [hp] at h1 h2
  match st, h1, h2 with
  | 0, _, h2 => simp at h2
  | 1, _, h2 => simp at h2
  | 2, _, h2 => simp at h2
  | 3, _, h2 => simp at h2
  | 4, _, h2 => simp at h2
  | 5, _, h2 => simp at h2
  | 6, _, h2 => simp at h2
  | 7, _, h2 => simp at h2
  | 8, _, h2 => simp at h2
  | 9, _, h2 => simp at h2
  | 10, h1, _ => simp at h1
  | n + 11, _, h2 => simp at h2

/-- The actions are copied; the last thing written is a directive. -/
theorem copyActs_copy (h : TextOk I) (hl : I.lflag = false) (t : List Nat) (last st : Nat) (w : Wr)
    (hw : (last = 10 ∨ 0 < st) → LineStart (bytes I.codeName w.code)) (hend : (last :: t).getLast? = some 10)
    (hst : 0 < st → last ≠ 10) :
    ∃ w1 l, ExtW I w w1 ∧ w.copyActs I t last st = w1.codeLineno I .code ∧ w1.code = w.code ++ l ∧
      restore l = placeholder.take st ++ t := by
  induction t generalizing last st w with
  | nil =>
    have e : last = 10 := by simpa using hend
    have : st = 0 := by
      rcases Nat.eq_zero_or_pos st with x | x
      · exact x
      · exact absurd e (hst x)
    subst this
    unfold Wr.copyActs
    refine ⟨w, [], ExtW.refl w, ?_, by simp, by simp [restore]⟩
    rw [if_neg (by simpa using e)]
  | cons c t ih =>
    have hend' : (c :: t).getLast? = some 10 := by simpa using hend
    unfold Wr.copyActs
    split
    · next e =>
      simp only [Bool.and_eq_true, Bool.or_eq_true, decide_eq_true_eq] at e
      have hw' := hw e.2
      split
      · next hc =>
        split
        · next hlen =>
          obtain ⟨w1, l, h1, h2, h3, h4⟩ := ih c 0 (w.codeLineno I .code) (fun _ => lineStart_lineno w hw') hend' (by simp)
          refine ⟨w1, .self (w.outline + 2) :: l, (ext_codeLineno h.codeName .code w (fun _ => hw')).trans h1, h2, ?_, ?_⟩
          · rw [h3, lineno_code w hl]; simp
          · rw [← List.singleton_append, restore_append, h4]
            have : restore [.self (w.outline + 2)] = placeholder := rfl
            rw [this, List.take_zero, List.nil_append]
            conv_lhs => rw [← List.take_length (l := placeholder), ← hlen, take_snoc hc]
            simp
        · next hlen =>
          obtain ⟨w1, l, h1, h2, h3, h4⟩ := ih c (st + 1) w (fun _ => hw') hend' (fun _ x => placeholder_inner hlen (x ▸ hc))
          exact ⟨w1, l, h1, h2, h3, by rw [h4, take_snoc hc]; simp⟩
      · obtain ⟨w1, l, h1, h2, h3, h4⟩ := ih c 0 ((w.putcs .code (placeholder.take st)).putcCode .code c)
          (fun x => by
            rcases x with x | x
            · exact putcs_lineStart w _ c x
            · omega) hend' (by simp)
        refine ⟨w1, (placeholder.take st).map (fun c => .text [c]) ++ .text [c] :: l, ((ext_putcs _ _ w).trans (ext_putcCode _ _ _)).trans h1, h2, ?_, ?_⟩
        · rw [h3, putcCode_code, putcs_code]; simp
        · rw [restore_append, restore_texts, ← List.singleton_append, restore_append, h4]
          have : restore [.text [c]] = [c] := rfl
          rw [this]; simp
    · next e =>
      simp only [Bool.and_eq_true, Bool.or_eq_true, decide_eq_true_eq, hl, Bool.not_false, true_and, not_or] at e
      have hz : st = 0 := by omega
      subst hz
      obtain ⟨w1, l, h1, h2, h3, h4⟩ := ih c 0 (w.putcCode .code c)
        (fun x => by
          rcases x with x | x
          · subst x; exact lineStart_putc _
          · omega) hend' (by simp)
      refine ⟨w1, .text [c] :: l, (ext_putcCode _ _ _).trans h1, h2, ?_, ?_⟩
      · rw [h3, putcCode_code]; simp
      · rw [← List.singleton_append, restore_append, h4]
        have : restore [.text [c]] = [c] := rfl
        rw [this]; simp

theorem semantic_copy (h : TextOk I) (hl : I.lflag = false) (he : I.actions.getLast? = some 10) (w : Wr) :
    ∃ w1 l, ExtW I w w1 ∧ w.semantic I = w1.codeLineno I .code ∧ w1.code = w.code ++ l ∧ restore l = I.actions := by
  unfold Wr.semantic
  cases e : I.actions with
  | nil => rw [e] at he; cases he
  | cons c t =>
    rw [e] at he
    obtain ⟨w1, l, h1, h2, h3, h4⟩ := copyActs_copy h hl t c 0 (w.putcCode .code c)
      (fun x => by
        rcases x with x | x
        · subst x; exact lineStart_putc _
        · omega) he (by simp)
    refine ⟨w1, .text [c] :: l, (ext_putcCode _ _ _).trans h1, h2, ?_, ?_⟩
    · rw [h3, putcCode_code]; simp
    · rw [← List.singleton_append, restore_append, h4]
      have : restore [.text [c]] = [c] := rfl
      rw [this]; simp

/-- If lines were miscounted before the end, the directive behind the actions is wrong. -/
theorem finish_wrong (h : TextOk I) (hl : I.lflag = false) (he : I.actions.getLast? = some 10) (w : Wr)
    (hw : w.outline ≠ nl I.codeName w.code) : ¬ SelfRight I.codeName (w.finish I).code := by
  intro hs
  obtain ⟨-, -, -, -, -, -, -, -, -, -, s11, s12⟩ := skel_ok h
  unfold Wr.finish at hs
  have h1 : ExtW I w (w.section .code I.skel.body3) := ext_section _ _ _ s11
  obtain ⟨w1, l, h2, h3, -, -⟩ := semantic_copy h hl he (w.section .code I.skel.body3)
  obtain ⟨l1, c1, o1, -⟩ := h1.trans h2
  rw [h3] at hs
  obtain ⟨l2, c2, -⟩ := ext_section (I := I) .code I.skel.trailer (w1.codeLineno I .code) s12
  rw [c2, lineno_code w1 hl, List.append_assoc] at hs
  obtain ⟨-, h5⟩ := hs w1.code (w1.outline + 2) l2 (by simp)
  have : w1.outline + 2 = nl I.codeName w1.code + 1 + 1 := by
    rw [h5]
    unfold lineAfter
    rw [bytes_append, List.count_append]
    have : (bytes I.codeName [Piece.self (w1.outline + 2)]).count 10 = 1 := by
      simp [bytes, Piece.bytes, count_lineText h.codeName]
    rw [this]; rfl
  rw [c1, nl_append, o1 hl] at this
  omega

/-! A file of declarations -/

/-- nothing is written to the code file, and lines are counted -/
def Miscount (w w' : Wr) : Prop := w'.code = w.code ∧ w.outline ≤ w'.outline

theorem Miscount.refl (w : Wr) : Miscount w w := ⟨rfl, Nat.le_refl _⟩
theorem Miscount.trans {w1 w2 w3 : Wr} (h1 : Miscount w1 w2) (h2 : Miscount w2 w3) : Miscount w1 w3 :=
  ⟨h2.1.trans h1.1, Nat.le_trans h1.2 h2.2⟩

theorem mis_count (t : List Nat) (w : Wr) : Miscount w ((w.countLine I .ext).put .ext t) := by
  unfold Wr.countLine
  split
  · exact ⟨rfl, by simp [Wr.put, Wr.bump]⟩
  · exact ⟨rfl, by simp [Wr.put]⟩

theorem mis_define (p n : List Nat) (w : Wr) : Miscount w (w.definePrefixed I .ext p n) :=
  (((mis_count _ w).trans (mis_count _ _)).trans (mis_count _ _)).trans (mis_count _ _)

theorem mis_putc (c : Nat) (w : Wr) : Miscount w (w.putcCode .ext c) := by
  unfold Wr.putcCode Wr.bumpIf
  split <;> exact ⟨rfl, by simp [Wr.put]⟩

theorem mis_putl (s : List Nat) (w : Wr) : Miscount w (w.putlCode .ext s) := ⟨rfl, by simp [Wr.putlCode, Wr.bumpIf, Wr.put]⟩

theorem mis_foldl {α : Type} (g : Wr → α → Wr) (l : List α) (h : ∀ w x, Miscount w (g w x)) (w : Wr) : Miscount w (l.foldl g w) := by
  induction l generalizing w with
  | nil => exact Miscount.refl w
  | cons x l ih => exact (h w x).trans (ih _)

theorem prefix_miscount (hr : I.rflag = false) (w : Wr) : (w.prefix I .ext).code = w.code ∧ w.outline < (w.prefix I .ext).outline := by
  have h : Miscount w (match I.symbolPrefix with
    | none => w
    | some p =>
      let w := ["yyparse", "yylex", "yyerror", "yychar", "yyval", "yylval", "yydebug", "yynerrs", "yyerrflag", "yylhs", "yylen",
        "yydefred", "yystos", "yydgoto", "yysindex", "yyrindex", "yygindex", "yytable", "yycheck", "yyname", "yyrule"].foldl
          (fun (w : Wr) s => w.definePrefixed I .ext p (str s)) w
      let w := if I.locations then (w.definePrefixed I .ext p (str "yyloc")).definePrefixed I .ext p (str "yylloc") else w
      let w := (w.putcCode .ext 10).putlCode .ext (str "#if YYBTYACC\n")
      let w := (w.definePrefixed I .ext p (str "yycindex")).definePrefixed I .ext p (str "yyctable")
      ((w.putcCode .ext 10).putlCode .ext (str "#endif /* YYBTYACC */\n")).putcCode .ext 10) := by
    cases I.symbolPrefix with
    | none => exact Miscount.refl w
    | some p =>
      dsimp only
      refine Miscount.trans ?_ (mis_putc _ _)
      refine Miscount.trans ?_ (mis_putl _ _)
      refine Miscount.trans ?_ (mis_putc _ _)
      refine Miscount.trans ?_ (mis_define _ _ _)
      refine Miscount.trans ?_ (mis_define _ _ _)
      refine Miscount.trans ?_ (mis_putl _ _)
      refine Miscount.trans ?_ (mis_putc _ _)
      have h0 := mis_foldl (fun (w : Wr) s => w.definePrefixed I .ext p (str s)) ["yyparse", "yylex", "yyerror", "yychar", "yyval", "yylval", "yydebug", "yynerrs", "yyerrflag", "yylhs", "yylen",
        "yydefred", "yystos", "yydgoto", "yysindex", "yyrindex", "yygindex", "yytable", "yycheck", "yyname", "yyrule"] (fun w s => mis_define p _ w) w
      refine h0.trans ?_
      cases I.locations
      · exact Miscount.refl _
      · exact (mis_define _ _ _).trans (mis_define _ _ _)
  unfold Wr.prefix
  refine ⟨?_, ?_⟩
  · simp only [Wr.countLine, hr]; exact h.1
  · simp only [Wr.countLine, hr]
    exact Nat.lt_succ_of_le h.2

end Verif.Byacc
