import Verif.Proofs.TextUser
import Verif.Props.C87
/-
C92: the user's code in the generated files.
-/
set_option autoImplicit false
namespace Verif.Byacc
open Rd Spec.OutText Spec.YText

variable {I : TextIn}

theorem ft_newline_r (hr : I.rflag = true) (w : Wr) : fileText I .code (w.newline I) = fileText I .code w := by
  unfold Wr.newline TextIn.out
  simp only [hr]
  rw [ft_put_ne .code _ _ _ (by simp)]
  rfl

theorem ft_out_r (hr : I.rflag = true) (w : Wr) (t : List Nat) : fileText I .code (w.put I.out t) = fileText I .code w := by
  unfold TextIn.out
  simp only [hr]
  rw [ft_put_ne .code _ _ _ (by simp)]

theorem ft_line_r (hr : I.rflag = true) (w : Wr) (s : String) : fileText I .code (w.line I s) = fileText I .code w := by
  unfold Wr.line; rw [ft_newline_r hr, ft_out_r hr]

theorem cs_debug (w : Wr) : LineStart (fileText I .code (w.debug I)) := by
  cases hr : I.rflag with
  | false =>
    have : ∀ w : Wr, fileText I .code w = outText I w := by intro w; simp [outText, hr, fileText]
    rw [this]
    exact lineStart_line _ _
  | true =>
    rw [debug_eq]
    unfold Wr.ruleTable Wr.endTable Wr.startStr Wr.nameTable
    have hn : ∀ (l : List (Option (List Nat))) (j : Nat) (w : Wr), fileText I .code (w.nameItems I l j) = fileText I .code w := by
      intro l
      induction l with
      | nil => intro j w; rfl
      | cons s l ih =>
        intro j w
        unfold Wr.nameItems
        dsimp only
        split
        · rw [ih, ft_out_r hr, ft_newline_r hr]
        · rw [ih, ft_out_r hr]
    have hu : ∀ w : Wr, fileText I .code (I.rules.foldl (Wr.rule I) w) = fileText I .code w :=
      fun w => ft_foldl .code _ (fun w r => by unfold Wr.rule; rw [ft_newline_r hr, ft_out_r hr]) _ w
    simp only [apply_ite (fileText I .code), ft_line_r hr, ft_newline_r hr, ft_out_r hr, hn, hu, ite_self]
    unfold Wr.debugConsts
    dsimp only
    rw [ft_put]
    exact lineStart_append (by decide)

/-- the declarations -/
theorem stored_has (f : OFile) {ps : List (List Nat)} {w w' : Wr} (h : InOrder ps (fileText I f w)) (hg : Grow ((w.pure I f).stored I f) w') :
    InOrder (ps ++ [I.text]) (fileText I f w') := by
  refine inOrder_ft ?_ hg
  have h1 : Has I f ps (w.pure I f) := by
    refine ⟨inOrder_ft h (grow_pure _ (Grow.refl _)), ?_⟩
    unfold Wr.pure
    dsimp only
    rw [ft_putc]
    exact lineStart_append rfl
  unfold Wr.stored
  split
  · next e =>
    have : I.text = [] := by simpa using e
    rw [this]
    have := InOrder.snoc ps [] _ [] h1.1 h1.2
    simpa using this
  · have : InOrder (ps ++ [I.text]) (fileText I f ((w.pure I f).putcs f I.text)) := by
      rw [ft_putcs]
      have := InOrder.snoc ps I.text _ [] h1.1 h1.2
      simpa using this
    exact inOrder_ft this (grow_codeLineno _ (Grow.refl _))

theorem grow_declsRest (w : Wr) : Grow ((w.pure I I.declFile).stored I I.declFile) (w.decls I) := by
  unfold Wr.decls
  dsimp only
  refine grow_tokenDefines ?_
  refine grow_if ?_ ?_
  · refine grow_section _ _ (grow_if (grow_destructDecl _ ?_) ?_) <;>
      exact grow_errorDecl _ (grow_lexDecl _ (grow_parseDecl _ (grow_if (grow_ltype _ (grow_stype _ (Grow.refl _))) (grow_stype _ (Grow.refl _)))))
  · refine grow_if (grow_destructDecl _ ?_) ?_ <;>
      exact grow_errorDecl _ (grow_lexDecl _ (grow_parseDecl _ (grow_if (grow_ltype _ (grow_stype _ (Grow.refl _))) (grow_stype _ (Grow.refl _)))))

theorem front_has (w : Wr) : InOrder (codePart (txt "top") I.top ++ (if I.iflag then [] else [I.text])) (fileText I .code (w.front I)) := by
  have h0 := top_has (I := I) "top" I.top w
  have h1 : InOrder (codePart (txt "top") I.top) (fileText I .code ((w.before I).prefix I I.declFile)) := by
    refine inOrder_ft (w := w.codeLines I .code "top" I.top) h0 (grow_prefix _ ?_)
    unfold Wr.before
    dsimp only
    grow <;> first | exact grow_backtracking _ (Grow.refl _) | exact grow_backtracking _ (grow_backtracking _ (Grow.refl _))
  rw [front_eq]
  cases hi : I.iflag with
  | true =>
    simp only [if_true, List.append_nil]
    exact inOrder_ft h1 (grow_decls (Grow.refl _))
  | false =>
    have hd : I.declFile = .code := by simp [TextIn.declFile, hi]
    have hg := grow_declsRest (I := I) ((w.before I).prefix I I.declFile)
    rw [hd] at hg h1
    simp only [Bool.false_eq_true, if_false]
    rw [hd]
    exact stored_has .code h1 hg

/-- The user's code is in the code file, in this order and unchanged: the `%code top` blocks, the text between `%{` and `%}` (with `-i` it is in the externs file),
the other `%code` blocks, the third part of the grammar file, behind a directive with the number of its first line, the destructors, each behind the label
with the number of its symbol and followed by a `break`, the initial action, the actions. -/
theorem C92_user_code (I : TextIn) (h : TextOk I) (he : I.actions.getLast? = some 10) (w : Wr) (third : Option (List Nat × List Nat)) (ht : ThirdRead third I.trail) :
    ∃ acts, ActsPart I.lflag I.codeName I.actions acts ∧
      InOrder (codePart (txt "top") I.top ++ (if I.iflag then [] else [I.text]) ++ codePart (txt "requires") I.requires ++ codePart (txt "provides") I.provides ++
        codePart (txt "") I.header ++ thirdPart I.lflag I.inputName third ++ (if I.destructor then I.destructors.flatMap destructParts else []) ++
        (match I.initialAction with | none => [] | some a => [a ++ [10]]) ++ [acts]) (bytes I.codeName (w.output I).code) := by
  have h1 : Has I .code (codePart (txt "top") I.top ++ (if I.iflag then [] else [I.text])) (((w.front I).tables I).debug I) :=
    ⟨inOrder_ft (front_has w) (grow_debug (grow_tables (Grow.refl _))), cs_debug _⟩
  unfold Wr.output
  rw [back_eq]
  generalize ((w.front I).tables I).debug I = w1 at h1
  have h2 : Has I .code (codePart (txt "top") I.top ++ (if I.iflag then [] else [I.text]) ++ codePart (txt "requires") I.requires ++ codePart (txt "provides") I.provides ++
        codePart (txt "") I.header ++ thirdPart I.lflag I.inputName third ++ (if I.destructor then I.destructors.flatMap destructParts else [])) (w1.middle I) := by
    unfold Wr.middle
    dsimp only
    have a1 : Has I .code (codePart (txt "top") I.top ++ (if I.iflag then [] else [I.text]))
        (if I.rflag = true then ((w1.section .code I.skel.xdecls).yyint I .code).section .code I.skel.tables else w1) := by
      refine Has.ite (fun _ => Has.section _ _ ?_) (fun _ => h1)
      refine (h1.section _ _).mk' (grow_yyint _ (Grow.refl _)) ?_
      unfold Wr.yyint
      rw [ft_put]
      exact lineStart_append (by decide)
    generalize (if I.rflag = true then ((w1.section .code I.skel.xdecls).yyint I .code).section .code I.skel.tables else w1) = w2 at a1
    have a2 := a1.section .code I.skel.globalVars
    generalize w2.section .code I.skel.globalVars = w3 at a2
    have a3 : Has I .code _ (if (!I.pureParser) = true then w3.section .code I.skel.impureVars else w3) := Has.ite (fun _ => a2.section _ _) (fun _ => a2)
    generalize (if (!I.pureParser) = true then w3.section .code I.skel.impureVars else w3) = w4 at a3
    have a4 := (a3.codeLines "requires" I.requires).section .code I.skel.hdrDefs
    generalize (w4.codeLines I .code "requires" I.requires).section .code I.skel.hdrDefs = w5 at a4
    have a5 : Has I .code _ (if (!I.pureParser) = true then w5.section .code I.skel.hdrVars else w5) := Has.ite (fun _ => a4.section _ _) (fun _ => a4)
    generalize (if (!I.pureParser) = true then w5.section .code I.skel.hdrVars else w5) = w6 at a5
    have a6 := ((a5.codeLines "provides" I.provides).codeLines "" I.header).third third ht
    generalize ((w6.codeLines I .code "provides" I.provides).codeLines I .code "" I.header).trailing I = w7 at a6
    have a7 : Has I .code (codePart (txt "top") I.top ++ (if I.iflag then [] else [I.text]) ++ codePart (txt "requires") I.requires ++ codePart (txt "provides") I.provides ++
        codePart (txt "") I.header ++ thirdPart I.lflag I.inputName third ++ (if I.destructor then I.destructors.flatMap destructParts else []))
        (if I.destructor = true then w7.destructImpl I else w7) := by
      cases I.destructor with
      | true => exact a6.destructImpl
      | false => simp only [Bool.false_eq_true, if_false, List.append_nil]; exact a6
    generalize (if I.destructor = true then w7.destructImpl I else w7) = w8 at a7
    have a8 := a7.section .code I.skel.body1
    generalize w8.section .code I.skel.body1 = w9 at a8
    have a9 : Has I .code _ (if I.pureParser = true then w9.section .code I.skel.bodyVars else w9) := Has.ite (fun _ => a8.section _ _) (fun _ => a8)
    have a10 := a9.section .code I.skel.body2
    exact Has.ite (fun _ => a10.section _ _) (fun _ => a10)
  have h3 := h2.initial.section .code I.skel.body3
  generalize ((w1.middle I).initial I).section .code I.skel.body3 = w2 at h3
  have key : ∃ acts, ActsPart I.lflag I.codeName I.actions acts ∧ ∃ x, fileText I .code (w2.semantic I) = fileText I .code w2 ++ acts ++ x := by
    unfold ActsPart
    cases hl : I.lflag with
    | true =>
      refine ⟨I.actions, by simp, [], ?_⟩
      unfold fileText
      dsimp only
      rw [C87_actions_l I hl he, bytes_append]
      unfold bytes
      rw [restore_map, List.append_nil]
    | false =>
      obtain ⟨l, n, e1, e2⟩ := C87_actions I h hl he w2
      refine ⟨bytes I.codeName l, by simp only [Bool.false_eq_true, if_false]; exact ⟨l, rfl, e2⟩, bytes I.codeName [.self n], ?_⟩
      unfold fileText
      dsimp only
      rw [e1, bytes_append, bytes_append]
  obtain ⟨acts, ha, x, e⟩ := key
  refine ⟨acts, ha, ?_⟩
  have h4 := InOrder.snoc _ acts _ x h3.1 h3.2
  rw [← e] at h4
  exact inOrder_ft (f := .code) h4 (grow_section _ _ (Grow.refl _))

/-- With `-i` the text between `%{` and `%}` is in the externs file. -/
theorem C92_externs (I : TextIn) (hi : I.iflag = true) (w : Wr) : InOrder [I.text] (w.output I).ext := by
  have hd : I.declFile = .ext := by simp [TextIn.declFile, hi]
  have hg := grow_declsRest (I := I) ((w.before I).prefix I I.declFile)
  rw [← front_eq, hd] at hg
  have := stored_has (ps := []) .ext (.nil _) (hg.trans (grow_back (I := I) (grow_debug (I := I) (grow_tables (I := I) (Grow.refl _)))))
  exact this

example : TextOk (c87In false false false none) ∧ (c87In false false false none).actions.getLast? = some 10 ∧
    ThirdRead (some (txt "%%\ns:;\n%%", txt "\nint main;")) (some (txt "\n", txt "int main;", 3)) :=
  ⟨c87_ok _ _ _ _, by decide, .inr ⟨_, [], _, _, rfl, rfl, by simp, .inl rfl⟩⟩

example : thirdPart false (txt "g.y") (some (txt "%%\ns:;\n%%", txt "\nint main;")) = [txt "#line 4 \"g.y\"\nint main;\n"] := by
  simp only [thirdPart, directive, str_num]; decide +kernel

end Verif.Byacc
