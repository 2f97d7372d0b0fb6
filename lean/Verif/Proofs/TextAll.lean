import Verif.Proofs.TextParts
set_option autoImplicit false
namespace Verif.Byacc
open Rd Spec.OutText Spec.YText

/-! The whole output counts the lines of the code file -/

variable {I : TextIn}

theorem ext_stored (h : TextOk I) (f : OFile) (w : Wr) : ExtW I w (w.stored I f) := by
  unfold Wr.stored
  split
  · exact ExtW.refl w
  · next e =>
    refine (ext_putcs f _ w).trans (ext_codeLineno h.codeName f _ (fun hf => ?_))
    subst hf
    refine lineStart_putcs w _ ?_
    rcases h.text with h | h
    · simp [h] at e
    · exact h

theorem ext_yydebug_noncode (f : OFile) (w : Wr) (hf : f ≠ .code) : ExtW I w (w.yydebug I f) :=
  ((ext_noncode f _ hf).trans (ext_noncode f _ hf)).trans (ext_noncode f _ hf)

theorem ext_yydebug (w : Wr) : ExtW I w ((w.yydebug I .code).bump 3) := by
  unfold Wr.yydebug
  have : ((((w.put .code (str "#ifndef YYDEBUG\n")).put .code (str "#define YYDEBUG " ++ decDigits (if I.tflag then 1 else 0) ++ [10])).put .code
      (str "#endif\n")).bump 3) =
      ((((((w.bump 1).put .code (str "#ifndef YYDEBUG\n")).bump 1).put .code
        (str "#define YYDEBUG " ++ decDigits (if I.tflag then 1 else 0) ++ [10])).bump 1).put .code (str "#endif\n")) := by
    simp only [put_bump, bump_bump]
  rw [this]
  refine ((ext_bump w (fun _ => by decide)).trans (ext_bump _ (fun _ => ?_))).trans (ext_bump _ (fun _ => by decide))
  exact count_nl (plain_append (by unfold Plain; decide) (plain_digits _))

theorem plain_tail {c : Nat} {s : List Nat} (h : Plain (c :: s)) : Plain s := fun x => h (by simp [x])

theorem plain_escBody (q : Nat) : ∀ (n : Nat) (t : List Nat), t.length ≤ n → Plain t → Plain (escBody q t) := by
  intro n
  induction n with
  | zero => intro t ht _; have : t = [] := by simpa using ht
            subst this; simp [escBody, Plain]
  | succ n ih =>
    intro t ht h
    cases t with
    | nil => simp [escBody, Plain]
    | cons c s =>
      rw [escBody.eq_def]
      simp only
      split
      · simp [Plain]
      · split
        · cases s with
          | nil => simp [Plain]
          | cons d s =>
            simp only
            have ht' : s.length ≤ n := by simp at ht; omega
            refine plain_append (plain_append (by unfold Plain; decide) ?_) (ih s ht' (plain_tail (plain_tail h)))
            split
            · unfold Plain; decide
            · intro x; simp only [List.mem_singleton] at x; exact h (by simp [← x])
        · have := ih s (by simpa using ht) (plain_tail h)
          unfold Plain at *
          simp only [List.mem_cons, not_or]
          exact ⟨fun x => h (by simp [← x]), this⟩

theorem plain_nameItem (s : Option (List Nat)) (h : ∀ t, s = some t → Plain t) : Plain (nameItem s) := by
  unfold nameItem
  split
  · unfold Plain; decide
  · exact plain_append (plain_append (by unfold Plain; decide) (plain_escBody _ _ _ (Nat.le_refl _) (plain_tail (h _ rfl)))) (by unfold Plain; decide)
  · split
    · unfold Plain; decide
    · exact plain_append (plain_append (by unfold Plain; decide) (plain_escBody _ _ _ (Nat.le_refl _) (plain_tail (h _ rfl)))) (by unfold Plain; decide)
  · exact plain_append (plain_append (by unfold Plain; decide) (h _ rfl)) (by unfold Plain; decide)

theorem plain_symnam (h : TextOk I) (i : Nat) (t : List Nat) (e : I.symnam i = some t) : Plain t := by
  unfold TextIn.symnam at e
  split at e
  · cases e; unfold Plain; decide
  · rw [Option.map_eq_some_iff] at e
    obtain ⟨p, hp, rfl⟩ := e
    exact h.names _ (List.of_mem_zip (List.mem_of_find?_eq_some hp)).2

theorem ext_nameItems (l : List (Option (List Nat))) (hl : ∀ s ∈ l, ∀ t, s = some t → Plain t) (j : Nat) (w : Wr) :
    ExtW I w (w.nameItems I l j) := by
  induction l generalizing j w with
  | nil => exact ExtW.refl w
  | cons s l ih =>
    have hs := plain_nameItem s (hl s (by simp))
    have hl' : ∀ s ∈ l, ∀ t, s = some t → Plain t := fun x hx => hl x (by simp [hx])
    unfold Wr.nameItems
    dsimp only
    split
    · exact ((ext_newline w).trans (ext_out _ hs)).trans (ih hl' _ _)
    · exact (ext_out _ hs).trans (ih hl' _ _)

theorem plain_ruleItem (s : List Nat) (h : Plain s) : Plain (ruleItem s) := by
  unfold ruleItem
  split
  · exact plain_append (plain_append (by unfold Plain; decide) (plain_escBody _ _ _ (Nat.le_refl _) (plain_tail h))) (by unfold Plain; decide)
  · unfold Plain; decide
  · exact plain_append (plain_append (by unfold Plain; decide) (plain_takeWhile _ (plain_tail (plain_tail (plain_tail h))))) (by unfold Plain; decide)
  · refine plain_append (plain_append (plain_append (by unfold Plain; decide) ?_) (plain_takeWhile _ (plain_tail (plain_tail (plain_tail h))))) (by unfold Plain; decide)
    intro x; simp only [List.mem_singleton] at x; exact h (by simp [← x])
  · refine plain_append (plain_append (by unfold Plain; decide) ?_) (by unfold Plain; decide)
    intro x; simp only [List.mem_singleton] at x; exact h (by simp [← x])
  · exact plain_append (by unfold Plain; decide) h

theorem ext_rule (h : TextOk I) (w : Wr) (r : Nat × List Nat) : ExtW I w (w.rule I r) := by
  unfold Wr.rule
  refine (ext_out w ?_).trans (ext_newline _)
  refine plain_append (plain_append (plain_append (plain_append (by unfold Plain; decide) (plain_getD h _)) (by unfold Plain; decide)) ?_) (by unfold Plain; decide)
  intro x
  rw [List.mem_flatMap] at x
  obtain ⟨X, _, hX⟩ := x
  exact plain_ruleItem _ (plain_getD h X) hX

theorem ext_startStr (h : TextOk I) (name : String) (hn : Plain (str name)) (w : Wr) : ExtW I w (w.startStr I name) :=
  (ext_out w (plain_append (plain_append (plain_append (plain_append plain_static (by unfold Plain; decide)) (plain_pfx h)) hn)
    (by unfold Plain; decide))).trans (ext_newline _)

theorem ext_debug (h : TextOk I) (w : Wr) : ExtW I w (w.debug I) := by
  unfold Wr.debug
  dsimp only
  refine ExtW.trans ?_ (ext_line "#endif" _ (by unfold Plain; decide))
  refine ExtW.trans ?_ (ext_endTable _)
  refine ExtW.trans ?_ (ext_foldl _ _ (fun w r _ => ext_rule h w r) _)
  refine ExtW.trans ?_ (ext_startStr h "rule" (by unfold Plain; decide) _)
  refine ExtW.trans ?_ (ext_if _ _ (fun _ => ext_line "#if YYDEBUG" _ (by unfold Plain; decide)))
  refine ExtW.trans ?_ (ext_endTable _)
  refine ExtW.trans ?_ (ext_nameItems _ ?_ 80 _)
  · refine ExtW.trans ?_ (ext_startStr h "name" (by unfold Plain; decide) _)
    have mid : ∀ w : Wr, ExtW I w (if I.tokenTable = true then
        if !I.rflag then (w.line I "#undef yytname").line I "#define yytname yyname" else w
        else w.line I "#if YYDEBUG") := by
      intro w
      split
      · exact ext_if _ _ (fun _ => (ext_line _ _ (by unfold Plain; decide)).trans (ext_line _ _ (by unfold Plain; decide)))
      · exact ext_line _ _ (by unfold Plain; decide)
    refine ExtW.trans ?_ (mid _)
    refine ExtW.trans ?_ (ext_bump _ (fun _ => by decide))
    refine ExtW.trans ?_ (ext_bump _ (fun _ => count_nl (plain_append (by unfold Plain; decide) (plain_int _))))
    refine ExtW.trans ?_ (ext_bump _ (fun _ => count_nl (plain_append (by unfold Plain; decide) (plain_int _))))
    refine ExtW.trans ?_ (ext_if _ _ (fun e => ext_yydebug_noncode _ _ (by simp [TextIn.out, e])))
    refine ExtW.trans ?_ (ext_yydebug _)
    exact ext_bump _ (fun _ => count_nl (plain_append (by unfold Plain; decide) (plain_digits _)))
  · intro s hs t e
    rw [List.mem_map] at hs
    obtain ⟨i, _, rfl⟩ := hs
    exact plain_symnam h i t e

theorem ext_backtracking (f : OFile) (w : Wr) : ExtW I w (w.backtracking I f) := by
  unfold Wr.backtracking
  refine (ext_putlCode f (str "#undef YYBTYACC\n") w (by decide)).trans ?_
  dsimp only
  split
  · exact ext_lines f _ _ (by decide)
  · exact ext_lines f _ _ (by decide)

theorem lineStart_backtracking (w : Wr) : LineStart (bytes I.codeName (w.backtracking I .code).code) := by
  unfold Wr.backtracking
  dsimp only
  split <;> exact lineStart_putl _ (by decide)

theorem ext_pure (f : OFile) (w : Wr) : ExtW I w (w.pure I f) := by
  unfold Wr.pure
  refine ExtW.trans ?_ (ext_putcCode f 10 _)
  exact (ext_putcCode f 10 w).trans (ext_bumpIf f _ (fun _ => count_nl (plain_append (by unfold Plain; decide) (plain_digits _))))

theorem ext_trailing (h : TextOk I) (w : Wr) : ExtW I w (w.trailing I) := by
  unfold Wr.trailing
  cases e : I.trail with
  | none => exact ExtW.refl w
  | some x =>
    obtain ⟨cur, rest, n⟩ := x
    have hc := h.trail _ _ _ e
    dsimp only
    split
    · split
      · exact ExtW.refl w
      · next hr =>
        refine ExtW.trans ?_ (ext_codeLineno h.codeName .code _ (fun _ => ?_))
        · refine ExtW.trans ?_ (ext_if _ _ (fun _ => ext_putcCode .code 10 _))
          exact (ext_inputLineno h _ w).trans (ext_putcs _ _ _)
        · split
          · exact lineStart_putc _
          · next hl => exact lineStart_putcs _ _ (not_not.1 hl)
    · refine ExtW.trans ?_ (ext_codeLineno h.codeName .code _ (fun _ => ?_))
      · refine ExtW.trans ?_ (ext_if _ _ (fun _ => ext_putcCode .code 10 _))
        exact ((ext_inputLineno h _ w).trans (ext_putcs _ _ _)).trans (ext_putcs _ _ _)
      · split
        · exact lineStart_putc _
        · next hl =>
          rw [show ∀ w : Wr, (w.putcs .code cur).putcs .code rest = w.putcs .code (cur ++ rest) by intro w; simp [Wr.putcs]]
          exact lineStart_putcs _ _ (not_not.1 hl)

theorem putcs_lineStart (w : Wr) (t : List Nat) (c : Nat) (h : c = 10) :
    LineStart (bytes I.codeName ((w.putcs .code t).putcCode .code c).code) := by subst h; exact lineStart_putc _

theorem ext_copyActs (h : TextOk I) (t : List Nat) (last st : Nat) (w : Wr)
    (hw : (last = 10 ∨ 0 < st) → LineStart (bytes I.codeName w.code)) : ExtW I w (w.copyActs I t last st) := by
  induction t generalizing last st w with
  | nil =>
    unfold Wr.copyActs
    refine (ext_if _ _ (fun _ => ext_putcCode .code 10 _)).trans (ext_codeLineno h.codeName .code _ (fun _ => ?_))
    split
    · exact lineStart_putc _
    · next e => exact hw (.inl (by simpa using e))
  | cons c t ih =>
    unfold Wr.copyActs
    split
    · next e =>
      simp only [Bool.and_eq_true, Bool.or_eq_true, decide_eq_true_eq] at e
      have hw' := hw e.2
      split
      · next hc =>
        split
        · next hl =>
          refine (ext_codeLineno h.codeName .code w (fun _ => hw')).trans (ih _ _ _ (fun _ => lineStart_lineno w hw'))
        · exact ih _ _ _ (fun _ => hw')
      · refine ((ext_putcs _ _ w).trans (ext_putcCode _ _ _)).trans (ih _ _ _ (fun x => ?_))
        rcases x with x | x
        · exact putcs_lineStart w _ c x
        · omega
    · refine (ext_putcCode _ _ _).trans (ih _ _ _ (fun x => ?_))
      rcases x with x | x
      · subst x; exact lineStart_putc _
      · omega

theorem ext_semantic (h : TextOk I) (w : Wr) : ExtW I w (w.semantic I) := by
  unfold Wr.semantic
  split
  · exact ExtW.refl w
  · next c rest _ =>
    refine (ext_putcCode _ _ _).trans (ext_copyActs h _ _ _ _ (fun x => ?_))
    rcases x with x | x
    · subst x; exact lineStart_putc _
    · omega

theorem parse_ok (h : TextOk I) : ∀ p ∈ I.parseParam, Plain p.type ∧ Plain p.name ∧ Plain p.type2 := fun p hp => h.params p (by simp [hp])
theorem lex_ok (h : TextOk I) : ∀ p ∈ I.lexParam, Plain p.type ∧ Plain p.name ∧ Plain p.type2 := fun p hp => h.params p (by simp [hp])

theorem ext_plain (f : OFile) {t : List Nat} (w : Wr) (h : Plain t) : ExtW I w (w.put f t) := ext_put f w (fun _ => h)

theorem ext_parseDecl (h : TextOk I) (f : OFile) (w : Wr) : ExtW I w (w.parseDecl I f) := by
  unfold Wr.parseDecl
  dsimp only
  refine ExtW.trans ?_ (ext_lines f _ _ (by decide))
  refine ExtW.trans ?_ (ext_plain f _ (plain_types _ _ (parse_ok h)))
  refine ExtW.trans ?_ (ext_plain f _ (by unfold Plain; decide))
  exact (ext_putcCode f 10 w).trans (ext_lines f _ _ (by decide))

theorem ext_lexGiven (f : OFile) (w : Wr) : ExtW I w (w.lexGiven I f) := by
  unfold Wr.lexGiven
  split
  · split
    · exact ext_lines f _ _ (by decide)
    · exact ext_lines f _ _ (by decide)
  · exact ext_lines f _ _ (by decide)

theorem ext_lexParams (h : TextOk I) (f : OFile) (w : Wr) : ExtW I w (w.lexParams I f) := by
  unfold Wr.lexParams
  have hn := plain_paramNames false _ (lex_ok h)
  have ht := plain_types false _ (lex_ok h)
  split
  · refine ExtW.trans ?_ (ext_lines f _ _ (by decide))
    refine ExtW.trans ?_ (ext_plain f _ hn)
    refine ExtW.trans ?_ (ext_plain f _ (by split <;> (unfold Plain; decide)))
    refine ExtW.trans ?_ (ext_lines f _ _ (by decide))
    refine ExtW.trans ?_ (ext_plain f _ ht)
    exact ext_plain f _ (by split <;> (unfold Plain; decide))
  · split
    · split
      · exact ext_lines f _ _ (by decide)
      · exact ext_lines f _ _ (by decide)
    · split
      · refine ExtW.trans ?_ (ext_lines f _ _ (by decide))
        refine ExtW.trans ?_ (ext_plain f _ hn)
        refine ExtW.trans ?_ (ext_plain f _ (by unfold Plain; decide))
        refine ExtW.trans ?_ (ext_lines f _ _ (by decide))
        refine ExtW.trans ?_ (ext_plain f _ ht)
        exact ext_plain f _ (by unfold Plain; decide)
      · exact ext_lines f _ _ (by decide)

theorem ext_lexDecl (h : TextOk I) (f : OFile) (w : Wr) : ExtW I w (w.lexDecl I f) := by
  unfold Wr.lexDecl
  dsimp only
  refine ExtW.trans ?_ (ext_if _ _ (fun _ => ext_lines f _ _ (by decide)))
  refine ExtW.trans ?_ (ext_lines f _ _ (by decide))
  refine ExtW.trans ?_ (ext_lexParams h f _)
  refine ExtW.trans ?_ (ext_lines f _ _ (by decide))
  refine ExtW.trans ?_ (ext_lexGiven f _)
  exact (ext_putcCode f 10 w).trans (ext_lines f _ _ (by decide))

theorem ext_errorDecl (h : TextOk I) (f : OFile) (w : Wr) : ExtW I w (w.errorDecl I f) := by
  unfold Wr.errorDecl
  dsimp only
  refine ExtW.trans ?_ (ext_lines f _ _ (by decide))
  refine ExtW.trans ?_ (ext_plain f _ (plain_paramNames _ _ (parse_ok h)))
  refine ExtW.trans ?_ (ext_if _ _ (fun _ => ext_plain f _ (by unfold Plain; decide)))
  refine ExtW.trans ?_ (ext_plain f _ (by unfold Plain; decide))
  refine ExtW.trans ?_ (ext_lines f _ _ (by decide))
  refine ExtW.trans ?_ (ext_plain f _ (plain_types _ _ (parse_ok h)))
  refine ExtW.trans ?_ (ext_if _ _ (fun _ => ext_plain f _ (by unfold Plain; decide)))
  refine ExtW.trans ?_ (ext_plain f _ (by unfold Plain; decide))
  exact (ext_putcCode f 10 w).trans (ext_lines f _ _ (by decide))

theorem ext_destructDecl (h : TextOk I) (f : OFile) (w : Wr) : ExtW I w (w.destructDecl I f) := by
  unfold Wr.destructDecl
  dsimp only
  refine ExtW.trans ?_ (ext_lines f _ _ (by decide))
  refine ExtW.trans ?_ (ext_if _ _ (fun _ => (ext_plain f _ (by unfold Plain; decide)).trans (ext_plain f _ (plain_paramNames _ _ (parse_ok h)))))
  refine ExtW.trans ?_ (ext_if _ _ (fun _ => ext_plain f _ (by unfold Plain; decide)))
  refine ExtW.trans ?_ (ext_plain f _ (by unfold Plain; decide))
  refine ExtW.trans ?_ (ext_if _ _ (fun _ => ext_plain f _ (by unfold Plain; decide)))
  refine ExtW.trans ?_ (ext_plain f _ (by unfold Plain; decide))
  refine ExtW.trans ?_ (ext_lines f _ _ (by decide))
  refine ExtW.trans ?_ (ext_if _ _ (fun _ => (ext_plain f _ (by unfold Plain; decide)).trans (ext_plain f _ (plain_types _ _ (parse_ok h)))))
  refine ExtW.trans ?_ (ext_if _ _ (fun _ => ext_plain f _ (by unfold Plain; decide)))
  refine ExtW.trans ?_ (ext_plain f _ (by unfold Plain; decide))
  exact (ext_putcCode f 10 w).trans (ext_lines f _ _ (by decide))

theorem ext_destruct (h : TextOk I) (w : Wr) (d : Nat × List Nat) : ExtW I w (w.destruct I d) := by
  unfold Wr.destruct
  dsimp only
  refine ExtW.trans ?_ (ext_lines .code _ _ (by decide))
  refine ExtW.trans ?_ (ext_codeLineno h.codeName .code _ (fun _ => lineStart_putc _))
  refine ExtW.trans ?_ (ext_putcCode .code 10 _)
  refine ExtW.trans ?_ (ext_bump _ (fun _ => rfl))
  refine ext_bump _ (fun _ => ?_)
  simp only [List.count_append]
  rw [(plain_digits _).count, show (str "\tcase ").count 10 = 0 by decide, show (str ":\n").count 10 = 1 by decide]

theorem ext_destructImpl (h : TextOk I) (w : Wr) : ExtW I w (w.destructImpl I) := by
  unfold Wr.destructImpl
  dsimp only
  refine ExtW.trans ?_ (ext_lines .code _ _ (by decide))
  refine ExtW.trans ?_ (ext_foldl _ _ (fun w d _ => ext_destruct h w d) _)
  exact (ext_putcCode .code 10 w).trans (ext_lines .code _ _ (by decide))

theorem ext_externs (f : OFile) (l : List (List Nat)) (w : Wr) (h : ∀ s ∈ l, Plain s) : ExtW I w (w.externs f l) := by
  refine ext_foldl _ l (fun w s hs => ?_) w
  dsimp only
  refine ExtW.trans ?_ (ext_bumpIf f _ (fun _ => count_nl (h s hs)))
  exact ext_if _ _ (fun _ => ext_plain f _ (by unfold Plain; decide))

/-- where the declarations go -/
def TextIn.declFile (I : TextIn) : OFile := if I.iflag then .ext else .code

/-- the output, up to the place where `output_prefix` is called -/
def Wr.before (I : TextIn) (w : Wr) : Wr :=
  let w := w.codeLines I .code "top" I.top
  let w := w.backtracking I I.out
  let w := if I.rflag then w.backtracking I .code else w
  if I.iflag then ((w.codeLineno I .code).bump 1).put .code (str "#include \"" ++ I.externsName ++ str "\"\n") else w

/-- the output between `output_prefix` and the arrays -/
def Wr.decls (I : TextIn) (w : Wr) : Wr :=
  let f := I.declFile
  let w := w.pure I f
  let w := w.stored I f
  let w := w.stype I f
  let w := if I.locations then w.ltype f else w
  let w := w.parseDecl I f
  let w := w.lexDecl I f
  let w := w.errorDecl I f
  let w := if I.destructor then w.destructDecl I f else w
  let w := if I.iflag || !I.rflag then w.section f I.skel.xdecls else w
  w.tokenDefines I

theorem front_eq (w : Wr) : w.front I = ((w.before I).prefix I I.declFile).decls I := rfl

/-- the output behind the arrays, up to the initial action -/
def Wr.middle (I : TextIn) (w : Wr) : Wr :=
  let w := if I.rflag then ((w.section .code I.skel.xdecls).yyint I .code).section .code I.skel.tables else w
  let w := w.section .code I.skel.globalVars
  let w := if !I.pureParser then w.section .code I.skel.impureVars else w
  let w := w.codeLines I .code "requires" I.requires
  let w := w.section .code I.skel.hdrDefs
  let w := if !I.pureParser then w.section .code I.skel.hdrVars else w
  let w := w.codeLines I .code "provides" I.provides
  let w := w.codeLines I .code "" I.header
  let w := w.trailing I
  let w := if I.destructor then w.destructImpl I else w
  let w := w.section .code I.skel.body1
  let w := if I.pureParser then w.section .code I.skel.bodyVars else w
  let w := w.section .code I.skel.body2
  if I.pureParser then w.section .code I.skel.initVars else w

theorem back_eq (w : Wr) : w.back I = ((((w.middle I).initial I).section .code I.skel.body3).semantic I).section .code I.skel.trailer := rfl

theorem skel_ok (h : TextOk I) : (∀ s ∈ I.skel.xdecls, Plain s) ∧ (∀ s ∈ I.skel.tables, Plain s) ∧ (∀ s ∈ I.skel.globalVars, Plain s) ∧
    (∀ s ∈ I.skel.impureVars, Plain s) ∧ (∀ s ∈ I.skel.hdrDefs, Plain s) ∧ (∀ s ∈ I.skel.hdrVars, Plain s) ∧ (∀ s ∈ I.skel.body1, Plain s) ∧
    (∀ s ∈ I.skel.bodyVars, Plain s) ∧ (∀ s ∈ I.skel.body2, Plain s) ∧ (∀ s ∈ I.skel.initVars, Plain s) ∧ (∀ s ∈ I.skel.body3, Plain s) ∧
    (∀ s ∈ I.skel.trailer, Plain s) := by
  have := h.skel
  refine ⟨?_, ?_, ?_, ?_, ?_, ?_, ?_, ?_, ?_, ?_, ?_, ?_⟩ <;> exact fun s hs => this s (by simp [hs])

theorem ext_before (h : TextOk I) (w : Wr) : ExtW I w (w.before I) := by
  unfold Wr.before
  dsimp only
  refine ExtW.trans (ExtW.trans (ExtW.trans (ext_codeLines h .code "top" (by unfold Plain; decide) _ h.top w) (ext_backtracking I.out _))
    (ext_if _ _ (fun _ => ext_backtracking .code _))) (ext_if _ _ (fun _ => ?_))
  refine (ext_codeLineno h.codeName .code _ (fun _ => ?_)).trans (ext_bump _ (fun _ => ?_))
  · split
    · exact lineStart_backtracking _
    · next e =>
      have : I.out = .code := by simp [TextIn.out, e]
      rw [this]
      exact lineStart_backtracking _
  · simp only [List.count_append]
    rw [h.externsName.count, show (str "#include \"").count 10 = 0 by decide, show (str "\"\n").count 10 = 1 by decide]

theorem ext_tokenDefines (h : TextOk I) (w : Wr) : ExtW I w (w.tokenDefines I) := by
  obtain ⟨-, -, s3, s4, -⟩ := skel_ok h
  unfold Wr.tokenDefines
  dsimp only
  refine ExtW.trans ?_ (ext_if _ _ (fun _ => ?_))
  · split
    · have h0 := (((ext_noncode (I := I) (t := [10]) .ext w (by simp)).trans (ext_yydebug_noncode .ext _ (by simp))).trans
        (ext_externs .ext I.skel.globalVars _ s3)).trans (ext_if _ _ (fun (_ : (!I.pureParser) = true) => ext_externs .ext I.skel.impureVars _ s4))
      split
      · refine h0.trans (ext_bump _ (fun _ => ?_))
        simp only [List.count_append]
        rw [h.definesName.count, show (str "#include \"").count 10 = 0 by decide, show (str "\"\n").count 10 = 1 by decide]
      · exact h0.trans (ext_defines h .ext _ (fun e => by cases e))
    · next e => exact (ext_putcCode .code 10 w).trans (ext_defines h .code _ (fun _ => by simpa using e))
  · refine ExtW.trans (ExtW.trans ?_ (ext_defines h .defs _ (fun e => by cases e))) (ext_noncode .defs _ (by simp))
    exact (ext_noncode .defs _ (by simp)).trans (ext_noncode .defs _ (by simp))

theorem ext_decls (h : TextOk I) (w : Wr) : ExtW I w (w.decls I) := by
  obtain ⟨s1, -⟩ := skel_ok h
  unfold Wr.decls
  dsimp only
  refine ExtW.trans ?_ (ext_tokenDefines h _)
  refine ExtW.trans ?_ (ext_if _ _ (fun _ => ext_section _ _ _ s1))
  refine ExtW.trans ?_ (ext_if _ _ (fun _ => ext_destructDecl h _ _))
  refine ExtW.trans ?_ (ext_errorDecl h _ _)
  refine ExtW.trans ?_ (ext_lexDecl h _ _)
  refine ExtW.trans ?_ (ext_parseDecl h _ _)
  refine ExtW.trans ?_ (ext_if _ _ (fun _ => ext_ltype _ _))
  refine ExtW.trans ?_ (ext_stype _ _)
  refine ExtW.trans ?_ (ext_stored h _ _)
  exact ext_pure _ w

theorem ext_middle (h : TextOk I) (w : Wr) : ExtW I w (w.middle I) := by
  obtain ⟨s1, s2, s3, s4, s5, s6, s7, s8, s9, s10, -, -⟩ := skel_ok h
  unfold Wr.middle
  dsimp only
  refine ExtW.trans ?_ (ext_if _ _ (fun _ => ext_section _ _ _ s10))
  refine ExtW.trans ?_ (ext_section _ _ _ s9)
  refine ExtW.trans ?_ (ext_if _ _ (fun _ => ext_section _ _ _ s8))
  refine ExtW.trans ?_ (ext_section _ _ _ s7)
  refine ExtW.trans ?_ (ext_if _ _ (fun _ => ext_destructImpl h _))
  refine ExtW.trans ?_ (ext_trailing h _)
  refine ExtW.trans ?_ (ext_codeLines h .code "" (by unfold Plain; decide) _ h.header _)
  refine ExtW.trans ?_ (ext_codeLines h .code "provides" (by unfold Plain; decide) _ h.provides _)
  refine ExtW.trans ?_ (ext_if _ _ (fun _ => ext_section _ _ _ s6))
  refine ExtW.trans ?_ (ext_section _ _ _ s5)
  refine ExtW.trans ?_ (ext_codeLines h .code "requires" (by unfold Plain; decide) _ h.requires _)
  refine ExtW.trans ?_ (ext_if _ _ (fun _ => ext_section _ _ _ s4))
  refine ExtW.trans ?_ (ext_section _ _ _ s3)
  exact ext_if _ _ (fun _ => ((ext_section _ _ _ s1).trans (ext_yyint _ _ (.inl rfl))).trans (ext_section _ _ _ s2))

/-- the output behind the initial action -/
def Wr.finish (I : TextIn) (w : Wr) : Wr := ((w.section .code I.skel.body3).semantic I).section .code I.skel.trailer

theorem ext_finish (h : TextOk I) (w : Wr) : ExtW I w (w.finish I) := by
  obtain ⟨-, -, -, -, -, -, -, -, -, -, s11, s12⟩ := skel_ok h
  exact ((ext_section _ _ _ s11).trans (ext_semantic h _)).trans (ext_section _ _ _ s12)

theorem output_eq (w : Wr) : w.output I = (((((((w.before I).prefix I I.declFile).decls I).tables I).debug I).middle I).initial I).finish I := rfl

/-- With `-i` but not `-r`, and with an initial action, lines are not counted right. -/
theorem ext_output (h : TextOk I) (hi : I.iflag = false ∨ I.rflag = true) (ha : I.initialAction = none) (w : Wr) : ExtW I w (w.output I) := by
  rw [output_eq]
  refine ExtW.trans ?_ (ext_finish h _)
  have : ∀ w : Wr, w.initial I = w := by intro w; simp [Wr.initial, ha]
  rw [this]
  refine ExtW.trans ?_ (ext_middle h _)
  refine ExtW.trans ?_ (ext_debug h _)
  refine ExtW.trans ?_ (ext_tables h _)
  refine ExtW.trans ?_ (ext_decls h _)
  refine (ext_before h w).trans (ext_prefix h _ _ ?_)
  rcases hi with hi | hi
  · left; simp [TextIn.declFile, hi]
  · exact .inr hi

end Verif.Byacc
