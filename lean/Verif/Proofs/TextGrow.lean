import Verif.Proofs.TextActs
set_option autoImplicit false
namespace Verif.Byacc
open Rd Spec.OutText Spec.YText

/-! Files only grow -/

/-- `w'` comes from `w` by writing more -/
def Grow (w w' : Wr) : Prop := (∃ l, w'.code = w.code ++ l) ∧ (∃ l, w'.tab = w.tab ++ l) ∧ (∃ l, w'.ext = w.ext ++ l) ∧ ∃ l, w'.defs = w.defs ++ l

theorem Grow.refl (w : Wr) : Grow w w := ⟨⟨[], by simp⟩, ⟨[], by simp⟩, ⟨[], by simp⟩, ⟨[], by simp⟩⟩

theorem Grow.trans {w1 w2 w3 : Wr} (h1 : Grow w1 w2) (h2 : Grow w2 w3) : Grow w1 w3 := by
  obtain ⟨⟨a1, e1⟩, ⟨b1, f1⟩, ⟨c1, g1⟩, ⟨d1, i1⟩⟩ := h1
  obtain ⟨⟨a2, e2⟩, ⟨b2, f2⟩, ⟨c2, g2⟩, ⟨d2, i2⟩⟩ := h2
  exact ⟨⟨a1 ++ a2, by rw [e2, e1, List.append_assoc]⟩, ⟨b1 ++ b2, by rw [f2, f1, List.append_assoc]⟩,
    ⟨c1 ++ c2, by rw [g2, g1, List.append_assoc]⟩, ⟨d1 ++ d2, by rw [i2, i1, List.append_assoc]⟩⟩

variable {I : TextIn} {w0 w : Wr}

theorem grow_put (f : OFile) (t : List Nat) (h : Grow w0 w) : Grow w0 (w.put f t) := by
  refine h.trans ?_
  cases f <;> exact ⟨by first | exact ⟨_, rfl⟩ | exact ⟨[], by simp [Wr.put]⟩, by first | exact ⟨_, rfl⟩ | exact ⟨[], by simp [Wr.put]⟩,
    by first | exact ⟨_, rfl⟩ | exact ⟨[], by simp [Wr.put]⟩, by first | exact ⟨_, rfl⟩ | exact ⟨[], by simp [Wr.put]⟩⟩

theorem grow_bump (k : Nat) (h : Grow w0 w) : Grow w0 (w.bump k) := h

theorem grow_if {c : Prop} [Decidable c] {w1 w2 : Wr} (h1 : Grow w0 w1) (h2 : Grow w0 w2) : Grow w0 (if c then w1 else w2) := by
  split
  · exact h1
  · exact h2

theorem grow_foldl {α : Type} (g : Wr → α → Wr) (l : List α) (hg : ∀ w x, Grow w (g w x)) (h : Grow w0 w) : Grow w0 (l.foldl g w) := by
  induction l generalizing w with
  | nil => exact h
  | cons x l ih => exact ih (h.trans (hg w x))

theorem grow_codeLineno (f : OFile) (h : Grow w0 w) : Grow w0 (w.codeLineno I f) := by
  unfold Wr.codeLineno
  split
  · exact h.trans ⟨⟨_, rfl⟩, ⟨[], by simp [Wr.bump]⟩, ⟨[], by simp [Wr.bump]⟩, ⟨[], by simp [Wr.bump]⟩⟩
  · exact h

open Lean.Parser.Tactic in
/-- files only grow: go through the calls from the last to the first -/
syntax "grow" : tactic
macro_rules
  | `(tactic| grow) => `(tactic| repeat' (first
      | with_reducible exact Grow.refl _ | with_reducible assumption
      | with_reducible apply grow_put | with_reducible apply grow_bump | with_reducible apply grow_codeLineno | with_reducible apply grow_if
      | (with_reducible refine grow_foldl _ _ (fun _ _ => ?_) ?_) | split))

theorem grow_bumpIf (f : OFile) (h : Grow w0 w) : Grow w0 (w.bumpIf f) := by unfold Wr.bumpIf; grow
theorem grow_putcCode (f : OFile) (c : Nat) (h : Grow w0 w) : Grow w0 (w.putcCode f c) := by
  unfold Wr.putcCode; with_reducible apply grow_put; with_reducible apply grow_if; exact grow_bumpIf f h; exact h
theorem grow_putlCode (f : OFile) (s : List Nat) (h : Grow w0 w) : Grow w0 (w.putlCode f s) := grow_put _ _ (grow_bumpIf _ h)
theorem grow_putcs (f : OFile) (t : List Nat) (h : Grow w0 w) : Grow w0 (w.putcs f t) :=
  grow_foldl _ _ (fun w c => grow_putcCode f c (Grow.refl w)) h
theorem grow_lines (f : OFile) (l : List String) (h : Grow w0 w) : Grow w0 (w.lines f l) :=
  grow_foldl _ _ (fun w s => grow_putlCode f _ (Grow.refl w)) h
theorem grow_inputLineno (n : Nat) (h : Grow w0 w) : Grow w0 (w.inputLineno I n) := by unfold Wr.inputLineno; grow
theorem grow_countLine (f : OFile) (h : Grow w0 w) : Grow w0 (w.countLine I f) := by unfold Wr.countLine; grow
theorem grow_section (f : OFile) (l : List (List Nat)) (h : Grow w0 w) : Grow w0 (w.section f l) :=
  grow_foldl _ _ (fun w s => grow_put _ _ (grow_bumpIf f (Grow.refl w))) h

macro_rules
  | `(tactic| grow) => `(tactic| repeat' (first
      | with_reducible exact Grow.refl _ | with_reducible assumption
      | with_reducible apply grow_putcCode | with_reducible apply grow_putlCode | with_reducible apply grow_putcs | with_reducible apply grow_lines | with_reducible apply grow_inputLineno | with_reducible apply grow_countLine
      | with_reducible apply grow_section | with_reducible apply grow_bumpIf
      | with_reducible apply grow_put | with_reducible apply grow_bump | with_reducible apply grow_codeLineno | with_reducible apply grow_if
      | (with_reducible refine grow_foldl _ _ (fun _ _ => ?_) ?_) | split))

theorem grow_definePrefixed (f : OFile) (p n : List Nat) (h : Grow w0 w) : Grow w0 (w.definePrefixed I f p n) := by
  unfold Wr.definePrefixed; dsimp only; grow
theorem grow_codeLines (f : OFile) (n : String) (b : Option CodeBlock) (h : Grow w0 w) : Grow w0 (w.codeLines I f n b) := by
  unfold Wr.codeLines
  cases b with
  | none => exact h
  | some b => dsimp only; grow
theorem grow_newline (h : Grow w0 w) : Grow w0 (w.newline I) := by unfold Wr.newline; grow
theorem grow_line (s : String) (h : Grow w0 w) : Grow w0 (w.line I s) := grow_newline (grow_put _ _ h)
theorem grow_int (v : Int) (h : Grow w0 w) : Grow w0 (w.int I v) := grow_put _ _ h
theorem grow_ints (l : List Int) (j : Nat) (h : Grow w0 w) : Grow w0 (w.ints I l j) := by
  induction l generalizing j w with
  | nil => exact h
  | cons v l ih =>
    unfold Wr.ints
    split
    · exact ih _ (grow_int v (grow_newline h))
    · exact ih _ (grow_int v h)
theorem grow_endTable (h : Grow w0 w) : Grow w0 (w.endTable I) := grow_line _ (grow_newline h)
theorem grow_table (n : String) (l : List Int) (h : Grow w0 w) : Grow w0 (w.table I n l) :=
  grow_endTable (grow_ints _ _ (grow_put _ _ h))
theorem grow_startStr (n : String) (h : Grow w0 w) : Grow w0 (w.startStr I n) := grow_newline (grow_put _ _ h)
theorem grow_stype (f : OFile) (h : Grow w0 w) : Grow w0 (w.stype I f) := by unfold Wr.stype; grow
theorem grow_ltype (f : OFile) (h : Grow w0 w) : Grow w0 (w.ltype f) := by unfold Wr.ltype; grow
theorem grow_yyint (f : OFile) (h : Grow w0 w) : Grow w0 (w.yyint I f) := by unfold Wr.yyint; grow
theorem grow_stos (h : Grow w0 w) : Grow w0 (w.stos I) := by
  unfold Wr.stos
  dsimp only
  with_reducible apply grow_if
  · exact h
  · exact grow_putlCode _ _ (grow_table _ _ (grow_putlCode _ _ h))
theorem grow_define (f : OFile) (i : Nat) (h : Grow w0 w) : Grow w0 (w.define I f i) := by unfold Wr.define; dsimp only; grow
theorem grow_yydebug (f : OFile) (h : Grow w0 w) : Grow w0 (w.yydebug I f) := by unfold Wr.yydebug; grow

macro_rules
  | `(tactic| grow) => `(tactic| repeat' (first
      | with_reducible exact Grow.refl _ | with_reducible assumption
      | with_reducible apply grow_putcCode | with_reducible apply grow_putlCode | with_reducible apply grow_putcs | with_reducible apply grow_lines | with_reducible apply grow_inputLineno | with_reducible apply grow_countLine
      | with_reducible apply grow_section | with_reducible apply grow_bumpIf
      | with_reducible apply grow_definePrefixed | with_reducible apply grow_codeLines | with_reducible apply grow_line | with_reducible apply grow_newline | with_reducible apply grow_endTable | with_reducible apply grow_table | with_reducible apply grow_startStr
      | with_reducible apply grow_stype | with_reducible apply grow_ltype | with_reducible apply grow_yyint | with_reducible apply grow_stos | with_reducible apply grow_define | with_reducible apply grow_yydebug
      | with_reducible apply grow_put | with_reducible apply grow_bump | with_reducible apply grow_codeLineno | with_reducible apply grow_if
      | (with_reducible refine grow_foldl _ _ (fun _ _ => ?_) ?_) | split))

theorem grow_prefix (f : OFile) (h : Grow w0 w) : Grow w0 (w.prefix I f) := by
  unfold Wr.prefix
  dsimp only
  with_reducible apply grow_put
  with_reducible apply grow_countLine
  cases I.symbolPrefix with
  | none => exact h
  | some p => dsimp only; grow
theorem grow_defines (f : OFile) (h : Grow w0 w) : Grow w0 (w.defines I f) := by
  unfold Wr.defines
  cases I.union with
  | none => dsimp only; grow
  | some u => dsimp only; grow
theorem grow_stored (f : OFile) (h : Grow w0 w) : Grow w0 (w.stored I f) := by unfold Wr.stored; grow
theorem grow_nameItems (l : List (Option (List Nat))) (j : Nat) (h : Grow w0 w) : Grow w0 (w.nameItems I l j) := by
  induction l generalizing j w with
  | nil => exact h
  | cons s l ih =>
    unfold Wr.nameItems
    dsimp only
    split
    · exact ih _ (grow_put _ _ (grow_newline h))
    · exact ih _ (grow_put _ _ h)
theorem grow_rule (r : Nat × List Nat) (h : Grow w0 w) : Grow w0 (w.rule I r) := grow_newline (grow_put _ _ h)
theorem grow_backtracking (f : OFile) (h : Grow w0 w) : Grow w0 (w.backtracking I f) := by unfold Wr.backtracking; grow
theorem grow_pure (f : OFile) (h : Grow w0 w) : Grow w0 (w.pure I f) := by unfold Wr.pure; grow
theorem grow_trailing (h : Grow w0 w) : Grow w0 (w.trailing I) := by
  unfold Wr.trailing
  cases I.trail with
  | none => exact h
  | some x => obtain ⟨a, b, c⟩ := x; dsimp only; grow
theorem grow_copyActs (t : List Nat) (last st : Nat) (h : Grow w0 w) : Grow w0 (w.copyActs I t last st) := by
  induction t generalizing last st w with
  | nil => unfold Wr.copyActs; grow
  | cons c t ih =>
    unfold Wr.copyActs
    split
    · split
      · split
        · exact ih _ _ (grow_codeLineno _ h)
        · exact ih _ _ h
      · exact ih _ _ (grow_putcCode _ _ (grow_putcs _ _ h))
    · exact ih _ _ (grow_putcCode _ _ h)
theorem grow_semantic (h : Grow w0 w) : Grow w0 (w.semantic I) := by
  unfold Wr.semantic
  split
  · exact h
  · exact grow_copyActs _ _ _ (grow_putcCode _ _ h)
theorem grow_parseDecl (f : OFile) (h : Grow w0 w) : Grow w0 (w.parseDecl I f) := by unfold Wr.parseDecl; dsimp only; grow
theorem grow_lexGiven (f : OFile) (h : Grow w0 w) : Grow w0 (w.lexGiven I f) := by unfold Wr.lexGiven; grow
theorem grow_lexParams (f : OFile) (h : Grow w0 w) : Grow w0 (w.lexParams I f) := by
  unfold Wr.lexParams
  dsimp only
  with_reducible apply grow_if
  · with_reducible apply grow_lines; with_reducible apply grow_put; with_reducible apply grow_put; with_reducible apply grow_lines; with_reducible apply grow_put; with_reducible apply grow_put; exact h
  · grow
theorem grow_lexDecl (f : OFile) (h : Grow w0 w) : Grow w0 (w.lexDecl I f) := by
  unfold Wr.lexDecl
  dsimp only
  have : Grow w0 ((((((w.putcCode f 10).lines f ["/* Parameters sent to lex. */\n", "#ifdef YYLEX_PARAM\n"]).lexGiven I f).lines f ["#else\n"]).lexParams I f).lines f ["#endif\n"]) :=
    grow_lines _ _ (grow_lexParams _ (grow_lines _ _ (grow_lexGiven _ (grow_lines _ _ (grow_putcCode _ _ h)))))
  exact grow_if (grow_lines _ _ this) this
theorem grow_errorDecl (f : OFile) (h : Grow w0 w) : Grow w0 (w.errorDecl I f) := by unfold Wr.errorDecl; dsimp only; grow
theorem grow_destructDecl (f : OFile) (h : Grow w0 w) : Grow w0 (w.destructDecl I f) := by unfold Wr.destructDecl; dsimp only; grow
theorem grow_initial (h : Grow w0 w) : Grow w0 (w.initial I) := by
  unfold Wr.initial
  split
  · exact grow_put _ _ h
  · exact h
theorem grow_destructImpl (h : Grow w0 w) : Grow w0 (w.destructImpl I) := by
  unfold Wr.destructImpl Wr.destruct; dsimp only; grow
theorem grow_externs (f : OFile) (l : List (List Nat)) (h : Grow w0 w) : Grow w0 (w.externs f l) := by unfold Wr.externs; dsimp only; grow

theorem grow_tokenDefines (h : Grow w0 w) : Grow w0 (w.tokenDefines I) := by
  unfold Wr.tokenDefines
  dsimp only
  have h5 : Grow w0 (((w.put .ext [10]).yydebug I .ext).externs .ext I.skel.globalVars) := grow_externs _ _ (grow_yydebug _ (grow_put _ _ h))
  have h6 : Grow w0 (if I.iflag = true then
        if I.dflag = true then
          ((if (!I.pureParser) = true then (((w.put .ext [10]).yydebug I .ext).externs .ext I.skel.globalVars).externs .ext I.skel.impureVars
            else ((w.put .ext [10]).yydebug I .ext).externs .ext I.skel.globalVars).bump 1).put .code (str "#include \"" ++ I.definesName ++ str "\"\n")
        else (if (!I.pureParser) = true then (((w.put .ext [10]).yydebug I .ext).externs .ext I.skel.globalVars).externs .ext I.skel.impureVars
            else ((w.put .ext [10]).yydebug I .ext).externs .ext I.skel.globalVars).defines I .ext
        else (w.putcCode .code 10).defines I .code) :=
    grow_if (grow_if (grow_put _ _ (grow_bump _ (grow_if (grow_externs _ _ h5) h5))) (grow_defines _ (grow_if (grow_externs _ _ h5) h5)))
      (grow_defines _ (grow_putcCode _ _ h))
  refine grow_if ?_ h6
  unfold Wr.guardStart Wr.guardEnd
  exact grow_put _ _ (grow_defines _ (grow_put _ _ (grow_put _ _ h6)))

theorem grow_decls (h : Grow w0 w) : Grow w0 (w.decls I) := by
  have gi : ∀ (c : Prop) [Decidable c] (w : Wr) (f : OFile) (s : List (List Nat)), Grow w0 w → Grow w0 (if c then w.section f s else w) :=
    fun c _ w f s h => grow_if (grow_section _ _ h) h
  have gd : ∀ (w : Wr) (f : OFile), Grow w0 w → Grow w0 (if I.destructor = true then w.destructDecl I f else w) := fun w f h => grow_if (grow_destructDecl _ h) h
  have gl : ∀ (w : Wr) (f : OFile), Grow w0 w → Grow w0 (if I.locations = true then w.ltype f else w) := fun w f h => grow_if (grow_ltype _ h) h
  unfold Wr.decls
  dsimp only
  with_reducible apply grow_tokenDefines
  with_reducible apply gi
  with_reducible apply gd
  with_reducible apply grow_errorDecl
  with_reducible apply grow_lexDecl
  with_reducible apply grow_parseDecl
  with_reducible apply gl
  with_reducible apply grow_stype
  with_reducible apply grow_stored
  with_reducible apply grow_pure
  exact h

theorem grow_before (h : Grow w0 w) : Grow w0 (w.before I) := by
  unfold Wr.before
  dsimp only
  have h1 := grow_backtracking (I := I) I.out (grow_codeLines (I := I) .code "top" I.top h)
  have h2 := grow_if (c := I.rflag = true) (grow_backtracking (I := I) .code h1) h1
  exact grow_if (grow_put _ _ (grow_bump _ (grow_codeLineno _ h2))) h2

theorem grow_front (h : Grow w0 w) : Grow w0 (w.front I) := by
  rw [front_eq]
  exact grow_decls (grow_prefix _ (grow_before h))

theorem grow_tables (h : Grow w0 w) : Grow w0 (w.tables I) := by unfold Wr.tables; dsimp only; grow

theorem grow_debug (h : Grow w0 w) : Grow w0 (w.debug I) := by
  unfold Wr.debug
  dsimp only
  with_reducible apply grow_line
  with_reducible apply grow_endTable
  refine grow_foldl _ _ (fun w r => grow_rule r (Grow.refl w)) ?_
  with_reducible apply grow_startStr
  have : ∀ w : Wr, Grow w0 w → Grow w0 (if I.tokenTable = true then w.line I "#if YYDEBUG" else w) := fun w h => grow_if (grow_line _ h) h
  with_reducible apply this
  with_reducible apply grow_endTable
  with_reducible apply grow_nameItems
  grow

theorem grow_middle (h : Grow w0 w) : Grow w0 (w.middle I) := by
  have gi : ∀ (c : Prop) [Decidable c] (w : Wr) (s : List (List Nat)), Grow w0 w → Grow w0 (if c then w.section .code s else w) :=
    fun c _ w s h => grow_if (grow_section _ _ h) h
  unfold Wr.middle
  dsimp only
  with_reducible apply gi
  with_reducible apply grow_section
  with_reducible apply gi
  with_reducible apply grow_section
  have gd : ∀ w : Wr, Grow w0 w → Grow w0 (if I.destructor = true then w.destructImpl I else w) := fun w h => grow_if (grow_destructImpl h) h
  with_reducible apply gd
  with_reducible apply grow_trailing
  with_reducible apply grow_codeLines
  with_reducible apply grow_codeLines
  with_reducible apply gi
  with_reducible apply grow_section
  with_reducible apply grow_codeLines
  with_reducible apply gi
  with_reducible apply grow_section
  grow

theorem grow_back (h : Grow w0 w) : Grow w0 (w.back I) := by
  rw [back_eq]
  exact grow_section _ _ (grow_semantic (grow_section _ _ (grow_initial (grow_middle h))))

end Verif.Byacc
