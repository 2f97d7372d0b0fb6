import Verif.Proofs.TextLines
set_option autoImplicit false
namespace Verif.Byacc
open Rd Spec.OutText Spec.YText

/-! The parts of the output count the lines of the code file -/

/-- What the reader makes sure of. -/
structure TextOk (I : TextIn) : Prop where
  codeName : Plain I.codeName
  inputName : Plain I.inputName
  externsName : Plain I.externsName
  definesName : Plain I.definesName
  pfx : ∀ p, I.symbolPrefix = some p → Plain p
  names : ∀ n ∈ I.names, Plain n
  params : ∀ p ∈ I.parseParam ++ I.lexParam, Plain p.type ∧ Plain p.name ∧ Plain p.type2
  /-- lines of `%code` blocks are counted -/
  top : ∀ b, I.top = some b → I.lflag = false → b.lines.count 10 = b.num
  requires : ∀ b, I.requires = some b → I.lflag = false → b.lines.count 10 = b.num
  provides : ∀ b, I.provides = some b → I.lflag = false → b.lines.count 10 = b.num
  header : ∀ b, I.header = some b → I.lflag = false → b.lines.count 10 = b.num
  text : I.text = [] ∨ I.text.getLast? = some 10
  trail : ∀ c r n, I.trail = some (c, r, n) → c.getLast? = some 10
  skel : ∀ s ∈ I.skel.xdecls ++ I.skel.tables ++ I.skel.globalVars ++ I.skel.impureVars ++ I.skel.hdrDefs ++ I.skel.hdrVars ++
    I.skel.body1 ++ I.skel.bodyVars ++ I.skel.body2 ++ I.skel.initVars ++ I.skel.body3 ++ I.skel.trailer, Plain s

variable {I : TextIn}

theorem plain_getD (h : TextOk I) (i : Nat) : Plain (I.names.getD i []) := by
  rw [List.getD_eq_getElem?_getD]
  cases e : I.names[i]? with
  | none => simp [Plain]
  | some n => exact h.names n (List.mem_of_getElem? e)

theorem plain_pfx (h : TextOk I) : Plain I.pfx := by
  unfold TextIn.pfx
  cases e : I.symbolPrefix with
  | none => simp only [Option.getD_none]; unfold Plain; decide
  | some p => exact h.pfx p e

theorem plain_static : Plain I.static := by
  unfold TextIn.static
  split
  · simp [Plain]
  · unfold Plain; decide

theorem plain_str {s : String} (h : 10 ∉ str s) : Plain (str s) := h

theorem plain_types (more : Bool) (l : List Param) (h : ∀ p ∈ l, Plain p.type ∧ Plain p.name ∧ Plain p.type2) : Plain (paramTypes more l) := by
  have go : ∀ l : List Param, (∀ p ∈ l, Plain p.type ∧ Plain p.name ∧ Plain p.type2) → Plain (paramTypes.go more l) := by
    intro l
    induction l with
    | nil => intro _; simp [paramTypes.go, Plain]
    | cons p l ih =>
      intro h
      obtain ⟨h1, h2, h3⟩ := h p (by simp)
      unfold paramTypes.go
      refine plain_append (plain_append (plain_append (plain_append (plain_append h1 ?_) h2) h3) ?_) (ih (fun q hq => h q (by simp [hq])))
      · split <;> simp [Plain]
      · split
        · unfold Plain; decide
        · simp [Plain]
  cases l with
  | nil =>
    show Plain (if more then [] else str "void")
    split
    · simp [Plain]
    · unfold Plain; decide
  | cons p l => unfold paramTypes; exact go _ h

theorem plain_paramNames (more : Bool) (l : List Param) (h : ∀ p ∈ l, Plain p.type ∧ Plain p.name ∧ Plain p.type2) : Plain (paramNames more l) := by
  induction l with
  | nil => simp [paramNames, Plain]
  | cons p l ih =>
    unfold paramNames
    refine plain_append (plain_append (h p (by simp)).2.1 ?_) (ih (fun q hq => h q (by simp [hq])))
    split
    · unfold Plain; decide
    · simp [Plain]

theorem count_line {s t : List Nat} (h1 : s.count 10 = 1) (h2 : Plain t) : (s ++ t).count 10 = 1 := by simp [h1, h2.count]

/-- a line without newlines before its end -/
theorem count_nl {t : List Nat} (h : Plain t) : (t ++ [10]).count 10 = 1 := by simp [h.count]

theorem ext_inputLineno (h : TextOk I) (n : Nat) (w : Wr) : ExtW I w (w.inputLineno I n) := by
  unfold Wr.inputLineno
  split
  · exact ext_bump w (fun _ => count_lineText h.inputName n)
  · exact ExtW.refl w

/-- `CountLine` is right if it is about the code file, or if there is a separate file for the tables -/
theorem ext_countLine {t : List Nat} (f : OFile) (w : Wr) (hf : f = .code ∨ I.rflag = true) (h : t.count 10 = 1) :
    ExtW I w ((w.countLine I f).put f t) := by
  unfold Wr.countLine
  split
  · next e =>
    simp only [Bool.or_eq_true, Bool.not_eq_true', decide_eq_true_eq] at e
    have : f = .code := by
      rcases hf with hf | hf
      · exact hf
      · rcases e with e | e
        · rw [hf] at e; cases e
        · exact e
    subst this
    exact ext_bump w (fun _ => h)
  · next e =>
    simp only [Bool.or_eq_true, Bool.not_eq_true', decide_eq_true_eq, not_or] at e
    exact ext_put f w (fun x => absurd x e.2)

theorem plain_padRight (n : Nat) {t : List Nat} (h : Plain t) : Plain (padRight n t) := by
  unfold Plain at *
  simp [padRight, h]

theorem plain_drop (n : Nat) {t : List Nat} (h : Plain t) : Plain (t.drop n) := fun x => h (List.mem_of_mem_drop x)
theorem plain_take (n : Nat) {t : List Nat} (h : Plain t) : Plain (t.take n) := fun x => h (List.mem_of_mem_take x)

theorem ext_definePrefixed (f : OFile) (p name : List Nat) (w : Wr) (hf : f = .code ∨ I.rflag = true) (hp : Plain p) (hn : Plain name) :
    ExtW I w (w.definePrefixed I f p name) := by
  unfold Wr.definePrefixed
  refine ((((ext_countLine f w hf ?_).trans (ext_countLine f _ hf ?_)).trans (ext_countLine f _ hf ?_)).trans (ext_countLine f _ hf ?_))
  · rfl
  · exact count_nl (plain_append (by unfold Plain; decide) hn)
  · exact count_nl (plain_append (plain_append (plain_append (plain_append (by unfold Plain; decide) (plain_padRight _ hn)) (by unfold Plain; decide)) hp)
      (plain_drop 2 hn))
  · simp only [List.count_append]
    rw [hn.count, show (str "#endif /* ").count 10 = 0 by decide, show (str " */\n").count 10 = 1 by decide]

theorem ext_if {c : Prop} [Decidable c] (w w1 : Wr) (h : c → ExtW I w w1) : ExtW I w (if c then w1 else w) := by
  split
  · next e => exact h e
  · exact ExtW.refl w

theorem ext_prefix (h : TextOk I) (f : OFile) (w : Wr) (hf : f = .code ∨ I.rflag = true) : ExtW I w (w.prefix I f) := by
  unfold Wr.prefix
  dsimp only
  refine ExtW.trans ?_ (ext_countLine f _ hf ?_)
  · cases e : I.symbolPrefix with
    | none => exact ExtW.refl w
    | some p =>
      have hp := h.pfx p e
      dsimp only
      refine ExtW.trans ?_ (ext_putcCode f 10 _)
      refine ExtW.trans ?_ (ext_putlCode f _ _ (by decide))
      refine ExtW.trans ?_ (ext_putcCode f 10 _)
      refine ExtW.trans ?_ (ext_definePrefixed f p _ _ hf hp (by unfold Plain; decide))
      refine ExtW.trans ?_ (ext_definePrefixed f p _ _ hf hp (by unfold Plain; decide))
      refine ExtW.trans ?_ (ext_putlCode f _ _ (by decide))
      refine ExtW.trans ?_ (ext_putcCode f 10 _)
      refine ExtW.trans ?_ (ext_if _ _ (fun _ => ?_))
      · refine ext_foldl _ _ (fun w s hs => ext_definePrefixed f p _ w hf hp ?_) w
        revert s
        unfold Plain
        decide
      · exact (ext_definePrefixed f p _ _ hf hp (by unfold Plain; decide)).trans (ext_definePrefixed f p _ _ hf hp (by unfold Plain; decide))
  · simp only [List.count_append]
    rw [(plain_pfx h).count, show (str "#define YYPREFIX \"").count 10 = 0 by decide, show (str "\"\n").count 10 = 1 by decide]

theorem ext_noncode {t : List Nat} (f : OFile) (w : Wr) (h : f ≠ .code) : ExtW I w (w.put f t) := ext_put f w (fun x => absurd x h)

theorem last_text (s : String) (t : List Nat) (h : (str s).getLast? = some 10) : (t ++ str s).getLast? = some 10 := by
  simp [List.getLast?_append, h]

theorem ext_codeLines (h : TextOk I) (f : OFile) (name : String) (hn : Plain (str name)) (b : Option CodeBlock)
    (hb : ∀ x, b = some x → I.lflag = false → x.lines.count 10 = x.num) (w : Wr) : ExtW I w (w.codeLines I f name b) := by
  unfold Wr.codeLines
  cases b with
  | none => exact ExtW.refl w
  | some b =>
    simp only
    by_cases e : f = .code
    · subst e
      simp only [if_true]
      refine ExtW.trans ?_ (ext_codeLineno h.codeName .code _ (fun _ => ?_))
      · have : (((((w.bump b.num).bump 3).put .code [10]).put .code (str "/* %code \"" ++ str name ++ str "\" block start */\n")).put .code b.lines).put .code
              (str "/* %code \"" ++ str name ++ str "\" block end */\n") =
            (((((((w.bump 1).put .code [10]).bump 1).put .code (str "/* %code \"" ++ str name ++ str "\" block start */\n")).bump b.num).put .code b.lines).bump 1).put .code
              (str "/* %code \"" ++ str name ++ str "\" block end */\n") := by
          simp only [put_bump, bump_bump]
          congr 5
          omega
        rw [this]
        refine ((((ext_bump w (fun _ => rfl)).trans (ext_bump _ (fun _ => ?_))).trans (ext_bump _ (hb b rfl))).trans (ext_bump _ (fun _ => ?_)))
        · simp only [List.count_append]
          rw [hn.count, show (str "/* %code \"").count 10 = 0 by decide, show (str "\" block start */\n").count 10 = 1 by decide]
        · simp only [List.count_append]
          rw [hn.count, show (str "/* %code \"").count 10 = 0 by decide, show (str "\" block end */\n").count 10 = 1 by decide]
      · exact lineStart_put _ (last_text _ _ (by decide))
    · simp only [if_neg e]
      exact ((ext_noncode f _ e).trans (ext_noncode f _ e)).trans (ext_noncode f _ e)

theorem ext_newline (w : Wr) : ExtW I w (w.newline I) := by
  unfold Wr.newline TextIn.out
  cases e : I.rflag
  · exact ext_bump w (fun _ => rfl)
  · exact ext_noncode .tab w (by simp)

theorem ext_out {t : List Nat} (w : Wr) (h : Plain t) : ExtW I w (w.put I.out t) := ext_put _ w (fun _ => h)

theorem ext_line (s : String) (w : Wr) (h : Plain (str s)) : ExtW I w (w.line I s) := (ext_out w h).trans (ext_newline _)

theorem ext_int (v : Int) (w : Wr) : ExtW I w (w.int I v) :=
  ext_out w (plain_append (plain_padLeft 5 (plain_int v)) (by simp [Plain]))

theorem ext_ints (l : List Int) (j : Nat) (w : Wr) : ExtW I w (w.ints I l j) := by
  induction l generalizing j w with
  | nil => exact ExtW.refl w
  | cons v l ih =>
    unfold Wr.ints
    split
    · exact ((ext_newline w).trans (ext_int v _)).trans (ih _ _)
    · exact (ext_int v w).trans (ih _ _)

theorem ext_endTable (w : Wr) : ExtW I w (w.endTable I) := (ext_newline w).trans (ext_line _ _ (by unfold Plain; decide))

theorem ext_table (h : TextOk I) (name : String) (hn : Plain (str name)) (l : List Int) (w : Wr) : ExtW I w (w.table I name l) := by
  unfold Wr.table
  refine ExtW.trans (ExtW.trans ?_ (ext_ints _ _ _)) (ext_endTable _)
  refine ext_out w ?_
  refine plain_append (plain_append (plain_append (plain_append (plain_append (plain_append plain_static ?_) (plain_pfx h)) hn) ?_)
    (plain_padLeft _ (plain_int _))) (by simp [Plain])
  · unfold Plain; decide
  · unfold Plain; decide

theorem ext_stype (f : OFile) (w : Wr) : ExtW I w (w.stype I f) := by
  unfold Wr.stype
  split
  · exact (ext_putcCode f 10 w).trans (ext_lines f _ _ (by decide))
  · exact ExtW.refl w

theorem ext_ltype (f : OFile) (w : Wr) : ExtW I w (w.ltype f) :=
  (ext_putcCode f 10 w).trans (ext_lines f _ _ (by decide))

theorem ext_yyint (f : OFile) (w : Wr) (hf : f = .code ∨ I.rflag = true) : ExtW I w (w.yyint I f) := ext_countLine f w hf (by decide)

theorem out_ok : I.out = .code ∨ I.rflag = true := by
  unfold TextIn.out
  cases I.rflag <;> simp

theorem ext_stos (h : TextOk I) (w : Wr) : ExtW I w (w.stos I) := by
  unfold Wr.stos
  split
  · exact ExtW.refl w
  · exact ((ext_putlCode _ _ w (by decide)).trans (ext_table h "stos" (by unfold Plain; decide) _ _)).trans (ext_putlCode _ _ _ (by decide))

theorem ext_tables (h : TextOk I) (w : Wr) : ExtW I w (w.tables I) := by
  unfold Wr.tables
  refine ExtW.trans ?_ (ext_line "#endif" _ (by unfold Plain; decide))
  refine ExtW.trans ?_ (ext_table h "ctable" (by unfold Plain; decide) _ _)
  refine ExtW.trans ?_ (ext_line "#if YYBTYACC" _ (by unfold Plain; decide))
  refine ExtW.trans ?_ (ext_table h "check" (by unfold Plain; decide) _ _)
  refine ExtW.trans ?_ (ext_table h "table" (by unfold Plain; decide) _ _)
  refine ExtW.trans ?_ (ext_bump _ (fun _ => count_nl (plain_append (by unfold Plain; decide) (plain_digits _))))
  refine ExtW.trans ?_ (ext_table h "gindex" (by unfold Plain; decide) _ _)
  refine ExtW.trans ?_ (ext_line "#endif" _ (by unfold Plain; decide))
  refine ExtW.trans ?_ (ext_table h "cindex" (by unfold Plain; decide) _ _)
  refine ExtW.trans ?_ (ext_line "#if YYBTYACC" _ (by unfold Plain; decide))
  refine ExtW.trans ?_ (ext_table h "rindex" (by unfold Plain; decide) _ _)
  refine ExtW.trans ?_ (ext_table h "sindex" (by unfold Plain; decide) _ _)
  refine ExtW.trans ?_ (ext_table h "dgoto" (by unfold Plain; decide) _ _)
  refine ExtW.trans ?_ (ext_stos h _)
  refine ExtW.trans ?_ (ext_table h "defred" (by unfold Plain; decide) _ _)
  refine ExtW.trans ?_ (ext_table h "len" (by unfold Plain; decide) _ _)
  refine ExtW.trans ?_ (ext_table h "lhs" (by unfold Plain; decide) _ _)
  exact ext_yyint _ w out_ok

theorem plain_takeWhile (p : Nat → Bool) {t : List Nat} (h : Plain t) : Plain (t.takeWhile p) :=
  fun x => h (List.takeWhile_subset _ x)

theorem plain_defName {t : List Nat} (h : Plain t) : Plain (defName t) := by
  unfold defName
  split
  · exact plain_takeWhile _ (fun x => h (by simp [x]))
  · exact h

theorem ext_define (h : TextOk I) (f : OFile) (w : Wr) (i : Nat) : ExtW I w (w.define I f i) := by
  unfold Wr.define
  simp only
  split
  · exact ext_bumpIf f w (fun _ => count_nl (plain_append (plain_append (plain_append (by unfold Plain; decide) (plain_defName (plain_getD h i)))
      (by simp [Plain])) (plain_int _)))
  · exact ExtW.refl w

theorem ext_bumpCond {t : List Nat} (f : OFile) (c : Bool) (w : Wr) (hc : f = .code → c = true) (h : t.count 10 = 1) :
    ExtW I w (if c then (w.bumpIf f).put f t else w.bumpIf f) := by
  cases c with
  | true => exact ext_bumpIf f w (fun _ => h)
  | false =>
    have : f ≠ .code := fun e => by cases hc e
    simp only [Wr.bumpIf, if_neg this]
    exact ExtW.refl w

theorem ext_defines (h : TextOk I) (f : OFile) (w : Wr) (hf : f = .code → I.iflag = false) : ExtW I w (w.defines I f) := by
  unfold Wr.defines
  dsimp only
  have last : ∀ w : Wr, f = .defs ∨ I.iflag = true ∧ I.dflag = false → ExtW I w
      (if I.locations = true then
        ((if I.unionized = true then
            if !I.pureParser then (match I.union with | some u => w.putcs f u | none => w).put f (str "extern YYSTYPE " ++ I.pfx ++ str "lval;\n")
            else match I.union with | some u => w.putcs f u | none => w
          else w).ltype f).put f (str "extern YYLTYPE " ++ I.pfx ++ str "lloc;\n")
      else if I.unionized = true then
            if !I.pureParser then (match I.union with | some u => w.putcs f u | none => w).put f (str "extern YYSTYPE " ++ I.pfx ++ str "lval;\n")
            else match I.union with | some u => w.putcs f u | none => w
          else w) := by
    intro w e
    have hc : f ≠ .code := by
      intro e'
      rcases e with e | e
      · rw [e'] at e; cases e
      · rw [hf e'] at e; cases e.1
    refine ExtW.trans ?_ (ext_if _ _ (fun _ => (ext_ltype f _).trans (ext_noncode f _ hc)))
    refine ext_if _ _ (fun _ => ?_)
    refine ExtW.trans ?_ (ext_if _ _ (fun _ => ext_noncode f _ hc))
    cases I.union with
    | none => exact ExtW.refl _
    | some u => exact ext_putcs f u _
  refine ExtW.trans ?_ (ext_if _ _ (fun e => last _ (by simpa using e)))
  refine ExtW.trans ?_ (ext_if _ _ (fun _ => (ext_bumpIf f _ (fun _ => by decide)).trans (ext_bumpIf f _ (fun _ => by decide))))
  refine ExtW.trans ?_ (ext_if _ _ (fun _ => ext_codeLines h f "provides" (by unfold Plain; decide) _ h.provides _))
  refine ExtW.trans ?_ (ext_bumpCond f _ _ ?_ (count_nl (plain_append (by unfold Plain; decide) (plain_int _))))
  · refine ExtW.trans ?_ (ext_foldl _ _ (fun w i _ => ext_define h f w i) _)
    exact ext_if _ _ (fun _ => ext_codeLines h f "requires" (by unfold Plain; decide) _ h.requires w)
  · intro e; subst e; simp

end Verif.Byacc
