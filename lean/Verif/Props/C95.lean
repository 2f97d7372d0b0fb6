import Verif.Proofs.LemonTextLine
import Verif.Props.C72
/-
C95: the `#line` directives in the C file made by lemon that point to the file itself name the line after them (violated without `-m`, and if `%include` starts
with a comment).
-/
set_option autoImplicit false
namespace Verif.Lemon
open Verif.Spec.LText LT
open Verif.Spec.GFile (text)

/-- Every directive that points to the generated file stands on a line of its own.  In front of the macros for tokens it names the line after it, plus the
number of lines of the first section of the template if the code of `%include` starts with `/`.  Behind it is the same with option `-m`, and one less without
`-m`. -/
theorem C95_offset (I : LText) (ls : List (List Nat)) (r : List Nat) (H : OneLine I) (HT : Translated I) (h : TemplateOK I.template ls)
    (hr : NoBlank ((I.s.args .incl).getD []) r) :
    ∃ pre post, (reportText I).code = pre ++ .text (tokenIf I ++ [10]) :: post ∧
      SelfOff I.outname (if r.head? = some 47 then (((sections ls).getD 0 []).length : Int) else 0) (reportText I).code (fun a => a.length ≤ pre.length) ∧
      SelfOff I.outname ((if r.head? = some 47 then (((sections ls).getD 0 []).length : Int) else 0) - if I.mhflag then 0 else 1) (reportText I).code (fun a => pre.length < a.length) := by
  have e : r = I.incl := noBlank_unique hr (noBlank _)
  subst e
  have h1 := ir_front H h
  obtain ⟨h2, x, e2⟩ := ir_tokens H h1
  have h3 := ir_back H HT h2
  obtain ⟨y, e3⟩ := back_grow (I := I) (LW.tokens I ((LW.mk [] 1 (templateLines I.template) false).front I))
  have hd : (if I.incl.head? = some 47 then (((sections ls).getD 0 []).length : Int) else 0) = skipped I ls := rfl
  rw [hd]
  have hcode : (reportText I).code = ((LW.mk [] 1 (templateLines I.template) false).front I).code ++ .text (tokenIf I ++ [10]) :: (x ++ y) := by
    unfold reportText
    rw [e3, e2]
    simp
  refine ⟨_, _, hcode, ?_, ?_⟩
  · intro a n b e hl
    rw [hcode] at e
    rcases List.append_eq_append_iff.1 e with ⟨c, h4, h5⟩ | ⟨c, h4, h5⟩
    · cases c with
      | nil => simp at h5
      | cons z c => rw [h4] at hl; simp at hl
    · cases c with
      | nil => simp at h5
      | cons z c =>
        simp only [List.cons_append, List.cons.injEq] at h5
        rw [← h5.1] at h4
        exact h1.inv.selfs a n c h4 (Nat.zero_le _)
  · have := h3.inv.selfs
    intro a n b e hl
    have hh := this a n b e hl
    have hd2 : (if I.mhflag then skipped I ls else skipped I ls - 1) = skipped I ls - if I.mhflag then 0 else 1 := by split <;> simp
    rw [hd2] at hh
    exact hh

/-- With option `-m`, and if the code of `%include` does not start with `/`, every directive that points to the generated file names the line after it.
(Missing: files made without `-m`, and with a comment at the start of `%include`, see below; and texts in macros with newlines in them.) -/
theorem C95_self_partial (I : LText) (ls : List (List Nat)) (r : List Nat) (H : OneLine I) (HT : Translated I) (h : TemplateOK I.template ls)
    (hr : NoBlank ((I.s.args .incl).getD []) r) (hs : r.head? ≠ some 47) (hm : I.mhflag = true) :
    SelfOff I.outname 0 (reportText I).code (fun _ => True) := by
  obtain ⟨pre, post, -, h1, h2⟩ := C95_offset I ls r H HT h hr
  simp only [if_neg hs, hm, if_true] at h1 h2
  intro a n b e _
  rcases Nat.lt_or_ge pre.length a.length with hl | hl
  · exact h2 a n b e hl
  · exact h1 a n b e hl

/-- C95 is violated without `-m` for every grammar: all directives behind the macros for tokens name the line they stand on (if the code of `%include` does not start with a
comment).  There is such a directive at least if there is code to be added at the end. -/
theorem C95_violated (I : LText) (ls : List (List Nat)) (r c : List Nat) (H : OneLine I) (HT : Translated I) (h : TemplateOK I.template ls)
    (hr : NoBlank ((I.s.args .incl).getD []) r) (hs : r.head? ≠ some 47) (hm : I.mhflag = false) :
    (∃ pre post, (reportText I).code = pre ++ .text (tokenIf I ++ [10]) :: post ∧ ∀ a n b, (reportText I).code = a ++ .self n :: b → pre.length < a.length →
      n = lineAfter (bytes I.outname a)) ∧
    (I.nolinenosflag = false → I.s.args .code = some c → ∃ a n, (reportText I).code = a ++ [.self n] ∧ n = lineAfter (bytes I.outname a)) := by
  obtain ⟨pre, post, e, h1, h2⟩ := C95_offset I ls r H HT h hr
  simp only [if_neg hs, hm] at h1 h2
  have key : ∀ a n b, (reportText I).code = a ++ .self n :: b → pre.length < a.length → n = lineAfter (bytes I.outname a) := by
    intro a n b e hl
    have := (h2 a n b e hl).2
    rw [bytes_append, lineAfter, List.count_append] at this
    have hd : (bytes I.outname [.self n]).count 10 = 1 := by
      have : bytes I.outname [.self n] = Verif.Spec.GFile.directive n I.outname := by simp [bytes]
      rw [this, directive_count _ _ H.outname]
    rw [hd] at this
    unfold lineAfter
    simp at this
    omega
  refine ⟨⟨pre, post, e, key⟩, ?_⟩
  intro hl hc
  have : ∃ (w : LW) (n : Nat), (reportText I).code = w.code ++ [.self n] := by
    unfold reportText LW.back
    dsimp only
    rw [hc]
    unfold LW.print
    dsimp only
    unfold LW.selfDir
    simp only [hl]
    exact ⟨_, _, rfl⟩
  obtain ⟨w, n, e1⟩ := this
  refine ⟨w.code, n, e1, key _ _ [] e1 ?_⟩
  rw [e] at e1
  have hlen := congrArg List.length e1
  simp at hlen
  rcases List.eq_nil_or_concat post with rfl | ⟨post, y, rfl⟩
  · have := congrArg List.getLast? e1
    simp at this
  · simp at hlen
    omega

/-- C95 is violated if the code of `%include` starts with `/`, also with `-m`: the lines of the first section of the template are counted though they are not
written, and all directives name a line that many lines too far down. -/
theorem C95_skip_violated (I : LText) (ls : List (List Nat)) (r : List Nat) (H : OneLine I) (HT : Translated I) (h : TemplateOK I.template ls)
    (hr : NoBlank ((I.s.args .incl).getD []) r) (hs : r.head? = some 47) (hm : I.mhflag = true) :
    SelfOff I.outname ((sections ls).getD 0 []).length (reportText I).code (fun _ => True) := by
  obtain ⟨pre, post, -, h1, h2⟩ := C95_offset I ls r H HT h hr
  simp only [if_pos hs, hm, if_true] at h1 h2
  intro a n b e _
  rcases Nat.lt_or_ge pre.length a.length with hl | hl
  · have := h2 a n b e hl; simpa using this
  · exact h1 a n b e hl

/-! ### examples -/

/-- A check for `OneLine`. -/
def oneLineB (I : LText) : Bool :=
  let ok := fun t : List Nat => !t.contains 10
  let okO := fun o : Option (List Nat) => (o.map ok).getD true
  ok I.filename && ok I.outname && ok I.incName && I.defs.names.all ok && I.defs.used.length == I.defs.names.length &&
  (I.s.symbols.all fun y => ok y.name && okO y.fallback) &&
  ([Kw.name, .tokenPrefix, .tokenType, .extraArgument, .extraContext, .stackSize].all fun k => okO (I.s.args k)) &&
  (I.s.fields.all fun p => okO p.2) && I.rules.all fun p => ok (I.s.ruleText p.1)

theorem oneLine_of_check (I : LText) (h : oneLineB I = true) : OneLine I := by
  unfold oneLineB at h
  simp only [Bool.and_eq_true, List.all_eq_true, beq_iff_eq] at h
  obtain ⟨⟨⟨⟨⟨⟨⟨⟨h1, h2⟩, h3⟩, h4⟩, h5⟩, h6⟩, h7⟩, h8⟩, h9⟩ := h
  refine ⟨by simpa using h1, by simpa using h2, by simpa using h3, fun n hn => by simpa using h4 n hn, h5, fun y hy => by simpa using (h6 y hy).1, ?_, ?_, ?_, fun p hp => by simpa using h9 p hp⟩
  · intro y hy f e
    have := (h6 y hy).2
    rw [e] at this
    simpa using this
  · intro k hk t e
    have := h7 k hk
    rw [e] at this
    simpa using this
  · intro p hp t e
    have := h8 p hp
    rw [e] at this
    simpa using this

/-- what lemon reads from a grammar file -/
def c95State (z : List Nat) : RState := ((parseText (ropts c72Opts) false z).map Prod.fst).getD (RState.init false)

/-- the file made for a grammar with one rule, with a template of two lines and tables for nothing -/
def c95File (mh : Bool) (z : List Nat) : LText :=
  { mhflag := mh, nolinenosflag := false, filename := text "g.y", outname := text "g.c", incName := text "g.h", defs := ⟨[text "X"], [true]⟩, s := c95State z
    T := ⟨3, 2, 1, 1, 1, [1], [1], [0], [], [1], [], none, none, [2], [1], 0, 0, 0⟩, shiftMax := 0, nAct := 1
    rules := (c95State z).rules.filterMap fun r => (translateCode (c95State z) r).map fun t => (r, t, true)
    template := text "// head\n// of template\n%%\nint Parse;\n", below := 0 }

def c95Text : List Nat := text "%include {int x;}\n%code {int y;}\ns ::= A. {f();}\n"

/-- the hypotheses hold, there are three directives, and with `-m` they are right -/
example : OneLine (c95File true c95Text) ∧ Translated (c95File true c95Text) ∧ TemplateOK (c95File true c95Text).template [text "// head", text "// of template", text "%%", text "int Parse;"] ∧
    NoBlank (((c95File true c95Text).s.args .incl).getD []) (text "int x;") ∧
    ((reportText (c95File true c95Text)).code.filterMap fun p => match p with | .self n => some n | .text _ => none) = [11, 84, 90] := by
  refine ⟨oneLine_of_check _ (by decide +kernel), by unfold Translated; decide +kernel, ⟨by decide, by decide⟩, ?_, by decide +kernel⟩
  have : ((c95File true c95Text).s.args .incl).getD [] = text "int x;" := by decide +kernel
  rw [this]
  exact noBlank _

/-- without `-m` the last directive names its own line -/
example : OneLine (c95File false c95Text) ∧ Translated (c95File false c95Text) ∧ (c95File false c95Text).s.args .code = some (text "#line 2 \"g.y\"\nint y;") ∧
    (reportText (c95File false c95Text)).code.getLast? = some (.self 84) ∧ lineAfter (bytes (text "g.c") (reportText (c95File false c95Text)).code) = 85 := by
  refine ⟨oneLine_of_check _ (by decide +kernel), by unfold Translated; decide +kernel, by decide +kernel, by decide +kernel, by decide +kernel⟩

/-- a file with a comment at the start of `%include`, and a file with a newline in `%token_type` -/
def c95Comment : List Nat := text "%include {/* x */}\n%code {int y;}\ns ::= A.\n"
def c95Newline : List Nat := text "%include {int x;}\n%token_type {int\n*}\n%code {int y;}\ns ::= A.\n"

/-- the two lines of the first section are counted, but not written -/
example : OneLine (c95File true c95Comment) ∧ Translated (c95File true c95Comment) ∧ ((c95File true c95Comment).s.args .incl).getD [] = text "/* x */" ∧
    (reportText (c95File true c95Comment)).code.getLast? = some (.self 86) ∧ lineAfter (bytes (text "g.c") (reportText (c95File true c95Comment)).code) = 84 := by
  refine ⟨oneLine_of_check _ (by decide +kernel), by unfold Translated; decide +kernel, by decide +kernel, by decide +kernel, by decide +kernel⟩

/-- C95 is violated by a newline in the text of `%token_type`, also with `-m`: the directives behind it do not name the line after them.  (And the macro made from it is broken.) -/
theorem C95_newline_violated : ∃ I : LText, I.mhflag = true ∧ Translated I ∧ I.s.args .incl = some (text "int x;") ∧ I.s.args .tokenType = some (text "int\n*") ∧
    ¬ SelfOff I.outname 0 (reportText I).code (fun _ => True) := by
  refine ⟨c95File true c95Newline, rfl, by unfold Translated; decide +kernel, by decide +kernel, by decide +kernel, ?_⟩
  intro h
  have h1 : (reportText (c95File true c95Newline)).code = (reportText (c95File true c95Newline)).code.dropLast ++ .self 86 :: [] := by decide +kernel
  have := (h _ _ _ h1 trivial).2
  revert this
  rw [← h1]
  decide +kernel

end Verif.Lemon
