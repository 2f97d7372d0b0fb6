import Verif.Proofs.LemonTextOob
import Verif.Props.C95
/-
C96: the C file made by lemon is the template with the parts made for the grammar in it, and the user's code (memory in front of a string is read for most grammars).
-/
set_option autoImplicit false
namespace Verif.Lemon
open Verif.Spec.LText LT
open Verif.Spec.GFile (text)

/-- Apart from directives that point to the file itself, the file consists of a comment, the sections of the template in order with the name of the parser in them, the parts
made for the grammar, and the user's code. -/
theorem C96_layout (I : LText) (ls : List (List Nat)) (hu : I.defs.used.length = I.defs.names.length) (h : TemplateOK I.template ls) :
    Layout I ls (written (reportText I).code) := layout_report hu h

/-- With option `-l` there are no such directives: these are all the bytes of the file. -/
theorem C96_bytes (I : LText) (ls : List (List Nat)) (hu : I.defs.used.length = I.defs.names.length) (h : TemplateOK I.template ls) (hl : I.nolinenosflag = true) :
    Layout I ls (bytes I.outname (reportText I).code) := by
  rw [bytes_written I.outname _ (hasSelf_report hl)]
  exact layout_report hu h

/-- What becomes of a line of the template does not depend on how the text between words is divided. -/
theorem C96_rename_unique (name : Option (List Nat)) (l o o' : List Nat) (h : Renames name l o) (h' : Renames name l o') : o = o' := by
  cases name with
  | none => exact h.trans h'.symm
  | some n =>
    obtain ⟨ws, hw, rfl⟩ := h
    obtain ⟨ws', hw', rfl⟩ := h'
    have := (renameLine_words n l ws hw).symm.trans (renameLine_words n l ws' hw')
    simpa using this

/-- Each text of the user is in the file, in the order: `%include`, `%stack_overflow`, actions of rules, `%parse_failure`, `%syntax_error`, `%parse_accept`, `%code`. -/
theorem C96_order (I : LText) (ls : List (List Nat)) (hu : I.defs.used.length = I.defs.names.length) (h : TemplateOK I.template ls) :
    ∃ i a b c d e f g0 g1 g2 g3 g4 g5 g6, Verbatim i a ∧ NoBlank ((I.s.args .incl).getD []) i ∧ VerbatimArg I .stackOverflow b ∧ VerbatimArg I .parseFailure c ∧ VerbatimArg I .syntaxError d ∧
      VerbatimArg I .parseAccept e ∧ VerbatimArg I .code f ∧
      written (reportText I).code = g0 ++ a ++ g1 ++ b ++ g2 ++ actionsText I ++ g3 ++ c ++ g4 ++ d ++ g5 ++ e ++ g6 ++ f := by
  obtain ⟨S, incl, incText, tables, ov, fl, er, ac, co, -, hn, hv, -, h1, h2, h3, h4, h5, e⟩ := layout_report hu h
  refine ⟨incl, incText, ov, fl, er, ac, co, lines (headerLines I.filename I.defs) ++ (if incl.head? = some 47 then [] else S 0),
    lines (if I.mhflag then [text "#include \"" ++ I.incName ++ text "\""] else []) ++ S 1 ++ lines (tokenIf I :: tokenLines I) ++ S 2 ++ lines (defineLines I) ++
      S 3 ++ tables ++ S 4 ++ lines (fallbackLines I) ++ S 5 ++ lines (symbolLines I) ++ S 6 ++ lines (ruleLines I) ++ S 7 ++ destructorsText I ++ S 8,
    S 9 ++ lines (lhsLines I) ++ S 10 ++ lines (lenLines I) ++ S 11, S 12, S 13, S 14, S 15, hv, hn, h1, h2, h3, h4, h5, ?_⟩
  rw [e]
  simp only [List.append_assoc]

/-- Memory in front of a string is read just if there is no `%include` with text, or if the text of another directive is empty. -/
theorem C96_memory (I : LText) : (reportText I).oob = true ↔
    (I.s.args .incl).getD [] = [] ∨ ∃ k ∈ [Kw.stackOverflow, .parseFailure, .syntaxError, .parseAccept, .code], I.s.args k = some [] := by
  rw [oob_report]
  have e : (I.incl.isEmpty && blankLines ((I.s.args .incl).getD []) == 0) = true ↔ (I.s.args .incl).getD [] = [] := by
    unfold LText.incl
    generalize (I.s.args .incl).getD [] = t
    constructor
    · intro h
      simp only [Bool.and_eq_true, List.isEmpty_iff, beq_iff_eq] at h
      rw [h.2] at h
      exact h.1
    · rintro rfl
      rfl
  simp only [Bool.or_eq_true, e, emptyText, beq_iff_eq, List.mem_cons, List.not_mem_nil, or_false, exists_eq_or_imp, exists_eq_left, or_assoc]

/-- For every grammar without `%include` memory in front of a string is read; what is there decides whether a newline is written. -/
theorem C96_memory_violated (I : LText) (h : I.s.args .incl = none) : (reportText I).oob = true := by
  rw [C96_memory, h]
  exact .inl rfl

/-! ### example -/

def c96Text : List Nat := text "%include {int x;}\n%name Foo\ns ::= A. {f();}\n"

/-- the hypotheses hold, and no memory outside is read -/
example : (c95File true c96Text).defs.used.length = (c95File true c96Text).defs.names.length ∧
    TemplateOK (c95File true c96Text).template [text "// head", text "// of template", text "%%", text "int Parse;"] ∧ (reportText (c95File true c96Text)).oob = false ∧
    text "// head\n// of template\nint x;\n#include \"g.h\"\nint Foo;\n#if INTERFACE\n#define A                               1\n#endif\n" <:+: written (reportText (c95File true c96Text)).code ∧
    text "#define FooTOKENTYPE void*\n" <:+: written (reportText (c95File true c96Text)).code ∧ (c95State c95Newline).args .incl ≠ none ∧ (c95State (text "s ::= A.")).args .incl = none := by
  refine ⟨rfl, ⟨by decide, by decide⟩, by decide +kernel, ?_, ?_, by decide +kernel, by decide +kernel⟩ <;> decide +kernel

/-- words: `Parse` is renamed at the start of a word of letters, also behind `_` -/
example : Renames (some (text "Foo")) (text "yyParser Parse_x _ParseInit") (text "yyParser Foo_x _FooInit") := by
  refine ⟨[text "yyParser", text " ", text "Parse", text "_", text "x", text " _", text "ParseInit"], ⟨by decide, ?_, ?_⟩, by decide⟩
  · intro w hw
    unfold Alpha
    revert w
    decide
  · unfold Alpha
    decide

end Verif.Lemon
