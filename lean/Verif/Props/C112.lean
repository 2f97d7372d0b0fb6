import Verif.Proofs.LemonHFile
import Verif.Props.C99
/-
C112: the header lemon writes gives every token its number; when it is written (violated).
-/
set_option autoImplicit false
namespace Verif.Lemon
open Verif.Spec.GFile Verif.Spec.HFile Verif.Spec.Words Verif.Spec.LText

/-- The prefix of the names of tokens declared in a grammar file. -/
def declaredPrefix (o : Opts) (items : List Verif.Spec.GFile.Item) : List Nat := (argOf o items ("token_prefix", false)).getD []

/-- The lines of a header in the old format have less than 999 bytes, and no NUL and no line end within. -/
def ShortLines (o : Opts) (items : List Verif.Spec.GFile.Item) : Prop :=
  ∀ e ∈ tokenNumbers o items, (macroLine (declaredPrefix o items) e).length ≤ 998 ∧ 0 ∉ macroLine (declaredPrefix o items) e ∧
    10 ∉ macroLine (declaredPrefix o items) e

/-- C112.  The header written for a grammar file that is read is the enumeration of its tokens with their numbers, and it is written unless the header found is
the list of macros that earlier versions of lemon wrote for the same tokens.  (Full statement: it is written unless the header found is what would be written,
see `C112_unchanged_violated`.) -/
theorem C112_header_partial (o : Opts) (items : List Verif.Spec.GFile.Item) (s : RState) (hv : Valid o items) (hh : Holds o items s) (hs : ShortLines o items)
    (old : Option (List Nat)) :
    s.reportHeader old = if old = some (macros (declaredPrefix o items) (tokenNumbers o items)) then .kept else .wrote (header o items (declaredPrefix o items)) := by
  have hp : s.hdrPrefix = declaredPrefix o items := hdr_prefix hh
  have hn := nterminal_eq hv hh
  have hnum := hdr_numbers hv hh
  rw [reportHeader_eq s (by omega) ?_ old, hdr_macros hv hh, hdr_text hv hh, hp]
  intro i h0 hi
  have hm : (s.hdrName i, i) ∈ tokenNumbers o items := by
    rw [← hnum]
    refine List.mem_map.2 ⟨i, List.mem_iff_getElem.2 ⟨i - 1, by simp; omega, ?_⟩, rfl⟩
    simp; omega
  have := hs _ hm
  rw [hdr_pattern, hp, List.dropLast_concat]
  refine ⟨by simpa using this.1, ?_, this.2.2⟩
  simp only [List.mem_append, List.mem_singleton, not_or]
  exact ⟨this.2.1, by decide⟩

/-- C112, without a header (in particular at the first time) and without a limit on the length of names. -/
theorem C112_first (o : Opts) (items : List Verif.Spec.GFile.Item) (s : RState) (hv : Valid o items) (hh : Holds o items s) :
    s.reportHeader none = .wrote (header o items (declaredPrefix o items)) := by
  have hp : s.hdrPrefix = declaredPrefix o items := hdr_prefix hh
  rw [RState.reportHeader, hdr_text hv hh, hp]

/-- C112, agreement.  The constant for a token in the header has the value that the macro with the same name has in the parser, and the last constant is larger than all
the others. -/
theorem C112_agrees (o : Opts) (z : List Nat) (ws : List (Nat × Word)) (items : List Verif.Spec.GFile.Item) (s : RState) (g : Gram) (cs : List CState) (T : Tables) (E : FileConf)
    (I : LText) (ls : List (List Nat)) (hz : HasWords z ws) (hf : IsFile items ws) (hv : Valid o items) (hh : Holds o items s) (hI : LText.ofFile E s g cs T = some I)
    (hp : Safe (declaredPrefix o items)) (hu : E.defs.used.length = E.defs.names.length) (ht : TemplateOK E.template ls) :
    (∀ e ∈ tokenNumbers o items, ∃ a b, header o items (declaredPrefix o items) = a ++ constant (declaredPrefix o items) e ++ text ",\n" ++ b) ∧
    (∀ e ∈ tokenNumbers o items, ∃ p, Between I ls 1 (written (reportText I).code) p ∧ HasDefine p (declaredPrefix o items ++ e.1) e.2) ∧
    (∃ a, header o items (declaredPrefix o items) = a ++ constant (declaredPrefix o items) (text "LEMON_LAST_TOKEN", (tokens o items).length + 1) ++ text "\n};\n") ∧
    (∀ e ∈ tokenNumbers o items, e.2 < (tokens o items).length + 1) := by
  refine ⟨?_, ?_, ⟨_, rfl⟩, ?_⟩
  · intro e he
    obtain ⟨x, y, h⟩ := List.append_of_mem he
    rw [header, enumeration, h, List.flatMap_append, List.flatMap_cons]
    refine ⟨text "enum " ++ declaredPrefix o items ++ text "LemonEnum {\n" ++ x.flatMap (fun e => constant (declaredPrefix o items) e ++ text ",\n"), ?_, ?_⟩
    rotate_left
    · simp only [List.append_assoc]
      rfl
  · intro e he
    obtain ⟨X, hX, rfl⟩ := List.mem_map.1 he
    exact (C99_tokens o z ws items s g cs T E I ls hz hf hv hh hI hp hu ht).1 X hX
  · intro e he
    obtain ⟨X, hX, rfl⟩ := List.mem_map.1 he
    have := (tokenNumber_bounds (o := o) (items := items) X hX).2
    simp only
    omega

/-- C112 is violated: the header is written again even if the one found is exactly what is written; and the header of an earlier version is kept although the last
constant is missing there. -/
theorem C112_unchanged_violated (o : Opts) (items : List Verif.Spec.GFile.Item) (s : RState) (hv : Valid o items) (hh : Holds o items s) (hs : ShortLines o items) :
    s.reportHeader (some (header o items (declaredPrefix o items))) = .wrote (header o items (declaredPrefix o items)) ∧
    ∃ old, old ≠ header o items (declaredPrefix o items) ∧ s.reportHeader (some old) = .kept := by
  have hne : header o items (declaredPrefix o items) ≠ macros (declaredPrefix o items) (tokenNumbers o items) := by
    intro h
    have h1 : (header o items (declaredPrefix o items)).head? = some 101 := rfl
    rw [h, macros] at h1
    cases ht : tokenNumbers o items with
    | nil => rw [ht] at h1; simp at h1
    | cons e es =>
      rw [ht, List.flatMap_cons, macroLine] at h1
      exact absurd h1 (by show some 35 ≠ some 101; decide)
  constructor
  · rw [C112_header_partial o items s hv hh hs, if_neg (by simpa using hne)]
  · exact ⟨_, hne.symm, by rw [C112_header_partial o items s hv hh hs, if_pos rfl]⟩

/-- a grammar file with a long prefix for the names of tokens -/
def longPrefix : List Nat := text "%token_prefix " ++ List.replicate 960 80 ++ text "\ns ::= A.\n"

/-- C112 is violated: with a prefix of 960 bytes and any header that is not empty, lemon writes beyond the end of a buffer. -/
theorem C112_overflow_violated : ∃ s, parseText (ropts c72Opts) false longPrefix = some s ∧ errorcnt s = 0 ∧
    ∀ old ≠ [], s.1.reportHeader (some old) = .overflow := by
  have h : ((parseText (ropts c72Opts) false longPrefix).map fun s => (errorcnt s, decide (s.1.nterminal ≤ 1), decide (1000 < (s.1.hdrPattern 1).length + 1))) =
      some (0, false, true) := by decide +kernel
  obtain ⟨s, h1, h2⟩ := Option.map_eq_some_iff.1 h
  simp only [Prod.mk.injEq, decide_eq_true_eq, decide_eq_false_iff_not] at h2
  refine ⟨s, h1, h2.1, ?_⟩
  intro old ho
  rw [RState.reportHeader]
  cases hf : fgetsGo 999 [] old with
  | nil =>
    have := fgets_flatten 999 old []
    rw [hf] at this
    exact absurd this.symm ho
  | cons l ls => simp only [RState.hdrLoop, if_neg h2.2.1, if_pos h2.2.2]

/-! ### example -/

example : header c72Opts c73Items (declaredPrefix c72Opts c73Items) =
    text "enum LemonEnum {\n PLUS =   1,\n MINUS =   2,\n ID =   3,\n NUM =   4,\n LEMON_LAST_TOKEN =   5\n};\n" := by decide +kernel

example : ShortLines c72Opts c73Items := by
  unfold ShortLines
  decide +kernel

example : ∃ s, parseText (ropts c72Opts) c72Opts.yacc c73Text = some s ∧ Valid c72Opts c73Items ∧ Holds c72Opts c73Items s.1 := by
  obtain ⟨s, h1, -, -, hh⟩ := C72_says c72Opts _ _ _ c73_words c73_file c73_valid
  exact ⟨s, h1, c73_valid, hh⟩

example : ((parseText (ropts c72Opts) false (text "%token_prefix T_\ns ::= A B.\n")).map fun s => (s.1.reportHeader none,
    s.1.reportHeader (some (text "#define T_A                                1\n#define T_B                                2\n")),
    s.1.reportHeader (some (text "#define T_A                                1\n#define T_B                                2\n\n")))) =
    some (.wrote (text "enum T_LemonEnum {\n T_A =   1,\n T_B =   2,\n T_LEMON_LAST_TOKEN =   3\n};\n"), .kept,
      .wrote (text "enum T_LemonEnum {\n T_A =   1,\n T_B =   2,\n T_LEMON_LAST_TOKEN =   3\n};\n")) := by decide +kernel

end Verif.Lemon
