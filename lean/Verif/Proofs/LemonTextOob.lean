import Verif.Proofs.LemonTextAll
/-
Which parts of lemon's `ReportTable` read memory in front of a string, and where there are directives that point to the file itself.
-/
set_option autoImplicit false
namespace Verif.Lemon.LT
open Verif.Spec.LText

variable {I : LText}

/-- Something that only `tplt_print` changes. -/
structure Keep (I : LText) (f : LW → Bool) : Prop where
  put : ∀ w t, f (LW.put t w) = f w
  bump : ∀ w n, f (LW.bump n w) = f w
  rest : ∀ (w : LW) r, f { w with rest := r } = f w
  lineno : ∀ (w : LW) n, f { w with lineno := n } = f w
  self : ∀ w, f (LW.selfDir I w) = f w

namespace Keep
variable {f : LW → Bool} (K : Keep I f)
include K

theorem line (w : LW) (t : List Nat) : f (w.line t) = f w := by rw [LW.line, K.bump, K.put]

theorem foldl {α : Type} (g : LW → α → LW) (h : ∀ w a, f (g w a) = f w) (l : List α) : ∀ w, f (l.foldl g w) = f w := by
  induction l with
  | nil => intro w; rfl
  | cons a l ih => intro w; rw [List.foldl_cons, ih, h]

theorem runL (l : List (List Nat)) (w : LW) : f (LT.runL l w) = f w := K.foldl _ (fun w a => K.line w a) _ _

theorem xferGo (name : Option (List Nat)) (ls : List (List Nat)) : ∀ w, f (LW.xferGo name ls w) = f w := by
  induction ls with
  | nil => intro w; exact K.rest _ _
  | cons l ls ih =>
    intro w; unfold LW.xferGo; split
    · exact K.rest _ _
    · rw [ih, K.bump, K.put]

theorem xfer (w : LW) : f (w.xfer I) = f w := K.xferGo _ _ _

theorem skipGo (ls : List (List Nat)) : ∀ w, f (LW.skipGo ls w) = f w := by
  induction ls with
  | nil => intro w; exact K.rest _ _
  | cons l ls ih =>
    intro w; unfold LW.skipGo; split
    · exact K.rest _ _
    · rw [ih, K.bump]

theorem skip (w : LW) : f w.skip = f w := K.skipGo _ _

theorem header (w : LW) : f (w.header I) = f w := by rw [LW.header, K.lineno, K.put]

theorem tokens (w : LW) : f (w.tokens I) = f w := by
  rw [tokens_run, K.runL]
  split
  · rw [K.line]
  · rw [K.put]
theorem defines (w : LW) : f ((w.defines I).constants I) = f w := by rw [defines_run, K.runL]

theorem entries (last : Bool) (l : List Int) : ∀ (i j : Nat) (w : LW), f (LW.entries last l i j w).1 = f w := by
  induction l with
  | nil => intro i j w; rfl
  | cons v l ih =>
    intro i j w
    unfold LW.entries
    dsimp only
    split
    · rw [ih, K.line, K.put]; split
      · rw [K.put]
      · rfl
    · rw [ih, K.put]; split
      · rw [K.put]
      · rfl

theorem array (w : LW) (t n : List Nat) (l : List Int) : f (w.array t n l) = f w := by
  unfold LW.array; dsimp only; rw [K.line, K.entries, K.line]

theorem lookahead (w : LW) : f (w.lookahead I) = f w := by
  unfold LW.lookahead; dsimp only; rw [K.line]
  split
  · rw [K.line, K.entries, K.line]
  · rw [K.entries, K.line]

theorem tables (w : LW) : f (w.tables I) = f w := by
  unfold LW.tables; dsimp only
  simp only [K.array, K.line, K.lookahead]

theorem fallbacks (w : LW) : f (w.fallbacks I) = f w := by
  unfold LW.fallbacks; split
  · exact K.foldl _ (fun _ _ => K.line _ _) _ _
  · rfl
theorem symNames (w : LW) : f (w.symNames I) = f w := K.foldl _ (fun _ _ => K.line _ _) _ _
theorem ruleNames (w : LW) : f (w.ruleNames I) = f w := K.foldl _ (fun _ _ => K.line _ _) _ _
theorem ruleLhs (w : LW) : f (w.ruleLhs I) = f w := K.foldl _ (fun _ _ => K.line _ _) _ _
theorem ruleNRhs (w : LW) : f (w.ruleNRhs I) = f w := K.foldl _ (fun _ _ => K.line _ _) _ _

theorem fileDir (w : LW) (l : Option Nat) : f (w.fileDir I l) = f w := by
  unfold LW.fileDir; cases l with
  | none => rfl
  | some l =>
    dsimp only; split
    · rfl
    · rw [K.bump, K.put]

theorem destructor (w : LW) (p : DSym) : f (w.destructor I p) = f w := by
  unfold LW.destructor
  generalize I.s.destructorCode p = c
  rcases c with _ | ⟨cp, l⟩
  · rfl
  · simp only [K.line, K.self, K.bump, K.put, K.fileDir]

theorem destructCase (w : LW) (c : DCase) : f (w.destructCase I c) = f w := by
  unfold LW.destructCase
  dsimp only
  generalize hw : (if c.comment = [] then w else (w.put c.comment).bump 1) = w1
  have h1 : f w1 = f w := by
    rw [← hw]; split
    · rfl
    · rw [K.bump, K.put]
  have h2 : f (c.syms.foldl (fun w p => (w.put (caseLine p)).bump 1) w1) = f w1 := K.foldl _ (fun _ _ => by rw [K.bump, K.put]) _ _
  cases c.body with
  | none => dsimp only; rw [K.bump, K.put, h2, h1]
  | some p => dsimp only; rw [K.bump, K.put, K.destructor, h2, h1]

theorem destructors (w : LW) : f (w.destructors I) = f w := K.foldl _ (fun w c => K.destructCase w c) _ _

theorem action (w : LW) (t : Trans) : f (w.action I t) = f w := by
  unfold LW.action
  dsimp only
  split <;> simp only [K.line, K.self, K.bump, K.put, K.fileDir]

theorem actionCase (w : LW) (c : List Nat × Trans) : f (w.actionCase I c) = f w := by
  unfold LW.actionCase
  rw [K.line, K.action]
  cases c.1 with
  | nil => rfl
  | cons i l => exact (K.foldl _ (fun _ _ => K.line _ _) _ _).trans (K.line _ _)

theorem actions (w : LW) : f (w.actions I) = f w := by
  unfold LW.actions
  dsimp only
  rw [K.line, K.foldl _ (by
    intro w a; split
    · rfl
    · rw [K.line]), K.line, K.foldl _ (fun w c => K.actionCase w c)]
  split
  · rw [K.line]
  · rfl

end Keep

/-! ### memory in front of a string -/

theorem keep_oob : Keep I LW.oob := ⟨fun _ _ => rfl, fun _ _ => rfl, fun _ _ => rfl, fun _ _ => rfl, fun w => by unfold LW.selfDir; split <;> rfl⟩

/-- `str[-1]` is read for an empty string -/
def emptyText (t : Option (List Nat)) : Bool := t == some []

theorem oob_print (w : LW) (prev : Option Nat) (str : Option (List Nat)) : (w.print I prev str).oob = (w.oob || (emptyText str && prev.isNone)) := by
  unfold LW.print
  cases str with
  | none => simp [emptyText]
  | some t =>
    dsimp only
    rw [keep_oob.self]
    cases t with
    | nil => split <;> simp [emptyText, LW.line, LW.put, LW.bump]
    | cons c t => split <;> simp [emptyText, LW.line, LW.put, LW.bump]

theorem oob_report : (reportText I).oob = ((I.incl.isEmpty && blankLines ((I.s.args .incl).getD []) == 0) || emptyText (I.s.args .stackOverflow) || emptyText (I.s.args .parseFailure) ||
    emptyText (I.s.args .syntaxError) || emptyText (I.s.args .parseAccept) || emptyText (I.s.args .code)) := by
  have K := keep_oob (I := I)
  unfold reportText LW.back
  dsimp only
  simp only [oob_print, K.xfer, K.actions, K.ruleNRhs, K.ruleLhs, K.destructors, K.ruleNames, K.symNames, K.fallbacks, K.tables, K.defines, K.tokens, Option.isNone_none, Bool.and_true]
  have : ((LW.mk [] 1 (templateLines I.template) false).front I).oob = (I.incl.isEmpty && blankLines ((I.s.args .incl).getD []) == 0) := by
    unfold LW.front LW.includes
    dsimp only
    rw [K.xfer]
    have key : ∀ w : LW, w.oob = false → ((if I.incl.head? = some 47 then w.skip else w.xfer I).print I (if blankLines ((I.s.args .incl).getD []) = 0 then none else some 10) (some I.incl)).oob = (I.incl.isEmpty && blankLines ((I.s.args .incl).getD []) == 0) := by
      intro w hw
      rw [oob_print]
      have : (if I.incl.head? = some 47 then w.skip else w.xfer I).oob = false := by split <;> simp [hw, K.xfer, K.skip]
      rw [this]
      cases h : I.incl <;> by_cases hb : blankLines ((I.s.args .incl).getD []) = 0 <;> simp [emptyText, hb]
    by_cases hm : I.mhflag = true
    · rw [if_pos hm, K.line]
      exact key _ rfl
    · rw [if_neg hm]
      exact key _ rfl
  rw [this]

/-! ### directives that point to the file -/

/-- There is a directive that points to the file itself. -/
def hasSelf (w : LW) : Bool := w.code.any fun p => match p with | .self _ => true | .text _ => false

theorem keep_self (h : I.nolinenosflag = true) : Keep I hasSelf :=
  ⟨fun _ _ => by simp [hasSelf, LW.put], fun _ _ => rfl, fun _ _ => rfl, fun _ _ => rfl, fun w => by unfold LW.selfDir; rw [if_pos h]⟩

theorem hasSelf_print (h : I.nolinenosflag = true) (w : LW) (prev : Option Nat) (str : Option (List Nat)) : hasSelf (w.print I prev str) = hasSelf w := by
  unfold LW.print
  cases str with
  | none => rfl
  | some t =>
    dsimp only
    rw [(keep_self h).self]
    split
    · simp [hasSelf, LW.put, LW.bump]
    · rw [(keep_self h).line]
      simp [hasSelf, LW.put, LW.bump]

theorem hasSelf_report (h : I.nolinenosflag = true) : hasSelf (reportText I) = false := by
  have K := keep_self h
  unfold reportText LW.back
  dsimp only
  simp only [hasSelf_print h, K.xfer, K.actions, K.ruleNRhs, K.ruleLhs, K.destructors, K.ruleNames, K.symNames, K.fallbacks, K.tables, K.defines, K.tokens]
  unfold LW.front LW.includes
  dsimp only
  rw [K.xfer]
  have key : ∀ w : LW, hasSelf w = false → hasSelf ((if I.incl.head? = some 47 then w.skip else w.xfer I).print I (if blankLines ((I.s.args .incl).getD []) = 0 then none else some 10) (some I.incl)) = false := by
    intro w hw
    rw [hasSelf_print h]
    split
    · rw [K.skip, hw]
    · rw [K.xfer, hw]
  by_cases hm : I.mhflag = true
  · rw [if_pos hm, K.line]
    exact key _ (by rw [K.header]; rfl)
  · rw [if_neg hm]
    exact key _ (by rw [K.header]; rfl)

theorem bytes_written (n : List Nat) (l : List LPiece) (h : (l.any fun p => match p with | .self _ => true | .text _ => false) = false) : bytes n l = written l := by
  induction l with
  | nil => rfl
  | cons p l ih =>
    cases p with
    | self k => simp at h
    | text t =>
      have := ih (by simpa using h)
      simp only [bytes, written, List.flatMap_cons] at this ⊢
      rw [this]

end Verif.Lemon.LT
