import Verif.Lemon.Text
import Verif.Spec.LemonFile
/-
Specification: the C file made by lemon.
-/
set_option autoImplicit false
namespace Verif.Spec.LText
open Verif.Lemon (LPiece LText isSpace)
open Verif.Spec.GFile (text directive)

/-- the bytes of the generated file called `name` -/
def bytes (name : List Nat) (l : List LPiece) : List Nat :=
  l.flatMap fun p => match p with | .text t => t | .self n => directive n name

/-- the number of the line on which the text behind `t` starts, if `t` is not in the middle of a line -/
def lineAfter (t : List Nat) : Nat := t.count 10 + 1

/-- The text behind `t` starts on a new line. -/
def LineStart (t : List Nat) : Prop := t = [] ∨ t.getLast? = some 10

/-- Every directive that points to the file itself stands on a line of its own, and the line it names is the line after it, plus `d`. -/
def SelfOff (name : List Nat) (d : Int) (l : List LPiece) (P : List LPiece → Prop) : Prop :=
  ∀ (a : List LPiece) (n : Nat) (b : List LPiece), l = a ++ .self n :: b → P a → LineStart (bytes name a) ∧ (n : Int) = lineAfter (bytes name (a ++ [.self n])) + d

/-- a template whose lines are not longer than the buffer for them, and which ends with a newline -/
structure TemplateOK (t : List Nat) (ls : List (List Nat)) : Prop where
  text : t = ls.flatMap fun l => l ++ [10]
  lines : ∀ l ∈ ls, 10 ∉ l ∧ l.length ≤ 998

/-- the sections of a template: the lines between lines that begin with `%%` -/
def sections (ls : List (List Nat)) : List (List (List Nat)) := ls.splitOnP fun l => [37, 37].isPrefixOf l

/-- The texts that are printed as part of a line have no newline in them. -/
structure OneLine (I : LText) : Prop where
  filename : 10 ∉ I.filename
  outname : 10 ∉ I.outname
  incName : 10 ∉ I.incName
  defs : ∀ n ∈ I.defs.names, 10 ∉ n
  used : I.defs.used.length = I.defs.names.length
  names : ∀ y ∈ I.s.symbols, 10 ∉ y.name
  fallbacks : ∀ y ∈ I.s.symbols, ∀ f, y.fallback = some f → 10 ∉ f
  args : ∀ k ∈ [Lemon.Kw.name, .tokenPrefix, .tokenType, .extraArgument, .extraContext, .stackSize], ∀ t, I.s.args k = some t → 10 ∉ t
  types : ∀ p ∈ I.s.fields, ∀ t, p.2 = some t → 10 ∉ t
  rules : ∀ p ∈ I.rules, 10 ∉ I.s.ruleText p.1

/-- The codes of the rules are translated. -/
def Translated (I : LText) : Prop := ∀ p ∈ I.rules, Lemon.translateCode I.s p.1 = some p.2.1

end Verif.Spec.LText
