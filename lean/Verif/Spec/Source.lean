import Verif.Byacc.Rules
/-
Specification: a rules section as the user writes it, and what it means.
-/
set_option autoImplicit false
namespace Verif.Spec
open Byacc

/-- What can be written on a right-hand side. -/
inductive Elem
  | sym (n : Nat)
  | action
  | prec (n : Nat)
deriving DecidableEq, Repr

/-- `lhs : first | more₁ | more₂ ..` -/
structure Group where
  lhs : Nat
  first : List Elem
  more : List (List Elem)
deriving DecidableEq, Repr

def Elem.tok : Elem → GTok
  | .sym n => .sym n
  | .action => .action
  | .prec n => .prec n

/-- The text of a group and of a rules section. -/
def Group.toks (g : Group) : List GTok :=
  .lhs g.lhs :: (g.first.map Elem.tok ++ g.more.flatMap fun a => .bar :: a.map Elem.tok)

def sectionToks (gs : List Group) : List GTok := gs.flatMap Group.toks

/-- The rules written: left side and right side with its actions. -/
def Group.alts (g : Group) : List (Nat × List Elem) := (g.first :: g.more).map fun a => (g.lhs, a)

def sectionAlts (gs : List Group) : List (Nat × List Elem) := gs.flatMap Group.alts

/-- The symbols of a right-hand side. -/
def symsOfAlt (a : List Elem) : List Nat := a.filterMap fun e => match e with | .sym n => some n | _ => none

/-- The context-free rules written, actions ignored. -/
def sectionRules (gs : List Group) : List (Nat × List Nat) := (sectionAlts gs).map fun p => (p.1, symsOfAlt p.2)

/-- The precedence symbol named last in a right-hand side. -/
def precOfAlt (a : List Elem) : Option Nat := (a.filterMap fun e => match e with | .prec n => some n | _ => none).getLast?

end Verif.Spec
