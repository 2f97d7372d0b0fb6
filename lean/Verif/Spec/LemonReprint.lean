import Verif.Lemon.Reprint
import Verif.Spec.Lemon
import Mathlib.Data.List.Forall2
/-
Specification: grammar files in yacc form.
-/
set_option autoImplicit false
namespace Verif.Lemon
open Verif.Spec

/-- a rule of a yacc file: `lhs : rhs ;` or `lhs : rhs %prec p ;` -/
structure YaccRule where
  lhs : Nat
  rhs : List Nat
  prec : Option Nat
  deriving DecidableEq, Repr

/-- a yacc file: the declared tokens, the lines `%left` … with their tokens, lowest precedence first,
the start symbol, the rules -/
structure YaccFile where
  tokens : List Nat
  levels : List (Assoc × List Nat)
  start : Nat
  rules : List YaccRule

/-- the words of a rule -/
def YaccRule.text (r : YaccRule) : List Word :=
  [.sym r.lhs, .colon] ++ r.rhs.map .sym ++ (match r.prec with | some p => [.prec, .sym p] | none => []) ++ [.semi]

/-- the words of a file -/
def YaccFile.text (Y : YaccFile) : List Word :=
  (if Y.tokens = [] then [] else .token :: Y.tokens.map .sym) ++ Y.levels.flatMap (fun l => .assoc l.1 :: l.2.map .sym) ++
    [.start, .sym Y.start, .sep] ++ Y.rules.flatMap YaccRule.text

/-- the grammar of a file whose tokens are the symbols below `n` -/
def YaccFile.cfg (Y : YaccFile) (n : Nat) : CFG where
  ntok := n
  rules := Y.rules.map fun r => (r.lhs, r.rhs)

/-- `Choice g α β`: `β` is `α` with every multi-terminal replaced by one of its terminals. -/
def Choice (g : Gram) (α β : List Nat) : Prop :=
  List.Forall₂ (fun X Y => if g.isMT X then Y ∈ g.subsym X else Y = X) α β

/-- The lines give the tokens the associativity they have in `g` and order them by their precedence in
`g`. -/
structure PrecLines (g : Gram) (levels : List (Assoc × List Nat)) : Prop where
  same : ∀ l ∈ levels, ∀ s ∈ l.2, ∀ t ∈ l.2, g.prec s = g.prec t
  assoc : ∀ l ∈ levels, ∀ t ∈ l.2, g.assoc t = l.1
  all : ∀ t, (∃ l ∈ levels, t ∈ l.2) ↔ 0 < t ∧ t < g.nterm ∧ 0 ≤ g.prec t
  order : levels.Pairwise fun l l' => ∀ s ∈ l.2, ∀ t ∈ l'.2, g.prec s < g.prec t

/-- What the reader of the grammar file establishes about precedences: tokens of the same level are
declared together; `top` is the last level. -/
structure PrecDecl (g : Gram) (top : Nat) : Prop where
  le : ∀ t, 0 < t → t < g.nterm → g.prec t ≤ top
  same : ∀ s t, 0 < s → s < g.nterm → 0 < t → t < g.nterm → 0 ≤ g.prec s → g.prec s = g.prec t → g.assoc s = g.assoc t

end Verif.Lemon
