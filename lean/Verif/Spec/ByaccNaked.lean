import Verif.Spec.ByaccLang
/-
Specification: a grammar file and the same grammar without its actions.
-/
set_option autoImplicit false
namespace Verif.Spec.YText

/-- No name the user wrote starts with `$`. -/
def File.NoDollar (F : File) : Prop := ∀ n ∈ names F.uses, hiddenOf F.uses n = none → n.head? ≠ some 36

/-- A rule without its actions: left-hand side, symbols and `%prec` are the same. -/
structure Bare (a b : Alt) : Prop where
  lhs : b.lhs = a.lhs
  syms : symsOf b.rhs = symsOf a.rhs
  prec : precNamed b.rhs = precNamed a.rhs
  acts : actionsIn b.rhs = 0

/-- Precedences order the symbols in the same way, and associativities are the same. -/
structure SamePrec (us us' : List Use) : Prop where
  kind : ∀ n, kindOf us' n = kindOf us n
  none : ∀ n, levelOf us' n = 0 ↔ levelOf us n = 0
  order : ∀ n m, levelOf us' n < levelOf us' m ↔ levelOf us n < levelOf us m

/-- `F'` is `F` without its actions. -/
structure NakedOf (F F' : File) : Prop where
  goal : F'.goal = F.goal
  tokens : tokenNames F'.uses = tokenNames F.uses
  rules : List.Forall₂ Bare F.alts F'.alts
  prec : SamePrec F.uses F'.uses

end Verif.Spec.YText
