import Verif.Spec.LemonLang
import Verif.Spec.LemonScan
/-
Specification: the types of the values of symbols.
-/
set_option autoImplicit false
namespace Verif.Spec.GFile
open Verif.Spec.Words (blank)

/-- `u` is `t` without white space at its ends -/
def Trims (t u : Word) : Prop :=
  ∃ a b, t = a ++ u ++ b ∧ (∀ c ∈ a, blank c) ∧ (∀ c ∈ b, blank c) ∧ (∀ c ∈ u.head?, ¬ blank c) ∧ ∀ c ∈ u.getLast?, ¬ blank c

/-- the type given for the nonterminal `x`: by `%type`, or else by `%default_type` -/
def givenType (o : Opts) (items : List Item) (x : Word) : Option Word := (typeOf items x).or (argOf o items ("default_type", false))

/-- `T` is the type of the values of the nonterminal `x`; `none` is the type of tokens, which a nonterminal without a type also has -/
inductive ValueType (o : Opts) (items : List Item) (x : Word) : Option Word → Prop
  | noType : givenType o items x = none → ValueType o items x none
  | ofToken {t u : Word} : givenType o items x = some t → Trims t u → argOf o items ("token_type", false) = some u → ValueType o items x none
  | own {t u : Word} : givenType o items x = some t → Trims t u → argOf o items ("token_type", false) ≠ some u → ValueType o items x (some u)

end Verif.Spec.GFile
