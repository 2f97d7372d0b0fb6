import Verif.Spec.ByaccLang
import Verif.Spec.ByaccGrammar
import Verif.Spec.LemonLang
import Verif.Spec.LemonScan
/-
Specification: a grammar file for byacc and one for lemon, for the same grammar.
-/
set_option autoImplicit false
namespace Verif.Spec.YText
open Verif.Spec
open Classical

/-- The symbols are given names that lemon can read: those of tokens start with a capital letter, the others with a small one; different symbols have
different names. -/
structure LemonNames (F : File) (tok nt : List Nat → List Nat) : Prop where
  tokOk : ∀ n ∈ tokenNames F.uses, GFile.Upper (tok n) ∧ ∀ c ∈ tok n, Words.inName c
  ntOk : ∀ n, IsLhs F.uses n → GFile.Lower (nt n) ∧ ∀ c ∈ nt n, Words.inName c
  tokInj : ∀ n ∈ tokenNames F.uses, ∀ m ∈ tokenNames F.uses, tok n = tok m → n = m
  ntInj : ∀ n m, IsLhs F.uses n → IsLhs F.uses m → nt n = nt m → n = m

/-- What the file must not have because lemon could not read it: more than 1000 symbols in a rule, or a precedence taken from a symbol that is no token. -/
structure FitsLemon (F : File) : Prop where
  size : ∀ a ∈ F.alts, (symsOf a.rhs).length ≤ 1000
  prec : ∀ a ∈ F.alts, ∀ x, precNamed a.rhs = some x → Terminal F.uses x.key

/-- The name of a symbol for lemon. -/
noncomputable def lemonSymbol (F : File) (tok nt : List Nat → List Nat) (n : List Nat) : List Nat := if Terminal F.uses n then tok n else nt n

/-- The associativities of lemon. -/
def lemonAssoc : Byacc.Assoc → Lemon.Assoc
  | .LEFT => .LEFT
  | .RIGHT => .RIGHT
  | .NONASSOC => .NONE
  | .PRECEDENCE => .PRECEDENCE
  | .TOKEN => .UNK

/-- A rule of the file for lemon with the items up to the next rule: it has the same symbols, no alias, no code, and the symbol named with `%prec`, if any,
as its mark. -/
def LemonRule (F : File) (tok nt : List Nat → List Nat) (a : Alt) (p : GFile.Item × List GFile.Item) : Prop :=
  (∃ line, p.1 = .rule (nt a.lhs.key) none ((symsOf a.rhs).map fun n => ⟨lemonSymbol F tok nt n, []⟩) line) ∧
    p.2 = (precNamed a.rhs).toList.map fun x => .mark (tok x.key)

/-- The items are a grammar file for lemon with the same start symbol, the same rules in the same order, and the same precedences. -/
structure LemonOf (o : GFile.Opts) (F : File) (tok nt : List Nat → List Nat) (items : List GFile.Item) : Prop where
  start : GFile.startSymbol o items = some (nt F.goal)
  rules : List.Forall₂ (LemonRule F tok nt) F.alts (GFile.parts items)
  kind : o.ignorePrec = false → ∀ n ∈ tokenNames F.uses, (GFile.precOf o items (tok n)).map Prod.snd = (precOf F.uses n).map fun p => lemonAssoc p.2
  order : ∀ n ∈ tokenNames F.uses, ∀ m ∈ tokenNames F.uses, ∀ p q, GFile.precOf o items (tok n) = some p → GFile.precOf o items (tok m) = some q →
    (p.1 < q.1 ↔ levelOf F.uses n < levelOf F.uses m)
  /-- there is nothing else -/
  other : ∀ it ∈ items, match it with
    | .rule .. | .mark _ | .token _ | .prec _ _ => True
    | .arg k _ _ => k = "start_symbol"
    | _ => False

end Verif.Spec.YText
