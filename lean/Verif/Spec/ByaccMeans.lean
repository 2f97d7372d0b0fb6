import Verif.Spec.ByaccGrammar
import Verif.Byacc.Front
import Verif.Props.C22
/-
Specification: what byacc's reader leaves behind says what the file says.
-/
set_option autoImplicit false
namespace Verif.Spec.YText
open Byacc Rd
open Classical

/-- The precedence of a rule: that of the symbol in `%prec`; without it that of the last token in the rule, or, with `-z` (`lp`), that of the first
token that has one. -/
noncomputable def precOfRule (lp : Bool) (us : List Use) (r : SRule) : Option (List Nat) :=
  match r.prec with
  | .of n => some n
  | .nowhere => none
  | .rhs => if lp then r.rhs.find? fun n => decide (Terminal us n ∧ levelOf us n ≠ 0) else (r.rhs.filter fun n => decide (Terminal us n)).getLast?

/-- The arrays say what the file says; `acts` are the translated actions. -/
structure Means (lp : Bool) (F : File) (acts : List (Nat × List Nat)) (out : FileOut) : Prop where
  /-- the symbols are kept in the order in which they are first named -/
  syms : out.syms.map BSym.name = names F.uses
  /-- symbols with rules are nonterminals, so are those made for actions; all others are tokens -/
  cls : ∀ b ∈ out.syms, (b.cls = .NONTERM ↔ IsLhs F.uses b.name) ∧ (b.cls = .ACTION ↔ ¬ IsLhs F.uses b.name ∧ hiddenOf F.uses b.name ≠ none) ∧
    (b.cls = .TERM ↔ Terminal F.uses b.name)
  tag : ∀ b ∈ out.syms, b.tag = tagOf F.uses b.name
  goal : (out.syms[out.goal]?).map BSym.name = some F.goal
  /-- the numbers of the symbols -/
  tokens : out.num.ntokens = (tokenNames F.uses).length + 1 ∧ out.gram.ntokens = (tokenNames F.uses).length + 1
  count : out.num.nsyms = (names F.uses).length + 2 ∧ out.gram.nsyms = (names F.uses).length + 2
  number : ∀ (i : Nat) (b : BSym), out.syms[i]? = some b → out.num.index[i]? = some (symNumber F.uses F.goal b.name)
  /-- the codes of the tokens -/
  codes : CodesOf F.uses fun n => out.num.value.getD (symNumber F.uses F.goal n) 0
  eof : out.num.value[0]? = some 0
  /-- the rules: rule 2 is `$accept : goal $end`, then those of the file follow -/
  rules : (List.range' 2 (F.rules.length + 1)).map (readRule out.gram) =
    ((tokenNames F.uses).length + 1, [(tokenNames F.uses).length + 2, 0]) ::
      F.rules.map fun r => (symNumber F.uses F.goal r.lhs, r.rhs.map (symNumber F.uses F.goal))
  nrules : out.gram.nrules = F.rules.length + 3
  /-- precedences -/
  sprec : ∀ n ∈ names F.uses, out.prec.prec[symNumber F.uses F.goal n]? = some (levelOf F.uses n) ∧
    out.prec.assoc[symNumber F.uses F.goal n]? = some (kindOf F.uses n)
  rprec : ∀ (k : Nat) (r : SRule), F.rules[k]? = some r → out.gram.rprec[k + 3]? = some ((precOfRule lp F.uses r).elim 0 (levelOf F.uses)) ∧
    ((precOfRule lp F.uses r).elim 0 (levelOf F.uses) ≠ 0 → out.gram.rassoc[k + 3]? = some ((precOfRule lp F.uses r).elim .TOKEN (kindOf F.uses)))
  /-- the rest -/
  sr : out.sr = (expectOf F.all).elim (-1) fun n => (n : Int)
  rr : out.rr = (expectRROf F.all).elim (-1) fun n => (n : Int)
  acts : out.acts = acts
  text : out.out = textOf F.all

end Verif.Spec.YText
