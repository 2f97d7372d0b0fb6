import Verif.Lemon.RuleNum
/-
Data of a grammar after `Parse` and the numbering of symbols in `main` (lemon.c:1755-1776), the
input of the table construction.
-/
set_option autoImplicit false
namespace Verif.Lemon

/-- `enum e_assoc`, lemon.c:253-259 -/
inductive Assoc
  | LEFT | RIGHT | NONE | PRECEDENCE | UNK
  deriving DecidableEq, Repr

/-- `struct rule`, lemon.c:290-314.  Only the fields used by the table construction.  `index` is
the position in the list of rules.  `prec` is `precsym` as given by `[X]` in the grammar file;
`code` tells whether the rule has a C action (`rp->code != 0`, which is the opposite of
`rp->noCode` until `translate_code` runs). -/
structure Rule where
  lhs : Nat
  rhs : List Nat
  prec : Option Nat
  code : Bool
  deriving DecidableEq, Repr

/-- A grammar.  Symbols are numbers:

* `0 … nterm-1` are the terminals, by their `index`; 0 is the end of input `$`;
* `nterm … nterm+mts.length-1` are the multi-terminals.  `mts` lists the terminals they stand
  for.  Each occurrence of `A|B` in the grammar file makes a new `struct symbol`
  (lemon.c:2522-2539); here multi-terminals with the same list are one symbol, as
  `same_symbol` (lemon.c:1062-1073) treats them;
* the other symbols below `nsym` are the nonterminals; the `index` of nonterminal `A` is
  `A - mts.length` (in the code multi-terminals have the highest indices or none).

`prec t` and `assoc t` are the fields `prec` (−1: none) and `assoc` of terminal `t`, `yaccPrec` is the field of `struct lemon`
(option `-z` or `%yacc_prec`). -/
structure Gram where
  nterm : Nat
  mts : List (List Nat)
  nsym : Nat
  rules : List Rule
  start : Nat
  errsym : Option Nat
  wildcard : Option Nat
  prec : Nat → Int
  assoc : Nat → Assoc
  yaccPrec : Bool := false

/-- number of symbols that are not nonterminals -/
def Gram.nlow (g : Gram) : Nat := g.nterm + g.mts.length

/-- `sp->type==TERMINAL` -/
def Gram.isTerm (g : Gram) (X : Nat) : Bool := X < g.nterm

/-- `sp->type==MULTITERMINAL` -/
def Gram.isMT (g : Gram) (X : Nat) : Bool := g.nterm ≤ X && X < g.nlow

/-- `sp->type==NONTERMINAL` -/
def Gram.isNT (g : Gram) (X : Nat) : Bool := g.nlow ≤ X

/-- `sp->subsym` of a multi-terminal -/
def Gram.subsym (g : Gram) (X : Nat) : List Nat := g.mts.getD (X - g.nterm) []

/-- the field `index` of terminals and nonterminals (see `Gram`) -/
def Gram.index (g : Gram) (X : Nat) : Nat := if X < g.nterm then X else X - g.mts.length

/-- `lemp->nsymbol`: terminals and nonterminals; also the index of `{default}` -/
def Gram.nsymbol (g : Gram) : Nat := g.nsym - g.mts.length

/-- rule by `index` (declaration order) -/
def Gram.rule (g : Gram) (r : Nat) : Rule := g.rules.getD r ⟨0, [], none, false⟩

/-- `lemp->rule` after `Rule_sort`, lemon.c:1806: the rules by increasing `iRule` -/
def Gram.ruleList (g : Gram) : List Rule := (sortedRules (g.rules.map Rule.code)).map g.rule

/-- the rules of nonterminal `A` in the order of the list `A->rule` linked by `nextlhs`: a new
rule is put at the head, lemon.c:2498-2499 -/
def Gram.rulesOf (g : Gram) (A : Nat) : List Nat :=
  ((List.range g.rules.length).filter fun r => (g.rule r).lhs == A).reverse

end Verif.Lemon
