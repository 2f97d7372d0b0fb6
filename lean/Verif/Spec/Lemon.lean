import Verif.Lemon.Grammar
import Verif.Spec.LR
/-
Specification: the context-free grammar a lemon grammar file denotes.
-/
set_option autoImplicit false
namespace Verif.Lemon
open Verif.Spec

/-- The grammar denoted by a lemon grammar: the tokens are the terminals; a multi-terminal is a
symbol with one rule for each of the terminals it stands for. -/
def Gram.cfg (g : Gram) : CFG where
  ntok := g.nterm
  rules := g.rules.map (fun r => (r.lhs, r.rhs)) ++
    (List.range g.mts.length).flatMap fun i => (g.mts.getD i []).map fun t => (g.nterm + i, [t])

/-- The same rules with multi-terminals taken as tokens. -/
def Gram.ext (g : Gram) : CFG where
  ntok := g.nlow
  rules := g.rules.map fun r => (r.lhs, r.rhs)

/-- the terminals a terminal or multi-terminal stands for -/
def Gram.members (g : Gram) (X : Nat) : List Nat := if X < g.nterm then [X] else g.subsym X

/-- What `Parse` and `main` establish about a grammar: there is a terminal `$`; left-hand sides
are nonterminals; all symbols are numbered below `nsym`; multi-terminals stand for terminals. -/
structure Gram.WF (g : Gram) : Prop where
  nterm : 0 < g.nterm
  nsym : g.nlow ≤ g.nsym
  lhs : ∀ r ∈ g.rules, g.nlow ≤ r.lhs ∧ r.lhs < g.nsym
  rhs : ∀ r ∈ g.rules, ∀ X ∈ r.rhs, X < g.nsym
  mts : ∀ m ∈ g.mts, ∀ t ∈ m, t < g.nterm

/-- Where a lemon parser starts: the rules of the start symbol, followed by the end of input. -/
def lemonInit (g : Gram) : Init where
  rules := fun r => r < g.rules.length ∧ (g.rule r).lhs = g.start
  ctx := [0]

/-- `t` is an LALR(1) lookahead of the item `(r,d)` in the LR(0) state of the prefix `γ`.  States
are those of the grammar in which a multi-terminal is a token; what can follow is taken from the
grammar in which it stands for its terminals. -/
def LemonLA (g : Gram) (γ : List Nat) (r d t : Nat) : Prop :=
  ∃ γ', SameState g.ext (lemonInit g) γ γ' ∧ ∃ z, Ctx g.ext (lemonInit g) γ' r d z ∧ g.cfg.First z t

end Verif.Lemon

namespace Verif.Lemon
open Verif.Spec

/-- The yacc form `G'` of the grammar `G` with start symbol `S`: symbols renamed by `σ`, and a
first rule `acc → S $end` added (`$end` is the renamed token 0). -/
structure YaccForm (σ : Nat → Nat) (G : CFG) (S acc : Nat) (G' : CFG) : Prop where
  inj : ∀ X Y, σ X = σ Y → X = Y
  tok : ∀ X, σ X < G'.ntok ↔ X < G.ntok
  rules : G'.rules = (acc, [σ S, σ 0]) :: G.rules.map fun p => (σ p.1, p.2.map σ)
  acc : ∀ X, σ X ≠ acc

end Verif.Lemon
