import Verif.Lemon.Compress
/-
Specification: how to read lemon's lists of actions.
-/
set_option autoImplicit false
namespace Verif.Lemon

/-- the usable actions of a list on a symbol, in order, as type and argument -/
def onSym (l : List Act) (X : Nat) : List (AType × Nat) :=
  (l.filter fun a => a.type.live && a.sp == X).map fun a => (a.type, a.x)

/-- the usable actions of a state on symbol `X` after compression -/
def CState.on (c : CState) (X : Nat) : List (AType × Nat) := onSym c.acts X

/-- a rule with one symbol on its right-hand side and no code -/
def Gram.unitRule (g : Gram) (r : Nat) : Prop := (g.rule r).rhs.length = 1 ∧ (g.rule r).code = false

/-- `B` is the only symbol on the right-hand side of a rule of `A` without code -/
def Gram.unitOf (g : Gram) (B A : Nat) : Prop := ∃ r < g.rules.length, g.unitRule r ∧ (g.rule r).rhs = [B] ∧ (g.rule r).lhs = A

/-- What the parser does in state `s` after a reduction to `X`, given the actions `on X` of the
uncompressed table for each symbol `X` and for each state `q` the rule by which it always reduces
(`auto q`), if there is one: accept or go to the next state; but not to a state that always reduces,
instead that reduction follows; and if it is by a rule `A → X` without code, do at once what is to
be done after a reduction to `A`. -/
inductive Lands (g : Gram) (on : Nat → List (AType × Nat)) (auto : Nat → Option Nat) : Nat → AType × Nat → Prop
  | accept {X : Nat} : on X = [(.ACCEPT, 0)] → Lands g on auto X (.ACCEPT, 0)
  | shift {X q : Nat} : on X = [(.SHIFT, q)] → auto q = none → Lands g on auto X (.SHIFT, q)
  | reduce {X q r : Nat} : on X = [(.SHIFT, q)] → auto q = some r → ¬ g.unitRule r →
      Lands g on auto X (.SHIFTREDUCE, r)
  | unit {X q r : Nat} {e : AType × Nat} : on X = [(.SHIFT, q)] → auto q = some r → g.unitRule r →
      Lands g on auto (g.rule r).lhs e → Lands g on auto X e

/-- number of tokens on which the uncompressed state reduces by `r` -/
def nReduce (g : Gram) (on : Nat → List (AType × Nat)) (r : Nat) : Nat :=
  ((List.range g.nterm).filter fun t => (on t).contains (.REDUCE, r)).length

/-- The default of a state, which the parser uses if there is no other action on a token: it is a
rule most often reduced by in the uncompressed state; no default if the wildcard can be shifted;
rules of the start symbol do not count. -/
structure DefaultOK (g : Gram) (on : Nat → List (AType × Nat)) (d : Option Nat) : Prop where
  used : ∀ r, d = some r → ∃ t, (.REDUCE, r) ∈ on t
  start : ∀ r, d = some r → (g.rule r).lhs ≠ g.start
  wild : ∀ r W, d = some r → g.wildcard = some W → ∀ q, (.SHIFT, q) ∉ on W
  most : ∀ r r' t, d = some r → (.REDUCE, r') ∈ on t → (g.rule r').lhs ≠ g.start → nReduce g on r' ≤ nReduce g on r
  none : d = none → (∃ W q, g.wildcard = some W ∧ (.SHIFT, q) ∈ on W) ∨ ∀ t r, (.REDUCE, r) ∈ on t → (g.rule r).lhs = g.start

/-- one state of `C35` -/
structure Compressed (g : Gram) (on : Nat → List (AType × Nat)) (auto : Nat → Option Nat) (c : CState) : Prop where
  /-- no action: none is added -/
  none : ∀ X, X < g.nsym → on X = [] → c.on X = []
  /-- shift: the same, or shift and reduce if the state shifted to always reduces -/
  shift : ∀ t q, t < g.nterm → on t = [(.SHIFT, q)] →
    c.on t = match auto q with
      | some r => [(.SHIFTREDUCE, r)]
      | none => [(.SHIFT, q)]
  /-- reduce: the same, or by default -/
  reduce : ∀ t r, on t = [(.REDUCE, r)] →
    (dfltReduce g c = some r ∧ c.on t = []) ∨ (dfltReduce g c ≠ some r ∧ c.on t = [(.REDUCE, r)])
  /-- tie on a non-associative token -/
  tie : ∀ t q r, on t = [(.ERROR, q), (.REDUCE, r)] →
    (dfltReduce g c = some r ∧ c.on t = [(.ERROR, q)]) ∨
    (dfltReduce g c = Option.none ∧ c.on t = [(.ERROR, q), (.REDUCE, r)]) ∨
    (∃ r', r' ≠ r ∧ dfltReduce g c = some r' ∧ c.on t = [(.REDUCE, r), (.ERROR, q)])
  /-- after a reduction to a nonterminal -/
  goto : ∀ A, g.nlow ≤ A → A < g.nsym → on A ≠ [] → ∃ e, c.on A = [e] ∧ Lands g on auto A e
  /-- states that always reduce: no shift, no other reduction -/
  auto : ∀ r, c.auto = some r ↔ dfltReduce g c = some r ∧ ∀ X, ∀ e ∈ on X, e.1 ≠ .SHIFT ∧ (e.1 = .REDUCE → e.2 = r)

end Verif.Lemon
