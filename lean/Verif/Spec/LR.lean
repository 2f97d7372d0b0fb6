import Verif.Spec.Grammar
/-
Specification: LR items, the contexts in which they are valid, and LALR(1)
lookaheads.  Independent of byacc/lemon.

An item is a rule number `r` with a dot position `d` (number of right-hand-side
symbols before the dot).
-/
namespace Verif.Spec

/-- Where parsing starts: the rules recognised in the initial state and the string of
symbols following them (yacc: the rule `$accept: goal $end`, nothing after it; lemon:
all rules of the start symbol, followed by the end-of-input token). -/
structure Init where
  rules : Nat → Prop
  ctx : List Nat

/-- `Ctx G I γ r d z`: item `(r, d)` is valid for the prefix `γ` with right context
`z`.  In other words there is a derivation of a sentential form `δ A z` where
`r : A → α β`, `d = |α|` and `γ = δ α`. -/
inductive Ctx (G : CFG) (I : Init) : List Nat → Nat → Nat → List Nat → Prop
  | init {r : Nat} (hr : I.rules r) : Ctx G I [] r 0 I.ctx
  | clos {γ : List Nat} {r d : Nat} {z : List Nat} {A : Nat} {α : List Nat} {B : Nat}
      {r' : Nat} {η : List Nat} (h : Ctx G I γ r d z)
      (hr : G.rules[r]? = some (A, α)) (hB : α[d]? = some B)
      (hr' : G.rules[r']? = some (B, η)) : Ctx G I γ r' 0 (α.drop (d+1) ++ z)
  | shift {γ : List Nat} {r d : Nat} {z : List Nat} {A : Nat} {α : List Nat} {X : Nat}
      (h : Ctx G I γ r d z) (hr : G.rules[r]? = some (A, α)) (hX : α[d]? = some X) :
      Ctx G I (γ ++ [X]) r (d+1) z

/-- Item `(r,d)` is LR(0)-valid for the prefix `γ`. -/
def ValidItem (G : CFG) (I : Init) (γ : List Nat) (r d : Nat) : Prop :=
  ∃ z, Ctx G I γ r d z

/-- Token `t` is an LR(1) lookahead of item `(r,d)` for the prefix `γ`: it can begin
a string derived from the right context of the item. -/
def ValidLA (G : CFG) (I : Init) (γ : List Nat) (r d t : Nat) : Prop :=
  ∃ z, Ctx G I γ r d z ∧ G.First z t

/-- The two prefixes have the same valid LR(0) items: they lead to the same LR(0)
state. -/
def SameState (G : CFG) (I : Init) (γ γ' : List Nat) : Prop :=
  ∀ r d, ValidItem G I γ r d ↔ ValidItem G I γ' r d

/-- Token `t` is an LALR(1) lookahead of item `(r,d)` in the LR(0) state of prefix
`γ`: it is an LR(1) lookahead for some prefix leading to the same LR(0) state. -/
def LalrLA (G : CFG) (I : Init) (γ : List Nat) (r d t : Nat) : Prop :=
  ∃ γ', SameState G I γ γ' ∧ ValidLA G I γ' r d t

end Verif.Spec
