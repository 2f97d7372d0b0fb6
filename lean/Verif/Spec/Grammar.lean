import Mathlib.Logic.Relation
/-
Specification: context-free grammars and derivations.  Independent of byacc/lemon.
-/
namespace Verif.Spec

/-- A context-free grammar.  Symbols are natural numbers; a symbol below `ntok` is a
token (terminal), any other symbol is a nonterminal.  A rule is a left-hand side
with a right-hand side; rules are identified by their position in `rules`. -/
structure CFG where
  ntok : Nat
  rules : List (Nat × List Nat)

/-- No rule rewrites a token. -/
def CFG.NoTokLhs (G : CFG) : Prop := ∀ A α, (A, α) ∈ G.rules → G.ntok ≤ A

/-- One derivation step: replace one occurrence of `A` by the right-hand side of a
rule `A → α`. -/
inductive CFG.Step (G : CFG) : List Nat → List Nat → Prop
  | mk (u v : List Nat) {A : Nat} {α : List Nat} (h : (A, α) ∈ G.rules) :
      CFG.Step G (u ++ A :: v) (u ++ (α ++ v))

/-- `G.Derives u v`: `u ⇒* v`. -/
def CFG.Derives (G : CFG) : List Nat → List Nat → Prop := Relation.ReflTransGen G.Step

/-- The symbol string `β` can derive the empty string. -/
def CFG.Nullable (G : CFG) (β : List Nat) : Prop := G.Derives β []

/-- Token `t` can begin a string derived from `β`. -/
def CFG.First (G : CFG) (β : List Nat) (t : Nat) : Prop :=
  t < G.ntok ∧ ∃ γ, G.Derives β (t :: γ)

/-- `w` is a sentence of nonterminal `S`: a string of tokens derived from `S`. -/
def CFG.Sentence (G : CFG) (S : Nat) (w : List Nat) : Prop :=
  (∀ t ∈ w, t < G.ntok) ∧ G.Derives [S] w

end Verif.Spec
