import Verif.Spec.Grammar
/-
Specification: rightmost derivations, and the bottom-up evaluation of parse trees.
Independent of byacc/lemon.
-/
set_option autoImplicit false
namespace Verif.Spec

/-- `G.Rightmost rs u w`: `w` is derived from `u` by applying the rules numbered `rs` in this
order, each time to the last nonterminal. -/
inductive CFG.Rightmost (G : CFG) : List Nat → List Nat → List Nat → Prop
  | refl (u : List Nat) : CFG.Rightmost G [] u u
  | step {r : Nat} {rs : List Nat} {A : Nat} {α δ z w : List Nat} (hr : G.rules[r]? = some (A, α))
      (hz : ∀ t ∈ z, t < G.ntok) (h : CFG.Rightmost G rs (δ ++ (α ++ z)) w) :
      CFG.Rightmost G (r :: rs) (δ ++ A :: z) w

/-- `Builds G f rs β w vs`: there are parse trees for the symbols `β` whose leaves are the tokens
`w` (each with a value) and whose values are `vs`; the value of a tree built by rule `r` is `f r`
of the values of its children.  `rs` are the rules used, in the order in which the trees are
completed from left to right, children before parents. -/
inductive Builds {V : Type} (G : CFG) (f : Nat → List V → V) :
    List Nat → List Nat → List (Nat × V) → List V → Prop
  | nil : Builds G f [] [] [] []
  | tok {rs β : List Nat} {w : List (Nat × V)} {vs : List V} {t : Nat} (v : V) (ht : t < G.ntok)
      (h : Builds G f rs β w vs) : Builds G f rs (β ++ [t]) (w ++ [(t, v)]) (vs ++ [v])
  | rule {rs rs' β : List Nat} {w w' : List (Nat × V)} {vs us : List V} {r A : Nat} {α : List Nat}
      (hr : G.rules[r]? = some (A, α)) (h : Builds G f rs β w vs) (h' : Builds G f rs' α w' us) :
      Builds G f (rs ++ rs' ++ [r]) (β ++ [A]) (w ++ w') (vs ++ [f r us])

end Verif.Spec
