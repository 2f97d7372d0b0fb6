import Verif.Spec.Grammar
/-
Specification: evaluation of parse trees from left to right, where a value may depend on the values to the left.
-/
set_option autoImplicit false
namespace Verif.Spec

/-- `BuildsIn G zero f ctx rs β w vs`: like `Builds`, but the value of a tree may depend on all that stands to its left: `ctx` are the values to the
left of the first tree, nearest first.  When rule `r` is applied, `f r` is given the value of the first child (`zero` if there is none), and the values
of the children and of what is to the left of them, nearest first. -/
inductive BuildsIn {V : Type} (G : CFG) (zero : V) (f : Nat → V → List V → V) :
    List V → List Nat → List Nat → List (Nat × V) → List V → Prop
  | nil (ctx : List V) : BuildsIn G zero f ctx [] [] [] []
  | tok {ctx : List V} {rs β : List Nat} {w : List (Nat × V)} {vs : List V} {t : Nat} (v : V) (ht : t < G.ntok)
      (h : BuildsIn G zero f ctx rs β w vs) : BuildsIn G zero f ctx rs (β ++ [t]) (w ++ [(t, v)]) (vs ++ [v])
  | rule {ctx : List V} {rs rs' β : List Nat} {w w' : List (Nat × V)} {vs us : List V} {r A : Nat} {α : List Nat}
      (hr : G.rules[r]? = some (A, α)) (h : BuildsIn G zero f ctx rs β w vs) (h' : BuildsIn G zero f (vs.reverse ++ ctx) rs' α w' us) :
      BuildsIn G zero f ctx (rs ++ rs' ++ [r]) (β ++ [A]) (w ++ w') (vs ++ [f r (us.headD zero) (us.reverse ++ (vs.reverse ++ ctx))])

end Verif.Spec
