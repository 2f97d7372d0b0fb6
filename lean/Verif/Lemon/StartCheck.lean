import Verif.Lemon.Number
/-
`FindStates`: the check that the start symbol is on no right-hand side (lemon.c:981-996).
-/
set_option autoImplicit false
namespace Verif.Lemon

/-- how often the error is reported, lemon.c:984-996; `errorcnt` grows by this number -/
def Gram.startErrors (g : Gram) : Nat := (g.rules.map fun rp => rp.rhs.countP fun X => X == g.start).sum

end Verif.Lemon
