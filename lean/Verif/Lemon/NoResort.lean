import Verif.Lemon.Parse
/-
Option `-r`: `ResortStates` is not called (lemon.c:1838).
-/
set_option autoImplicit false
namespace Verif.Lemon

/-- The tables made with `-r`.  The states have the order in which they were found.  `nxstate` is set in `ResortStates` only (lemon.c:5731-5734) and is 0 from the
`memset` in lemon.c:1695.  (`calloc` of nothing, lemon.c:5083, is assumed not to return a null pointer.) -/
def reportUnsorted (g : Gram) (fb : Nat → Option Nat) (cs : List CState) : Option Tables := report g fb cs (List.range cs.length) 0

end Verif.Lemon
