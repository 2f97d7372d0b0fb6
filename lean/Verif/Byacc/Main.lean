import Verif.Byacc.MkPar
/-
byacc/main.c: the sequence of passes.
-/
set_option autoImplicit false
namespace Verif.Byacc

/-- What the passes before `output` leave behind. -/
structure Generated where
  aut : LR0
  nullable : List Bool
  look : LalrOut
  parser : Parser

/-- byacc/main.c:965-967 `lr0(&S); lalr(&S); make_parser(&S);` (with `set_nullable`, called by
`lr0`).  `none`: a pass does not return. -/
def generate (g : Gram) (sp : SymPrec) (lemon : Bool) (srExpect rrExpect : Int) : Option Generated := do
  let a ← generateStates g
  let N ← setNullable g
  let lo ← lalr g a N
  return { aut := a, nullable := N, look := lo, parser := makeParser g sp lemon srExpect rrExpect a lo }

end Verif.Byacc
