/-
Numbers of conflicts.
-/
set_option autoImplicit false
namespace Verif.Lemon

/-- numbers of conflicts: all, shift/reduce, reduce/reduce (`lemp->nconflict`, `nconflict_sr`,
`nconflict_rr`, lemon.c:431-433) -/
structure Count where
  err : Nat
  sr : Nat
  rr : Nat
  deriving DecidableEq, Repr

def Count.add (a b : Count) : Count := ⟨a.err + b.err, a.sr + b.sr, a.rr + b.rr⟩

def Count.zero : Count := ⟨0, 0, 0⟩

end Verif.Lemon
