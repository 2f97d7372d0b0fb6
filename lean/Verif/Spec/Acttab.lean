import Verif.Lemon.Acttab
/-
Specification: how lemon's packed action table is read.
-/
set_option autoImplicit false
namespace Verif.Lemon

/-- the action of a transaction on symbol `X`: the last one given, if there is one -/
def lastOf (L : List (Nat × Nat)) (X : Nat) : Option Nat := (L.reverse.find? fun e => e.1 == X).map Prod.snd

/-- Looking up symbol `X` for offset `o`: the slot `o + X` counts if it is marked with `X`. -/
def Acttab.look (p : Acttab) (o : Int) (X : Nat) : Option Nat :=
  if 0 ≤ o + X then
    match p.slot (o + X).toNat with
    | some (l, a) => if l = X then some a else none
    | none => none
  else none

/-- The transactions that `ReportTable` makes, with `N` symbols of which the first `T` are tokens: not
empty, without repetition, for tokens (`safe`) or for nonterminals. -/
structure TransOK (N T : Nat) (safe : Bool) (L : List (Nat × Nat)) : Prop where
  ne : L ≠ []
  nodup : L.Nodup
  lt : ∀ e ∈ L, e.1 < N
  tok : safe = true → ∀ e ∈ L, e.1 < T
  nt : safe = false → ∀ e ∈ L, T ≤ e.1

end Verif.Lemon
