import Verif.Lemon.Set
/-
`FindFirstSets` (lemon.c:893-949) and `FindRulePrecedences` (lemon.c:857-886).
-/
set_option autoImplicit false
namespace Verif.Lemon

/-- One round of the `for` loop computing lambdas, lemon.c:911-922, for rule `rp`.  The state is
the field `lambda` of every symbol (by symbol number) and `progress`. -/
def lambdaStep (s : List Bool × Bool) (rp : Rule) : List Bool × Bool :=
  if s.1.getD rp.lhs false then s
  else if rp.rhs.all (fun X => s.1.getD X false) then (s.1.set rp.lhs true, true)
  else s

/-- One pass of the `do` loop, lemon.c:909-923 -/
def lambdaPass (g : Gram) (l : List Bool) : List Bool × Bool :=
  g.ruleList.foldl lambdaStep (l, false)

/-- The lambdas, lemon.c:899-901 and 908-923 -/
def findLambda (g : Gram) (fuel : Nat) : Option (List Bool) :=
  doWhile (lambdaPass g) fuel (List.replicate g.nsym false)

/-- The loop over the right-hand side, lemon.c:931-945; the first argument is what is left of the
right-hand side.  The state is the family of first sets (by symbol number; those of terminals and
multi-terminals are not used) and `progress`. -/
def firstScan (g : Gram) (lam : List Bool) (s1 : Nat) : List Nat → List TSet × Bool → List TSet × Bool
  | [], F => F
  | s2 :: rest, F =>
    if g.isTerm s2 then addAt F s1 s2
    else if g.isMT s2 then (g.subsym s2).foldl (fun F t => addAt F s1 t) F
    else if s1 == s2 then
      if lam.getD s1 false == false then F else firstScan g lam s1 rest F
    else
      let F := unionAt F s1 (F.1.getD s2 [])
      if lam.getD s2 false == false then F else firstScan g lam s1 rest F

/-- One pass of the second `do` loop, lemon.c:926-947 -/
def firstPass (g : Gram) (lam : List Bool) (F : List TSet) : List TSet × Bool :=
  g.ruleList.foldl (fun F rp => firstScan g lam rp.lhs rp.rhs F) (F, false)

/-- The first sets, lemon.c:902-904 and 925-947 -/
def findFirst (g : Gram) (lam : List Bool) (fuel : Nat) : Option (List TSet) :=
  doWhile (firstPass g lam) fuel (List.replicate g.nsym (setNew g.setSize))

/-- Fields `lambda` and `firstset` of all symbols -/
structure FirstSets where
  lambda : List Bool
  first : List TSet
  deriving DecidableEq, Repr

/-- `FindFirstSets`, lemon.c:893-949, with `n` passes at most for each of its loops -/
def firstWith (g : Gram) (n : Nat) : Option FirstSets :=
  (findLambda g n).bind fun lam => (findFirst g lam n).map fun F => ⟨lam, F⟩

/-- `FindFirstSets`, lemon.c:893-949.  `C30` shows that the number of passes suffices. -/
def findFirstSets (g : Gram) : Option FirstSets := firstWith g (g.nsym * g.setSize + 1)

/-- The precedence mark `[X]` after a rule, lemon.c:2411-2413 -/
def precMark (ignorePrec : Bool) (x : Nat) : Option Nat := if !ignorePrec then some x else none

/-- The loop over the members of a multi-terminal, lemon.c:872-877; `u` is `use_sp`. -/
def precSub (g : Gram) (yaccPrec : Bool) : List Nat → Option Nat → Option Nat
  | [], u => u
  | t :: ts, u =>
    if g.prec t ≥ 0 || yaccPrec then
      (if !yaccPrec then some t else precSub g yaccPrec ts (some t))
    else precSub g yaccPrec ts u

/-- The loop over the right-hand side, lemon.c:866-881; `u` is `use_sp`. -/
def precScan (g : Gram) (yaccPrec : Bool) : List Nat → Option Nat → Option Nat
  | [], u => u
  | X :: rest, u =>
    if u.isSome && !yaccPrec then u
    else if g.isMT X then precScan g yaccPrec rest (precSub g yaccPrec (g.subsym X) u)
    else if g.isTerm X && (g.prec X ≥ 0 || yaccPrec) then precScan g yaccPrec rest (some X)
    else precScan g yaccPrec rest u

/-- `FindRulePrecedences`, lemon.c:857-886, for one rule: the field `precsym` afterwards -/
def findRulePrec (g : Gram) (ignorePrec yaccPrec : Bool) (rp : Rule) : Option Nat :=
  if ignorePrec then rp.prec
  else match rp.prec with
    | some x => some x
    | none =>
      match precScan g yaccPrec rp.rhs none with
      | some t => if g.prec t ≥ 0 then some t else none
      | none => none

end Verif.Lemon
