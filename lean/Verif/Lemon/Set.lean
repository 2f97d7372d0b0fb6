import Verif.Lemon.Grammar
/-
Sets of terminals, lemon.c:5737-5787, and `do … while(progress)` loops.
-/
set_option autoImplicit false
namespace Verif.Lemon

/-- a set: `set_size` flags -/
abbrev TSet := List Bool

/-- `lem->set_size` after `SetSize(&lem,lem.nterminal+1)`, lemon.c:1809 and 5743-5746 -/
def Gram.setSize (g : Gram) : Nat := g.nterm + 2

/-- `SetNew`, lemon.c:5749-5756 -/
def setNew (n : Nat) : TSet := List.replicate n false

/-- `SetFind`, lemon.c:236 -/
def setFind (s : TSet) (e : Nat) : Bool := s.getD e false

/-- `SetAdd`, lemon.c:5766-5773: the new set and "was added".  (In the code an element outside the
set trips an assertion; here nothing is added.) -/
def setAdd (s : TSet) (e : Nat) : TSet × Bool := (s.set e true, !(setFind s e))

/-- `SetUnion`, lemon.c:5776-5787: the loop over all elements -/
def setUnion : TSet → TSet → TSet × Bool
  | [], _ => ([], false)
  | s1, [] => (s1, false)
  | a :: s1, b :: s2 =>
    let r := setUnion s1 s2
    if b == false then (a :: r.1, r.2)
    else if a == false then (true :: r.1, true)
    else (a :: r.1, r.2)

/-- `SetAdd` on the `i`-th of a family of sets, with an accumulated progress flag -/
def addAt (F : List TSet × Bool) (i e : Nat) : List TSet × Bool :=
  let r := setAdd (F.1.getD i []) e
  (F.1.set i r.1, F.2 || r.2)

/-- `SetUnion` of `s` into the `i`-th of a family of sets, with an accumulated progress flag -/
def unionAt (F : List TSet × Bool) (i : Nat) (s : TSet) : List TSet × Bool :=
  let r := setUnion (F.1.getD i []) s
  (F.1.set i r.1, F.2 || r.2)

/-- `do{ progress = 0; … }while( progress )` where `pass` is the body and returns the new state and
`progress`.  `none` when `fuel` passes do not suffice. -/
def doWhile {σ : Type} (pass : σ → σ × Bool) : Nat → σ → Option σ
  | 0, _ => none
  | n+1, s =>
    let r := pass s
    if r.2 then doWhile pass n r.1 else some r.1

end Verif.Lemon
