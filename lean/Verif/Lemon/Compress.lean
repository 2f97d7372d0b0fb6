import Verif.Lemon.Actions
/-
Smaller tables: `CompressTables` and `ResortStates` (lemon.c:5553-5735).
-/
set_option autoImplicit false
namespace Verif.Lemon

/-- `rp->lhsStart`, set by `FindStates` for the rules of the start symbol, lemon.c:1000-1005 -/
def Gram.lhsStart (g : Gram) (r : Nat) : Bool := (g.rule r).lhs == g.start

/-- The search for the most frequent reduction, lemon.c:5574-5595.  The state is `nbest`, `rbest`
and `usesWildcard`. -/
def bestScan (g : Gram) : List Act → Nat × Option Nat × Bool → Nat × Option Nat × Bool
  | [], s => s
  | ap :: l, (nbest, rbest, usesWildcard) =>
    let usesWildcard := usesWildcard || (ap.type == .SHIFT && some ap.sp == g.wildcard)
    if ap.type != .REDUCE then bestScan g l (nbest, rbest, usesWildcard)
    else if g.lhsStart ap.x then bestScan g l (nbest, rbest, usesWildcard)
    else if some ap.x == rbest then bestScan g l (nbest, rbest, usesWildcard)
    else
      let n := 1 + (l.filter fun ap2 => ap2.type == .REDUCE && some ap2.x != rbest && ap2.x == ap.x).length
      if n > nbest then bestScan g l (n, some ap.x, usesWildcard) else bestScan g l (nbest, rbest, usesWildcard)

/-- Whether an action reduces by rule `r` -/
def Act.reduces (r : Nat) (a : Act) : Bool := a.type == .REDUCE && a.x == r

/-- lemon.c:5606-5612: the first reduction by `r` gets the symbol `{default}`, the others become
`NOT_USED`.  (`assert( ap )` holds: the rule is taken from the list, see `compressState_spec`.) -/
def makeDefault (g : Gram) (r : Nat) : List Act → List Act
  | [] => []
  | a :: l =>
    if a.reduces r then
      { a with sp := g.nsym } :: l.map fun b => if b.reduces r then { b with type := .NOT_USED } else b
    else a :: makeDefault g r l

/-- A state after `CompressTables`.  `auto` is `pDfltReduce` if `autoReduce` is set, else `none`
(the two fields are set together). -/
structure CState where
  acts : List Act
  auto : Option Nat
  deriving DecidableEq, Repr

/-- lemon.c:5616-5623: no shift, no other reduction -/
def autoReduce (r : Nat) (l : List Act) : Bool :=
  l.all fun ap => !(ap.type == .SHIFT) && !(ap.type == .REDUCE && ap.x != r)

/-- The first pass for one state, lemon.c:5568-5624 -/
def compressState (g : Gram) (l : List Act) : CState :=
  match bestScan g l (0, none, false) with
  | (nbest, some rbest, usesWildcard) =>
    if nbest < 1 || usesWildcard then ⟨l, none⟩
    else
      let l' := actionSort g (makeDefault g rbest l)
      ⟨l', if autoReduce rbest l' then some rbest else none⟩
  | (_, none, _) => ⟨l, none⟩

/-- The second pass for one action, lemon.c:5632-5640: a shift to a state that only reduces
becomes a `SHIFTREDUCE`. -/
def shiftReduce (sts : List CState) (a : Act) : Act :=
  if a.type == .SHIFT then
    match (sts.getD a.x ⟨[], none⟩).auto with
    | some r => { a with type := .SHIFTREDUCE, x := r }
    | none => a
  else a

/-- The test of the third pass, lemon.c:5653-5662: a `SHIFTREDUCE` on a nonterminal by a rule with
one symbol on its right-hand side and no code -/
def Gram.elidable (g : Gram) (a : Act) : Bool :=
  a.type == .SHIFTREDUCE && !(g.rule a.x).code && (g.rule a.x).rhs.length == 1 && g.nterm ≤ g.index a.sp

/-- The third pass at the action at position `i`, lemon.c:5650-5671: as long as the test succeeds the
action becomes that of the rule's left-hand side.  `none`: `assert( ap2!=0 )` fails, or not
finished after the given number of steps. -/
def elideAt (g : Gram) : Nat → List Act → Nat → Option (List Act)
  | fuel, l, i =>
    match l[i]? with
    | none => some l
    | some ap =>
      if g.elidable ap then
        match fuel with
        | 0 => none
        | fuel+1 =>
          match l.zipIdx.find? fun e => e.2 != i && e.1.sp == (g.rule ap.x).lhs with
          | none => none
          | some (ap2, _) => elideAt g fuel (l.set i { ap with type := ap2.type, x := ap2.x }) i
      else some l

/-- The third pass for one state, lemon.c:5648-5672 -/
def elideAll (g : Gram) (fuel : Nat) (l : List Act) : Option (List Act) :=
  (List.range l.length).foldlM (elideAt g fuel) l

/-- `CompressTables`, lemon.c:5560-5673.  The states are those of `FindActions`. -/
def compressTables (g : Gram) (fuel : Nat) (acts : List (List Act)) : Option (List CState) :=
  let s1 := acts.map (compressState g)
  s1.mapM fun c => (elideAll g fuel (c.acts.map (shiftReduce s1))).map fun l => ⟨l, c.auto⟩

/-- without `CompressTables` (option `-c`, lemon.c:1836) -/
def uncompressed (acts : List (List Act)) : List CState := acts.map fun l => ⟨l, none⟩

/-- Types for which `compute_action` does not return −1, lemon.c:3928-3952 -/
def AType.live : AType → Bool
  | .SHIFT | .ACCEPT | .REDUCE | .ERROR | .SHIFTREDUCE => true
  | _ => false

/-- `nTknAct`, lemon.c:5719-5720 -/
def nTknAct (g : Gram) (c : CState) : Nat := (c.acts.filter fun a => a.type.live && g.index a.sp < g.nterm).length

/-- `nNtAct`, lemon.c:5721-5722 -/
def nNtAct (g : Gram) (c : CState) : Nat :=
  (c.acts.filter fun a => a.type.live && g.nterm ≤ g.index a.sp && g.index a.sp < g.nsymbol).length

/-- `iDfltReduce`, lemon.c:5712-5727, as the index of the rule; `none` for −1.  In the code it is
`compute_action` of the action on `{default}`, that is `iRule` as `minReduce` is still 0. -/
def dfltReduce (g : Gram) (c : CState) : Option Nat :=
  (c.acts.filter fun a => a.type.live && g.nsymbol ≤ g.index a.sp).getLast?.map Act.x

/-- `stateResortCompare(a,b) < 0`, lemon.c:5682-5697, for states given by their numbers -/
def resortLt (g : Gram) (cs : List CState) (a b : Nat) : Bool :=
  let A := cs.getD a ⟨[], none⟩
  let B := cs.getD b ⟨[], none⟩
  nNtAct g A > nNtAct g B ||
    (nNtAct g A == nNtAct g B && (nTknAct g A > nTknAct g B || (nTknAct g A == nTknAct g B && a > b)))

/-- put an element into a sorted list -/
def sortInsert (le : Nat → Nat → Bool) (a : Nat) : List Nat → List Nat
  | [] => [a]
  | b :: l => if le a b then a :: b :: l else b :: sortInsert le a l

/-- The library function `qsort` (lemon.c:5102 and 5726), modelled by insertion sort: the comparisons
it is used with are 0 for equal elements only, so every sorting method has the same result. -/
def qsort (le : Nat → Nat → Bool) : List Nat → List Nat
  | [] => []
  | a :: l => sortInsert le a (qsort le l)

/-- `ResortStates`, lemon.c:5704-5731: the old numbers of the states in their new order.  (The
comparison is never 0 for two states.) -/
def resortStates (g : Gram) (cs : List CState) : List Nat :=
  match List.range cs.length with
  | [] => []
  | s :: l => s :: qsort (fun a b => a == b || resortLt g cs a b) l

/-- `nxstate`, lemon.c:5732-5735: the states without the `autoReduce` states at the end; state 0 is
kept. -/
def nxstate (cs : List CState) (order : List Nat) : Nat :=
  match order with
  | [] => 0
  | _ :: l => 1 + (l.reverse.dropWhile fun s => (cs.getD s ⟨[], none⟩).auto.isSome).length

end Verif.Lemon
