/-
The packed action table under construction: `struct acttab` (lemon.c:636-840).
-/
set_option autoImplicit false
namespace Verif.Lemon

/-- `struct lookahead_action`, lemon.c:632-635; `none` for a slot with −1 in both fields. -/
abbrev Slot := Option (Nat × Nat)

/-- the field `lookahead` -/
def Slot.la : Slot → Int
  | none => -1
  | some e => e.1

/-- `struct acttab`, lemon.c:637-650.  `tab` is `aAction`, its length `nActionAlloc`.  The
transaction (`aLookahead` etc.) is an argument of `Acttab.insert`. -/
structure Acttab where
  nAction : Nat
  tab : List Slot
  deriving DecidableEq, Repr

/-- `acttab_alloc`, lemon.c:669-679 -/
def Acttab.empty : Acttab := ⟨0, []⟩

/-- `aAction[i]`; indices are checked in `Acttab.insert` -/
def Acttab.slot (p : Acttab) (i : Nat) : Slot := p.tab.getD i none

/-- `mnLookahead` and `mnAction` of a transaction, lemon.c:696-706: the least lookahead, and the
first action on it -/
def minEntry : List (Nat × Nat) → Nat × Nat
  | [] => (0, 0)
  | e :: l => l.foldl (fun m e => if m.1 > e.1 then e else m) e

/-- `mxLookahead` of a transaction, lemon.c:696-706 -/
def maxLook : List (Nat × Nat) → Nat
  | [] => 0
  | e :: l => l.foldl (fun m e => if m < e.1 then e.1 else m) e.1

/-- lemon.c:735-749: room for one more transaction -/
def Acttab.grow (nsymbol : Nat) (p : Acttab) : Acttab :=
  let n := nsymbol + 1
  if p.nAction + n ≥ p.tab.length then
    { p with tab := p.tab ++ List.replicate (p.nAction + n + 20) none }
  else p

/-- the index `k` of the entry `e` if the least lookahead is put at index `i` -/
def entryIdx (mn i : Nat) (e : Nat × Nat) : Nat := e.1 - mn + i

/-- lemon.c:759-782: the table has the transaction already, at index `i` -/
def Acttab.dupAt (p : Acttab) (L : List (Nat × Nat)) (i : Nat) : Bool :=
  let mn := minEntry L
  p.slot i == some mn &&
    L.all (fun e => entryIdx mn.1 i e < p.nAction && p.slot (entryIdx mn.1 i e) == some e) &&
    ((List.range p.nAction).filter fun j => (p.slot j).la ≥ 0 && (p.slot j).la == (j : Int) + mn.1 - i).length == L.length

/-- lemon.c:797-811: the transaction fits in empty slots at index `i` -/
def Acttab.holeAt (p : Acttab) (L : List (Nat × Nat)) (i : Nat) : Bool :=
  let mn := (minEntry L).1
  (p.slot i).la < 0 &&
    L.all (fun e => (p.slot (entryIdx mn i e)).la < 0) &&
    (List.range p.nAction).all fun j => (p.slot j).la != (j : Int) + mn - i

/-- lemon.c:757-812: the index at which the least lookahead is put.  First the indices from
`nAction-1` down to `end`, then those from `end` up to `nActionAlloc-mxLookahead`; the last one if
none fits. -/
def Acttab.place (p : Acttab) (safe : Bool) (L : List (Nat × Nat)) : Nat :=
  let lo := if safe then (minEntry L).1 else 0
  match (List.range p.nAction).reverse.find? fun i => lo ≤ i && p.dupAt L i with
  | some i => i
  | none =>
    match (List.range (p.tab.length - maxLook L)).find? fun i => lo ≤ i && p.holeAt L i with
    | some i => i
    | none => max lo (p.tab.length - maxLook L)

/-- lemon.c:821-825: one entry is written; `none`: outside of the array -/
def Acttab.write (mn i : Nat) (p : Acttab) (e : Nat × Nat) : Option Acttab :=
  let k := entryIdx mn i e
  if k < p.tab.length then some ⟨max p.nAction (k + 1), p.tab.set k (some e)⟩ else none

/-- `acttab_insert`, lemon.c:727-831, for the transaction `L` given by calls of `acttab_action`
(lemon.c:686-710).  The result is the new table and the offset.  `none`: `assert(nLookahead>0)`
fails or an index is outside of `aAction`.  (All reads are below `nAction`, or below
`nActionAlloc` by the bound of the second loop: see `entryIdx_lt`.)  Overflow of `int` is not
modelled. -/
def Acttab.insert (nsymbol nterm : Nat) (safe : Bool) (L : List (Nat × Nat)) (p : Acttab) : Option (Acttab × Int) :=
  if L = [] then none
  else
    let p := p.grow nsymbol
    if p.nAction > p.tab.length then none
    else
      let mn := (minEntry L).1
      let i := p.place safe L
      (L.foldlM (Acttab.write mn i) p).map fun p =>
        (if safe && i + nterm ≥ p.nAction then { p with nAction := i + nterm + 1 } else p, (i : Int) - mn)

/-- `acttab_action_size`, lemon.c:836-840.  `none`: reads outside of the array. -/
def Acttab.actionSize (p : Acttab) : Option Nat :=
  if p.nAction > p.tab.length then none
  else some (p.nAction - ((List.range p.nAction).reverse.takeWhile fun i => (p.slot i).la < 0).length)

/-- The calls of `acttab_insert` in `ReportTable`, lemon.c:5104-5130: one transaction after the other.  The
results are the table and the offsets. -/
def insertAll (nsymbol nterm : Nat) : List (Bool × List (Nat × Nat)) → Acttab → Option (Acttab × List Int)
  | [], p => some (p, [])
  | (safe, L) :: ops, p => do
    let (p, o) ← p.insert nsymbol nterm safe L
    let (p, os) ← insertAll nsymbol nterm ops p
    return (p, o :: os)

end Verif.Lemon
