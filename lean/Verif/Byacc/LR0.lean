import Verif.Byacc.Reader
import Verif.Byacc.Warshall
/-
byacc/lr0.c and byacc/closure.c: nullable symbols, item-set closure and the LR(0)
automaton.
-/
namespace Verif.Byacc

/-- byacc/defs.h:196 `ISTOKEN(s)` (for a non-negative `s`) -/
def Gram.isTok (g : Gram) (s : Int) : Bool := decide (s < (g.start : Int))
/-- byacc/defs.h:197 `ISVAR(s)` -/
def Gram.isVar (g : Gram) (s : Int) : Bool := decide (s ≥ (g.start : Int))

/-- byacc/lr0.c:463-490 `set_derives`: the (−1 terminated) list `derives[lhs]` of rules
with left side `lhs`, in increasing order. -/
def derives (g : Gram) (lhs : Nat) : List Nat :=
  (List.range g.nrules).filter (fun i => g.lhs i == lhs)

/-! ### set_nullable -/

/-- `nullable[j]` -/
def nul (nullable : List Bool) (j : Nat) : Bool := nullable.getD j false

/-- byacc/lr0.c:531-549: one pass of the loop over the items.  The list is the rest of
`ritem` from position `i`; `empty` and `(nullable, done_flag)` are the C variables. -/
def nullPass (g : Gram) : List Int → Bool → List Bool × Bool → List Bool × Bool
  | [], _, st => st
  | j :: rest, empty, (nullable, done) =>
    if j ≥ 0 then
      nullPass g rest (if !(nul nullable j.toNat) then false else empty) (nullable, done)
    else if empty then
      let l := g.lhs (-j).toNat
      if !(nul nullable l) then nullPass g rest true (nullable.set l true, false)
      else nullPass g rest true (nullable, done)
    else nullPass g rest true (nullable, done)

/-- byacc/lr0.c:527-550: `while (!done_flag)`.  `none` would mean that the loop is still
running after `fuel` passes. -/
def nullLoop (g : Gram) : Nat → List Bool → Option (List Bool)
  | 0, _ => none
  | fuel+1, nullable =>
    let st := nullPass g (g.ritem.drop 1) true (nullable, true)
    if st.2 then some st.1 else nullLoop g fuel st.1

/-- byacc/lr0.c:516-562 `set_nullable` -/
def setNullable (g : Gram) : Option (List Bool) :=
  nullLoop g (g.nsyms + 1) (List.replicate g.nsyms false)

/-! ### closure.c -/

/-- byacc/closure.c:16-30: the bit row of nonterminal `start_symbol + v` before closure:
bit `w` is set if some rule of the nonterminal begins with nonterminal
`start_symbol + w`. -/
def effRow (g : Gram) (v : Nat) : List Word :=
  (derives g (g.start + v)).foldl (fun row rule =>
    let symbol := g.item (g.rhs rule)
    if g.isVar symbol then SETBIT row (symbol.toNat - g.start) else row)
    (zeroRow (wordsize g.nvars))

/-- byacc/closure.c:5-37 `set_EFF` -/
def setEFF (g : Gram) : List (List Word) :=
  reflexiveTransitiveClosure ((List.range g.nvars).map (effRow g)) g.nvars

/-- byacc/closure.c:59-86: row of `fs1_first_derives` for nonterminal
`start_symbol + v`.  The scan of the word bits of `vrow` is written with `BIT`. -/
def firstDerivesRow (g : Gram) (eff : List (List Word)) (v : Nat) : List Word :=
  loop g.nvars (fun rrow j =>
    if BIT (row eff v) j then
      (derives g (g.start + j)).foldl (fun r rule => SETBIT r rule) rrow
    else rrow) (zeroRow (wordsize g.nrules))

/-- byacc/closure.c:39-93 `set_first_derives` -/
def setFirstDerives (g : Gram) : List (List Word) :=
  let eff := setEFF g
  (List.range g.nvars).map (firstDerivesRow g eff)

/-- byacc/closure.c:106-122: `ruleset` of a kernel. -/
def rulesetOf (g : Gram) (fd : List (List Word)) (nucleus : List Nat) : List Word :=
  nucleus.foldl (fun rs csp =>
    let symbol := g.item csp
    if g.isVar symbol then orRow rs (row fd (symbol.toNat - g.ntokens)) else rs)
    (zeroRow (wordsize g.nrules))

/-- byacc/closure.c:135-140: emit the item `itemno` of a rule.  State: items written so
far and the rest of the kernel (`csp .. csend`). -/
def emitItem (itemno : Nat) (st : List Nat × List Nat) : List Nat × List Nat :=
  (st.1 ++ st.2.takeWhile (· < itemno) ++ [itemno],
   (st.2.dropWhile (· < itemno)).dropWhile (· == itemno))

/-- byacc/closure.c:95-149 `closure`: the item set of a kernel. -/
def closure (g : Gram) (fd : List (List Word)) (nucleus : List Nat) : List Nat :=
  let ruleset := rulesetOf g fd nucleus
  let st := loop (wordsize g.nrules) (fun st w =>
    let word := rdw ruleset w
    if word != 0#64 then
      loop 64 (fun st i =>
        if word &&& (1#64 <<< i) != 0#64 then emitItem (g.rhs (64 * w + i)) st else st) st
    else st) (([], nucleus) : List Nat × List Nat)
  st.1 ++ st.2

/-! ### lr0.c: states -/

/-- `struct core` (byacc/defs.h:259-268): accessing symbol and kernel items; the state
number is the position in the state list. -/
structure Core where
  acc : Nat
  items : List Nat
deriving DecidableEq, Repr

/-- byacc/lr0.c:227-259 `new_itemsets`: from the closed item set, the shift symbols in
order of first occurrence and for each symbol its kernel (`kernel_base[symbol]` up to
`kernel_end[symbol]`, `none` when `kernel_end` is NULL). -/
def newItemsets (g : Gram) (itemset : List Nat) : List Nat × List (Option (List Nat)) :=
  itemset.foldl (fun st j =>
    let symbol := g.item j
    if symbol > 0 then
      let s := symbol.toNat
      match st.2.getD s none with
      | none => (st.1 ++ [s], st.2.set s (some [j+1]))
      | some k => (st.1, st.2.set s (some (k ++ [j+1])))
    else st) ([], List.replicate g.nsyms none)

/-- byacc/lr0.c:79-90: insertion of one symbol in the sorted part of `shift_symbol`,
moving larger elements up from the right. -/
def insertRight (acc : List Nat) (x : Nat) : List Nat :=
  (acc.reverse.dropWhile (· > x)).reverse ++ x :: (acc.reverse.takeWhile (· > x)).reverse

/-- byacc/lr0.c:79-90 the insertion sort -/
def sortSymbols (l : List Nat) : List Nat := l.foldl insertRight []

/-- byacc/lr0.c:412-425 `save_reductions`: rules of the complete items, in order. -/
def reductionsOf (g : Gram) (itemset : List Nat) : List Nat :=
  itemset.filterMap fun j => if g.item j < 0 then some (-(g.item j)).toNat else none

/-- byacc/lr0.c:137-197 `get_state` (with `new_state`, lines 262-296): the number of the
state with the given kernel, created at the end of the list if there is none.
Simplification: the chains `state_set[key]`/`link` hold, in creation order, the states
(other than state 0) whose first kernel item is `key`; the model filters the state list
instead. The limit on the number of states is not modelled. -/
def getState (states : List Core) (symbol : Nat) (kernel : List Nat) : List Core × Nat :=
  match (List.range states.length).find? (fun i =>
      i ≠ 0 && (states.getD i ⟨0, []⟩).items.head? == kernel.head? &&
        (states.getD i ⟨0, []⟩).items == kernel) with
  | some i => (states, i)
  | none => (states ++ [⟨symbol, kernel⟩], states.length)

/-- The automaton under construction: all states found so far, and for the states already
processed (in order) their shift lists and reduction lists (an empty list stands for a
missing `shifts`/`reductions` record). -/
structure LR0 where
  states : List Core
  shifts : List (List Nat)
  reds : List (List Nat)
deriving DecidableEq, Repr

/-- byacc/lr0.c:92-96 second loop of `append_states` -/
def appendStates (kern : List (Option (List Nat))) (syms : List Nat) (states : List Core) :
    List Core × List Nat :=
  syms.foldl (fun st symbol =>
    let r := getState st.1 symbol ((kern.getD symbol none).getD [])
    (r.1, st.2 ++ [r.2])) (states, [])

/-- byacc/lr0.c:121-131: body of the main loop for the state with kernel `c`. -/
def processState (g : Gram) (fd : List (List Word)) (a : LR0) (c : Core) : LR0 :=
  let itemset := closure g fd c.items
  let ni := newItemsets g itemset
  let r := appendStates ni.2 (sortSymbols ni.1) a.states
  { states := r.1, shifts := a.shifts ++ [r.2], reds := a.reds ++ [reductionsOf g itemset] }

/-- byacc/lr0.c:120-131 `while (this_state)`: `this_state` is the state whose number is the
number of states already processed. `none`: still running after `fuel` states. -/
def genLoop (g : Gram) (fd : List (List Word)) : Nat → LR0 → Option LR0
  | 0, _ => none
  | fuel+1, a =>
    match a.states[a.shifts.length]? with
    | none => some a
    | some c => genLoop g fd fuel (processState g fd a c)

/-- byacc/lr0.c:200-224 `initialize_states` -/
def initialLR0 (g : Gram) : LR0 :=
  { states := [⟨0, (derives g g.start).map g.rhs⟩], shifts := [], reds := [] }

/-- byacc/lr0.c:112-134 `generate_states` -/
def generateStates (g : Gram) : Option LR0 :=
  genLoop g (setFirstDerives g) (2 ^ g.nitems + 2) (initialLR0 g)

end Verif.Byacc
