import Verif.Byacc.LR0
/-
byacc/lalr.c: LALR(1) lookaheads (DeRemer–Pennello).
-/
set_option autoImplicit false
namespace Verif.Byacc

/-- `accessing_symbol[s]`, byacc/lalr.c:57-65 -/
def LR0.acc (a : LR0) (s : Nat) : Nat := (a.states.getD s ⟨0, []⟩).acc
/-- `shift_table[s]`, byacc/lalr.c:67-75; a NULL entry is the empty list -/
def LR0.shiftsOf (a : LR0) (s : Nat) : List Nat := a.shifts.getD s []
/-- `reduction_table[s]`, byacc/lalr.c:77-85; a NULL entry is the empty list -/
def LR0.redsOf (a : LR0) (s : Nat) : List Nat := a.reds.getD s []
/-- `nstates` -/
def LR0.nstates (a : LR0) : Nat := a.states.length

/-! ### set_goto_map -/

/-- The (state1, state2) pairs visited by the double loop at byacc/lalr.c:170-185 and again at
203-219: for each state with shifts, from the last shift down to the first one whose accessing
symbol is a token. -/
def gotoPairs (g : Gram) (a : LR0) : List (Nat × Nat) :=
  (List.range a.nstates).flatMap fun s =>
    ((a.shiftsOf s).reverse.takeWhile (fun t => !g.isTok (a.acc t : Int))).map fun t => (s, t)

/-- byacc/lalr.c:170-185: `goto_map[symbol]++`; index 0 is symbol `ntokens`. -/
def gotoCounts (g : Gram) (a : LR0) : List Nat :=
  (gotoPairs g a).foldl (fun cnt p =>
    let v := a.acc p.2 - g.ntokens
    cnt.set v (cnt.getD v 0 + 1)) (List.replicate (g.nvars + 1) 0)

/-- byacc/lalr.c:187-192: running sums. Result: `temp_map` and `k`. -/
def prefixSums (g : Gram) (cnt : List Nat) : List Nat × Nat :=
  loop g.nvars (fun st i => (st.1.set i st.2, st.2 + cnt.getD i 0)) (List.replicate (g.nvars + 1) 0, 0)

/-- The goto map: `goto_map` (index 0 is symbol `ntokens`), `from_state`, `to_state`. -/
structure GotoMap where
  map : List Nat
  from_ : List Nat
  to_ : List Nat
deriving DecidableEq, Repr

/-- `ngotos` -/
def GotoMap.ngotos (m : GotoMap) : Nat := m.from_.length

/-- byacc/lalr.c:203-219: filling `from_state` and `to_state`.
State: `temp_map`, `from_state`, `to_state`. -/
def fillGotos (g : Gram) (a : LR0) (temp : List Nat) (n : Nat) : List Nat × List Nat × List Nat :=
  (gotoPairs g a).foldl (fun st p =>
    let v := a.acc p.2 - g.ntokens
    let k := st.1.getD v 0
    (st.1.set v (k + 1), st.2.1.set k p.1, st.2.2.set k p.2))
    (temp, List.replicate n 0, List.replicate n 0)

/-- byacc/lalr.c:152-222 `set_goto_map`.  (The limit `MAXYYINT` is not modelled.) -/
def setGotoMap (g : Gram) (a : LR0) : GotoMap :=
  let ngotos := (gotoPairs g a).length
  let temp := (prefixSums g (gotoCounts g a)).1
  let gmap := temp.set g.nvars ngotos
  let f := fillGotos g a gmap ngotos
  ⟨gmap, f.2.1, f.2.2⟩

/-! ### map_goto -/

/-- Outcome of `map_goto`. -/
inductive MapRes
  | found (i : Nat)
  | assertFail
  | outOfBounds
  | running
deriving DecidableEq, Repr

/-- byacc/lalr.c:232-246: the binary search.  `high` is initially one past the last index of
the symbol's range. -/
def mapGotoLoop (from_ : List Nat) (state : Nat) : Nat → Int → Int → MapRes
  | 0, _, _ => .running
  | fuel+1, low, high =>
    if ¬ low ≤ high then .assertFail
    else
      let middle := (low + high) / 2
      if middle < 0 then .outOfBounds
      else match from_[middle.toNat]? with
        | none => .outOfBounds
        | some s =>
          if s = state then .found middle.toNat
          else if s < state then mapGotoLoop from_ state fuel (middle + 1) high
          else mapGotoLoop from_ state fuel low (middle - 1)

/-- byacc/lalr.c:226-247 `map_goto`.  The loop needs at most `high - low + 2` rounds
(proved in C05). -/
def mapGoto (g : Gram) (m : GotoMap) (state symbol : Nat) : MapRes :=
  let low := m.map.getD (symbol - g.ntokens) 0
  let high := m.map.getD (symbol + 1 - g.ntokens) 0
  mapGotoLoop m.from_ state (high - low + 2) low high

/-- the returned index, if any -/
def MapRes.toOption : MapRes → Option Nat
  | .found i => some i
  | _ => none

/-! ### digraph -/

/-- State of the traversal: `INDEX`, the stack `VERTICES[1..top]` (top first) and `F`. -/
structure DS where
  idx : List Nat
  stk : List Nat
  F : List (List Word)

/-- byacc/lalr.c:599-612: pop the component of `i`, `inf` is `infinity`. -/
def popLoop (i inf : Nat) : List Nat → List Nat → List (List Word) → DS
  | [], idx, F => ⟨idx, [], F⟩
  | j :: rest, idx, F =>
    let idx := idx.set j inf
    if i = j then ⟨idx, rest, F⟩
    else popLoop i inf rest idx (F.set j (row F i))

/-- byacc/lalr.c:581-594: loop over the successors `j` of `i`. -/
def travLoop (trav : Nat → DS → Option DS) (i : Nat) : List Nat → DS → Option DS
  | [], st => some st
  | j :: js, st =>
    match (if st.idx.getD j 0 = 0 then trav j st else some st) with
    | none => none
    | some st1 =>
      travLoop trav i js
        { st1 with
          idx := if st1.idx.getD i 0 > st1.idx.getD j 0 then st1.idx.set i (st1.idx.getD j 0) else st1.idx
          F := st1.F.set i (orRow (row st1.F i) (row st1.F j)) }

/-- byacc/lalr.c:560-614 `traverse`.  `R[i]` NULL is the empty list.  `none`: recursion deeper
than `fuel`. -/
def traverse (R : List (List Nat)) (inf : Nat) : Nat → Nat → DS → Option DS
  | 0, _, _ => none
  | fuel+1, i, st =>
    let height := st.stk.length + 1
    match travLoop (traverse R inf fuel) i (R.getD i []) ⟨st.idx.set i height, i :: st.stk, st.F⟩ with
    | none => none
    | some st2 =>
      some (if st2.idx.getD i 0 = height then popLoop i inf st2.stk st2.idx st2.F else st2)

/-- byacc/lalr.c:550-554: main loop of `digraph` from node `i` on. -/
def digraphLoop (R : List (List Nat)) (inf fuel : Nat) : List Nat → DS → Option DS
  | [], st => some st
  | i :: is, st =>
    if st.idx.getD i 0 = 0 && (R.getD i []) != [] then
      match traverse R inf fuel i st with
      | none => none
      | some st' => digraphLoop R inf fuel is st'
    else digraphLoop R inf fuel is st

/-- byacc/lalr.c:535-558 `digraph` on `n` nodes -/
def digraph (n : Nat) (R : List (List Nat)) (F : List (List Word)) : Option (List (List Word)) :=
  (digraphLoop R (n + 2) (n + 1) (List.range n) ⟨List.replicate (n + 1) 0, [], F⟩).map DS.F

/-! ### initialize_F -/

/-- byacc/lalr.c:274-307 for one goto with target `stateno`: the row of directly read tokens
and the `reads` edges. `none`: `map_goto` failed. -/
def initRow (g : Gram) (a : LR0) (m : GotoMap) (nullable : List Bool) (stateno : Nat) :
    List Word × Option (List Nat) :=
  let syms := (a.shiftsOf stateno).map a.acc
  let toks := syms.takeWhile (fun X : Nat => !g.isVar (X : Int))
  let rest := syms.dropWhile (fun X : Nat => !g.isVar (X : Int))
  (toks.foldl SETBIT (zeroRow (wordsize g.ntokens)),
   (rest.filter (fun X => nul nullable X)).mapM fun X => (mapGoto g m stateno X).toOption)

/-- byacc/lalr.c:249-312: initial `F` (with the `$end` bit of goto 0) and `reads`. -/
def initF (g : Gram) (a : LR0) (m : GotoMap) (nullable : List Bool) :
    Option (List (List Word) × List (List Nat)) :=
  let rows := m.to_.map (initRow g a m nullable)
  match rows.mapM (fun r => r.2) with
  | none => none
  | some reads =>
    let F := rows.map (fun r => r.1)
    some (F.set 0 (SETBIT (row F 0) 0), reads)

/-! ### build_relations -/

/-- byacc/lalr.c:87-113 `set_maxrhs`. State: `length`, `max`. -/
def setMaxrhs (g : Gram) : Nat :=
  (g.ritem.foldl (fun (st : Nat × Nat) (x : Int) =>
    if x ≥ 0 then (st.1 + 1, st.2) else (0, if st.1 > st.2 then st.1 else st.2)) (0, 0)).2

/-- byacc/lalr.c:365-370: `stateno` after the search for `symbol2` in the shifts: the matching
state, or the last one tried if there is none.  (With a NULL `sp` the code would crash; the
model leaves `stateno` unchanged.  C08 shows that a matching state is always found.) -/
def findShift (a : LR0) (stateno symbol2 : Nat) : Nat :=
  (((a.shiftsOf stateno).find? (fun t => a.acc t == symbol2)).getD
    ((a.shiftsOf stateno).getLast?.getD stateno))

/-- byacc/lalr.c:359-373: states passed while following the right side at `ritem[rp]..`; the
list is the rest of `ritem`.  Result: `states[1..]` -/
def walkRhs (a : LR0) : List Int → Nat → List Nat
  | [], _ => []
  | x :: rest, stateno =>
    if x ≥ 0 then
      let s := findShift a stateno x.toNat
      s :: walkRhs a rest s
    else []

/-- byacc/lalr.c:379-390: the `includes` edges of one rule.  `rp` is the pointer before
`rp--`, `length` as in the code.  `none`: `map_goto` failed or `states[-1]` read. -/
def backEdges (g : Gram) (m : GotoMap) (nullable : List Bool) (states : List Nat) :
    Nat → Nat → Option (List Nat)
  | length, rp =>
    let x := g.item (rp - 1)
    if g.isVar x then
      match length with
      | 0 => none
      | len+1 =>
        match (mapGoto g m (states.getD len 0) x.toNat).toOption with
        | none => none
        | some e =>
          if nul nullable x.toNat && decide (len > 0) then
            (backEdges g m nullable states len (rp - 1)).map (e :: ·)
          else some [e]
    else some []

/-- byacc/lalr.c:121-131 `lookaheads[]` -/
def lookaheadsOf (a : LR0) : List Nat :=
  ((List.range a.nstates).foldl (fun (st : List Nat × Nat) i => (st.1 ++ [st.2], st.2 + (a.redsOf i).length)) ([], 0)
    |> fun st => st.1 ++ [st.2])

/-- byacc/lalr.c:137-149 `LAruleno[]` -/
def laRuleno (a : LR0) : List Nat := (List.range a.nstates).flatMap a.redsOf

/-- byacc/lalr.c:423-433: search of the slot of `(stateno, ruleno)`; `none`: the assertion
fails. -/
def findLA (la ruleno : List Nat) (stateno rule : Nat) : Option Nat :=
  let i := la.getD stateno 0
  let k := la.getD (stateno + 1) 0
  ((List.range' i (k - i)).find? fun i => ruleno.getD i 0 == rule)

/-- Work for one rule of one goto (byacc/lalr.c:355-390).
State: lookback lists and the edges of the goto so far. -/
def relRule (g : Gram) (a : LR0) (m : GotoMap) (nullable : List Bool) (la ruleno : List Nat)
    (i : Nat) (st : List (List Nat) × List Nat) (rule : Nat) : Option (List (List Nat) × List Nat) :=
  let state1 := m.from_.getD i 0
  let walk := walkRhs a (g.ritem.drop (g.rhs rule)) state1
  let states := state1 :: walk
  let stateno := states.getLast?.getD 0
  match findLA la ruleno stateno rule with
  | none => none
  | some k =>
    match backEdges g m nullable states walk.length (g.rhs rule + walk.length) with
    | none => none
    | some es => some (st.1.set k (i :: st.1.getD k []), st.2 ++ es)

/-- byacc/lalr.c:347-400 for goto `i` -/
def relGoto (g : Gram) (a : LR0) (m : GotoMap) (nullable : List Bool) (la ruleno : List Nat)
    (st : List (List Nat) × List (List Nat)) (i : Nat) : Option (List (List Nat) × List (List Nat)) :=
  match (derives g (a.acc (m.to_.getD i 0))).foldlM (relRule g a m nullable la ruleno i) (st.1, []) with
  | none => none
  | some (lookback, edges) => some (lookback, st.2 ++ [edges])

/-- byacc/lalr.c:347-400: `lookback` and (not yet transposed) `includes`.
Simplification: the buffer `edge` of `ngotos + 1` entries is a list; that it can be too small
is property C55. -/
def relations (g : Gram) (a : LR0) (m : GotoMap) (nullable : List Bool) :
    Option (List (List Nat) × List (List Nat)) :=
  let la := lookaheadsOf a
  let ruleno := laRuleno a
  (List.range m.ngotos).foldlM (relGoto g a m nullable la ruleno)
    (List.replicate ruleno.length [], [])

/-! ### transpose -/

/-- byacc/lalr.c:450-460 -/
def transposeCounts (n : Nat) (R : List (List Nat)) : List Nat :=
  loop n (fun cnt i => (R.getD i []).foldl (fun cnt j => cnt.set j (cnt.getD j 0 + 1)) cnt)
    (List.replicate n 0)

/-- byacc/lalr.c:480-488: each target list grows by one entry per edge (`*temp_R[j]++ = i`).
The space allocated for target `j` is `transposeCounts[j]` entries. -/
def transpose (n : Nat) (R : List (List Nat)) : List (List Nat) :=
  loop n (fun T i => (R.getD i []).foldl (fun T j => T.set j (T.getD j [] ++ [i])) T)
    (List.replicate n [])

/-! ### the whole -/

/-- byacc/lalr.c:509-522 `compute_lookaheads` for one slot -/
def laRow (g : Gram) (F : List (List Word)) (lookback : List Nat) : List Word :=
  lookback.foldl (fun r i => orRow r (row F i)) (zeroRow (wordsize g.ntokens))

/-- `lookaheads`, `LAruleno`, `LA` -/
structure LalrOut where
  lookaheads : List Nat
  ruleno : List Nat
  LA : List (List Word)
deriving DecidableEq, Repr

/-- byacc/lalr.c:29-45 `lalr` -/
def lalr (g : Gram) (a : LR0) (nullable : List Bool) : Option LalrOut :=
  let m := setGotoMap g a
  match initF g a m nullable with
  | none => none
  | some (F0, reads) =>
    match digraph m.ngotos reads F0 with
    | none => none
    | some F1 =>
      match relations g a m nullable with
      | none => none
      | some (lookback, incl) =>
        match digraph m.ngotos (transpose m.ngotos incl) F1 with
        | none => none
        | some F2 => some ⟨lookaheadsOf a, laRuleno a, lookback.map (laRow g F2)⟩

end Verif.Byacc
