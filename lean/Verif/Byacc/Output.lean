import Verif.Byacc.Main
/-
byacc/output.c: action vectors, goto columns, and packing them into `yytable`/`yycheck`.

Not modelled: the text layout of the tables.  Backtracking (`conflicts`, `yyctable`) is in `Verif.Byacc.Backtrack`.
-/
set_option autoImplicit false
namespace Verif.Byacc

/-- Outcome of a pass that can stop the program or leave its arrays. -/
inductive Out (α : Type) where
  | ok (a : α)
  /-- a read or write outside an allocated array -/
  | outOfBounds
  /-- `fatal(...)` or `done(S, 1)` -/
  | fatal
  /-- a failed `assert` -/
  | assertFail
  /-- the loop has not ended yet -/
  | running
deriving DecidableEq, Repr

/-- sequencing -/
def Out.bind {α β : Type} (x : Out α) (f : α → Out β) : Out β :=
  match x with
  | .ok a => f a
  | .outOfBounds => .outOfBounds
  | .fatal => .fatal
  | .assertFail => .assertFail
  | .running => .running

/-- One vector: `tally[i]`, `width[i]` and the pairs (`froms[i][k]`, `tos[i][k]`). -/
structure Vec where
  tally : Nat := 0
  width : Int := 0
  ents : List (Int × Nat) := []
deriving DecidableEq, Repr

/-- byacc/defs.h:56 `MAXTABLE`, 64 `MAXYYINT`: both `INT_MAX` -/
def INT_MAX : Int := 2147483647

/-! ### token_actions -/

/-- byacc/output.c:446-483 (without backtracking): `actionrow` (shifts in the first `ntokens`
cells, reductions in the next `ntokens`), `shiftcount`, `reducecount`. -/
structure RowAcc where
  row : List Nat
  shiftcount : Nat
  reducecount : Nat
deriving DecidableEq, Repr

/-- byacc/output.c:446-483 for the list of one state, `defred` being `defred[i]` -/
def actionRow (ntokens defred : Nat) (acts : List Action) : RowAcc :=
  acts.foldl (fun r p =>
    if p.suppressed = 0 then
      if p.code = .SHIFT then
        { r with shiftcount := r.shiftcount + 1, row := r.row.set p.symbol p.number }
      else if p.number ≠ defred then
        { r with reducecount := r.reducecount + 1, row := r.row.set (p.symbol + ntokens) p.number }
      else r
    else r) ⟨List.replicate (2 * ntokens) 0, 0, 0⟩

/-- byacc/output.c:529-547 and 548-566: one vector of the row; `off` is the first cell, `sub` is
subtracted from each entry. -/
def rowVec (ntokens : Nat) (sv : List Int) (row : List Nat) (count off sub : Nat) : Vec :=
  if count > 0 then
    let js := (List.range ntokens).filter (fun j => row.getD (off + j) 0 != 0)
    let vals := js.map (fun j => sv.getD j 0)
    { tally := count
      width := vals.foldl (fun m v => if m < v then v else m) 0
        - vals.foldl (fun m v => if m > v then v else m) INT_MAX + 1
      ents := js.map (fun j => (sv.getD j 0, row.getD (off + j) 0 - sub)) }
  else {}

/-- byacc/output.c:415-604 `token_actions`: vectors `i` (shifts) and `nstates + i` (reductions).
A state without actions leaves both empty. -/
def tokenActions (ntokens nstates : Nat) (sv : List Int) (rows : List (List Action)) (defred : List Nat)
    (vs : List Vec) : List Vec :=
  loop nstates (fun vs i =>
    match rows.getD i [] with
    | [] => vs
    | acts =>
      let r := actionRow ntokens (defred.getD i 0) acts
      (vs.set i (rowVec ntokens sv r.row r.shiftcount 0 0)).set (nstates + i)
        (rowVec ntokens sv r.row r.reducecount ntokens 2)) vs

/-! ### goto_actions -/

/-- The transitions `i = m .. n-1` of the goto map for `symbol`, as (`from_state[i]`, `to_state[i]`) -/
def columnOf (g : Gram) (m : GotoMap) (symbol : Nat) : List (Nat × Nat) :=
  let lo := m.map.getD (symbol - g.ntokens) 0
  let hi := m.map.getD (symbol + 1 - g.ntokens) 0
  (List.range' lo (hi - lo)).map fun i => (m.from_.getD i 0, m.to_.getD i 0)

/-- byacc/output.c:606-639 `default_goto` -/
def defaultGoto (nstates : Nat) (col : List (Nat × Nat)) : Nat :=
  if col = [] then 0
  else
    let count := col.foldl (fun c p => c.set p.2 (c.getD p.2 0 + 1)) (List.replicate nstates 0)
    (loop nstates (fun st i => if count.getD i 0 > st.1 then (count.getD i 0, i) else st) (0, 0)).2

/-- byacc/output.c:641-681 `save_column`: the vector of the column; empty when every transition
goes to the default. -/
def saveColumn (col : List (Nat × Nat)) (dflt : Nat) : Vec :=
  let es := col.filter (fun p => p.2 != dflt)
  if es.length = 0 then {}
  else
    { tally := es.length
      width := ((es.getLast?.map Prod.fst).getD 0 : Int) - ((es.head?.map Prod.fst).getD 0 : Int) + 1
      ents := es.map (fun p => ((p.1 : Int), p.2)) }

/-- byacc/output.c:683-712 `goto_actions`: `yydgoto` and the columns, stored at
`symbol_value[symbol] + PER_STATE * nstates`. -/
def gotoActions (per : Nat) (g : Gram) (nstates : Nat) (m : GotoMap) (sv : List Int) (vs : List Vec) :
    List Nat × List Vec :=
  (List.range' (g.ntokens + 1) (g.nsyms - (g.ntokens + 1))).foldl (fun st symbol =>
    let k := defaultGoto nstates (columnOf g m symbol)
    let v := saveColumn (columnOf g m symbol) k
    (st.1 ++ [k],
      if v.tally = 0 then st.2
      else st.2.set (sv.getD symbol 0 + (per * nstates : Nat)).toNat v)) ([], vs)

/-! ### sort_actions -/

/-- byacc/output.c:729-744: insertion of vector `i` into `order`.  The two `while` loops run down
from the end. -/
def insertOrder (vs : List Vec) (order : List Nat) (i : Nat) : List Nat :=
  let v := vs.getD i {}
  let r1 := order.reverse.dropWhile (fun o => decide ((vs.getD o {}).width < v.width))
  let r2 := r1.dropWhile (fun o => decide ((vs.getD o {}).width = v.width ∧ (vs.getD o {}).tally < v.tally))
  order.take r2.length ++ i :: order.drop r2.length

/-- byacc/output.c:714-747 `sort_actions` -/
def sortActions (vs : List Vec) : List Nat :=
  loop vs.length (fun order i => if (vs.getD i {}).tally > 0 then insertOrder vs order i else order) []

/-! ### pack_table -/

/-- byacc/output.c:787-807: the loop of `matching_vector` over the earlier vectors, latest first -/
def matchLoop (vs : List Vec) (v : Vec) : List Nat → Option Nat
  | [] => none
  | j :: rest =>
    let u := vs.getD j {}
    if u.width ≠ v.width ∨ u.tally ≠ v.tally then none
    else if u.ents.take v.tally = v.ents.take v.tally then some j
    else matchLoop vs v rest

/-- byacc/output.c:770-810 `matching_vector` for vector `i`, with the earlier ones in `prev`
(in order).  `none`: -1. -/
def matchingVector (nstates : Nat) (vs : List Vec) (prev : List Nat) (i : Nat) : Option Nat :=
  if i ≥ 2 * nstates then none else matchLoop vs (vs.getD i {}) prev.reverse

/-- The packing variables.  The allocated sizes are the lengths of `table` and `check`. -/
structure Pack where
  table : List Nat
  check : List Int
  maxtable : Nat
  lowzero : Nat
  high : Nat
  pos : List Int
  base : List Int
deriving DecidableEq, Repr

/-- byacc/output.c:846-850: `do newmax += 200; while (newmax <= loc);` `fuel = loc + 1` rounds are
enough (proved in C16). -/
def growLoop (loc : Int) : Nat → Nat → Nat
  | 0, m => m
  | fuel+1, m => if (m : Int) + 200 ≤ loc then growLoop loc fuel (m + 200) else m + 200

/-- byacc/output.c:840-866: make room for index `loc` -/
def ensure (p : Pack) (loc : Int) : Out Pack :=
  if loc ≥ (p.maxtable : Int) - 1 then
    if loc ≥ INT_MAX - 1 then .fatal
    else
      let newmax := growLoop loc (loc.toNat + 1) p.maxtable
      .ok { p with
        table := p.table.take newmax ++ List.replicate (newmax - p.table.length) 0
        check := p.check.take newmax ++ List.replicate (newmax - p.check.length) (-1)
        maxtable := newmax }
  else .ok p

/-- `check[loc]` -/
def readCheck (p : Pack) (loc : Int) : Out Int :=
  if loc < 0 then .outOfBounds
  else match p.check[loc.toNat]? with
    | some c => .ok c
    | none => .outOfBounds

/-- byacc/output.c:837-870: are all cells for base `j` free? (The second component is `ok`.) -/
def tryBase (j : Int) : List (Int × Nat) → Pack → Out (Pack × Bool)
  | [], p => .ok (p, true)
  | e :: es, p =>
    (ensure p (j + e.1)).bind fun p =>
    (readCheck p (j + e.1)).bind fun c =>
      if c ≠ -1 then .ok (p, false) else tryBase j es p

/-- byacc/output.c:878-885: `table[loc] = to[k]; check[loc] = from[k]; high = max` -/
def writeEnts (j : Int) : List (Int × Nat) → Pack → Out Pack
  | [], p => .ok p
  | e :: es, p =>
    let loc := j + e.1
    if loc < 0 ∨ (p.table.length : Int) ≤ loc ∨ (p.check.length : Int) ≤ loc then .outOfBounds
    else writeEnts j es { p with
      table := p.table.set loc.toNat e.2
      check := p.check.set loc.toNat e.1
      high := if loc > (p.high : Int) then loc.toNat else p.high }

/-- byacc/output.c:887-888: `while (check[lowzero] != -1) ++lowzero;`  Argument: fuel. -/
def scanLow : Nat → Pack → Out Pack
  | 0, _ => .running
  | fuel+1, p =>
    match p.check[p.lowzero]? with
    | none => .outOfBounds
    | some c => if c ≠ -1 then scanLow fuel { p with lowzero := p.lowzero + 1 } else .ok p

/-- byacc/output.c:831-892: the search for a base, from `j` up.  Result: the base. -/
def searchBase (ents : List (Int × Nat)) : Nat → Int → Pack → Out (Pack × Int)
  | 0, _, _ => .running
  | fuel+1, j, p =>
    if j = 0 then searchBase ents fuel (j + 1) p
    else
      (tryBase j ents p).bind fun r =>
        if r.2 && !r.1.pos.contains j then
          (writeEnts j ents r.1).bind fun p =>
          (scanLow (p.check.length + 1) p).bind fun p => .ok (p, j)
        else searchBase ents fuel (j + 1) r.1

/-- byacc/output.c:827-830: the first candidate -/
def firstBase (lowzero : Nat) : List (Int × Nat) → Int
  | [] => 0
  | e :: es => es.foldl (fun j e => if (lowzero : Int) - e.1 > j then (lowzero : Int) - e.1 else j)
      ((lowzero : Int) - e.1)

/-- rounds of the search that are enough (proved in C16) -/
def searchFuel (p : Pack) (j : Int) : Nat :=
  j.natAbs + p.high + (p.pos.map Int.natAbs).sum + p.check.length + 4

/-- byacc/output.c:812-893 `pack_vector` -/
def packVector (v : Vec) (p : Pack) : Out (Pack × Int) :=
  if v.tally = 0 then .assertFail
  else
    let es := v.ents.take v.tally
    let j := firstBase p.lowzero es
    searchBase es (searchFuel p j) j p

/-- byacc/output.c:913-924: one round of the loop of `pack_table`; the vectors already placed are
`prev`. -/
def packOne (nstates : Nat) (vs : List Vec) (prev : List Nat) (i : Nat) (p : Pack) : Out Pack :=
  match matchingVector nstates vs prev i with
  | some state =>
    let place := p.base.getD state 0
    .ok { p with pos := p.pos ++ [place], base := p.base.set i place }
  | none =>
    (packVector (vs.getD i {}) p).bind fun r =>
      .ok { r.1 with pos := r.1.pos ++ [r.2], base := r.1.base.set i r.2 }

/-- the loop of `pack_table` over the rest of `order` -/
def packLoop (nstates : Nat) (vs : List Vec) : List Nat → List Nat → Pack → Out Pack
  | _, [], p => .ok p
  | prev, i :: rest, p => (packOne nstates vs prev i p).bind (packLoop nstates vs (prev ++ [i]) rest)

/-- byacc/output.c:900-912: the variables before the loop -/
def packInit (nvectors : Nat) : Pack :=
  { table := List.replicate 1000 0, check := List.replicate 1000 (-1), maxtable := 1000,
    lowzero := 0, high := 0, pos := [], base := List.replicate nvectors 0 }

/-- byacc/output.c:895-940 `pack_table` -/
def packTable (nstates : Nat) (vs : List Vec) (order : List Nat) : Out Pack :=
  packLoop nstates vs [] order (packInit vs.length)

/-! ### the emitted tables -/

/-- The arrays of the generated parser. -/
structure Tables where
  lhs : List Int
  len : List Int
  defred : List Nat
  dgoto : List Nat
  sindex : List Int
  rindex : List Int
  gindex : List Int
  table : List Nat
  check : List Int
  /-- `YYTABLESIZE` -/
  size : Nat
  /-- `YYFINAL` -/
  final : Nat
  /-- `YYERRCODE` -/
  errcode : Int
deriving DecidableEq, Repr

/-- byacc/output.c:1122-1138: the vectors before packing, and `yydgoto` -/
def vectors (per : Nat) (g : Gram) (sv : List Int) (o : Generated) : List Nat × List Vec :=
  let n := o.aut.nstates
  gotoActions per g n (setGotoMap g o.aut) sv
    (tokenActions g.ntokens n sv o.parser.rows o.parser.defred (List.replicate (per * n + g.nvars) {}))

/-- byacc/output.c:1122-1156 `output_actions`, with `output_rule_data` (284-325), `output_yydefred`
(327-349), `output_base` (942-1023), `output_table` (1025-1058), `output_check` (1060-1082).
`sv` is `symbol_value[]`; `per` is `PER_STATE` (3 or 2, lines 8-12).  `yylhs` and `yylen` start
with rule 2 (index 0 of the emitted arrays). -/
def outputTables (per : Nat) (g : Gram) (sv : List Int) (o : Generated) : Out Tables :=
  let n := o.aut.nstates
  let dv := vectors per g sv o
  (packTable n dv.2 (sortActions dv.2)).bind fun p =>
    if (p.high : Int) ≥ INT_MAX then .fatal
    else .ok
      { lhs := sv.getD g.ntokens 0 ::
          (List.range' 3 (g.nrules - 3)).map (fun i => sv.getD (g.rlhs.getD i 0) 0)
        len := 2 :: (List.range' 3 (g.nrules - 3)).map
          (fun i => (g.rrhs.getD (i + 1) 0 : Int) - (g.rrhs.getD i 0 : Int) - 1)
        defred := (List.range n).map (fun i =>
          if o.parser.defred.getD i 0 ≠ 0 then o.parser.defred.getD i 0 - 2 else 0)
        dgoto := dv.1
        sindex := p.base.take n
        rindex := (p.base.drop n).take n
        gindex := (p.base.drop (per * n)).take (g.nvars - 1)
        table := p.table.take (p.high + 1)
        check := p.check.take (p.high + 1)
        size := p.high
        final := o.parser.final
        errcode := sv.getD 1 0 }

end Verif.Byacc
