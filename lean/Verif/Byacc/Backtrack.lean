import Verif.Byacc.Skel
/-
byacc with backtracking (option -B): the parts of
byacc/mkpar.c and byacc/output.c that behave differently when `S->backtrack` is on
(`YYBTYACC` is defined in byacc/config.h:107).
-/
set_option autoImplicit false
namespace Verif.Byacc

/-! ### mkpar.c -/

/-- byacc/mkpar.c:10 `StartBacktrack(p)`: `if (NotSuppressed(p)) p->suppressed = 1` -/
def Action.startBacktrack (p : Action) : Action := if p.suppressed = 0 then p.supp 1 else p

/-- byacc/mkpar.c:10 applied to `pref` (nothing if it is NULL) -/
def CR.startBacktrack (c : CR) : CR := { c with pref := c.pref.map Action.startBacktrack }

/-- byacc/mkpar.c:229-301 with backtracking: body of the loop for the action `p`.  The same as
`crStep` but for the three calls of `StartBacktrack` (lines 241, 275, 301). -/
def crStepB (lemon fin : Bool) (c : CR) (p : Action) : CR :=
  if (p.symbol : Int) ≠ c.symbol then
    { c with before := c.visited, pref := some p, between := [], symbol := p.symbol }
  else if fin && c.symbol == 0 then
    { c.startBacktrack.keep (p.supp 1) with sr := c.sr + 1 }
  else match c.pref with
    | none => c.keep p
    | some q =>
      if q.code = .SHIFT then
        if q.prec > 0 && p.prec > 0 then
          if q.prec < p.prec then c.replace q p
          else if q.prec > p.prec then c.keep (p.supp 2)
          else if q.assoc = .LEFT then c.replace q p
          else if q.assoc = .RIGHT then c.keep (p.supp 2)
          else { c.keep (p.supp 2) with pref := some (q.supp 2) }
        else { c.startBacktrack.keep (p.supp 1) with sr := c.sr + 1 }
      else
        if lemon && (q.prec > 0 && p.prec > 0) && q.prec < p.prec then c.replace q p
        else if lemon && (q.prec > 0 && p.prec > 0) && q.prec > p.prec then c.keep (p.supp 2)
        else { c.startBacktrack.keep (p.supp 1) with rr := c.rr + 1 }

/-- byacc/mkpar.c:219-302 for one state, with backtracking -/
def crRowB (lemon fin : Bool) (acts : List Action) : CR :=
  acts.foldl (crStepB lemon fin) ⟨[], none, [], -1, 0, 0⟩

/-- `MaySuppress(p)` with backtracking, byacc/mkpar.c:8 -/
def Action.may (p : Action) : Bool := decide (p.suppressed ≤ 1)

/-- byacc/mkpar.c:354-378 `sole_reduction`: the loop, with backtracking -/
def soleLoopB : List Action → Nat → Nat → Nat
  | [], count, ruleno => if count = 0 then 0 else ruleno
  | p :: rest, count, ruleno =>
    if p.code = .SHIFT ∧ p.may then 0
    else if p.code = .REDUCE ∧ p.may then
      if ruleno > 0 ∧ p.number ≠ ruleno then 0
      else soleLoopB rest (if p.symbol ≠ 1 then count + 1 else count) p.number
    else soleLoopB rest count ruleno

/-- byacc/mkpar.c:354-378 `sole_reduction` with backtracking -/
def soleReductionB (acts : List Action) : Nat := soleLoopB acts 0 0

/-- byacc/mkpar.c:181-191: `rules_used` with backtracking -/
def rulesUsedB (nrules : Nat) (parser : List (List Action)) : List Bool :=
  parser.foldl (fun used acts =>
    acts.foldl (fun used p => if p.code = .REDUCE ∧ p.may then used.set p.number true else used) used)
    (List.replicate nrules false)

/-- byacc/mkpar.c:28-43 `make_parser` with backtracking -/
def makeParserB (g : Gram) (sp : SymPrec) (lemon : Bool) (srExpect rrExpect : Int) (a : LR0)
    (lo : LalrOut) : Parser :=
  let parser := (List.range a.nstates).map (parseActions g sp a lo)
  let final := findFinalState g a
  let crs := (List.range a.nstates).map (fun i => crRowB lemon (i == final) (parser.getD i []))
  let rows := crs.map CR.visited
  let SRtotal := crs.foldl (fun n c => n + c.sr) 0
  let RRtotal := crs.foldl (fun n c => n + c.rr) 0
  { rows := rows
    final := final
    SRconflicts := crs.map CR.sr
    RRconflicts := crs.map CR.rr
    SRtotal := SRtotal
    RRtotal := RRtotal
    nunused := nunused g.nrules (rulesUsedB g.nrules rows)
    failed := if SRtotal + RRtotal > 0 then expectFails srExpect rrExpect SRtotal RRtotal else false
    defred := rows.map soleReductionB }

/-- byacc/main.c:965-967 with backtracking (only `make_parser` differs) -/
def generateB (g : Gram) (sp : SymPrec) (lemon : Bool) (srExpect rrExpect : Int) : Option Generated := do
  let a ← generateStates g
  let N ← setNullable g
  let lo ← lalr g a N
  return { aut := a, nullable := N, look := lo, parser := makeParserB g sp lemon srExpect rrExpect a lo }

/-! ### output.c: the array of conflicts -/

/-- The variables of `token_actions` used with backtracking (byacc/output.c:417-421): `conflicts`
up to `nconflicts`; `cbase`; `csym` (`none`: -1); the cells `2 * ntokens ..` of `actionrow`;
`conflictcount`. -/
structure ConfAcc where
  conflicts : List Int
  cbase : Nat
  csym : Option Nat
  row : List Nat
  count : Nat
deriving DecidableEq, Repr

/-- `S->conflicts[S->nconflicts++] = v`; `cap` is the size of the array (byacc/output.c:1132-1133) -/
def ConfAcc.put (cap : Nat) (c : ConfAcc) (v : Int) : Out ConfAcc :=
  if c.conflicts.length < cap then .ok { c with conflicts := c.conflicts ++ [v] } else .outOfBounds

/-- byacc/output.c:395-411 `find_conflict_base`: the first place where the entries from `cbase` on
are found, `cbase` itself if there is none earlier -/
def findConflictBase (conflicts : List Int) (cbase : Nat) : Nat :=
  ((List.range cbase).find? (fun i => (conflicts.drop cbase).isPrefixOf (conflicts.drop i))).getD cbase

/-- byacc/output.c:453-469 and 495-509: the end of the list for `csym`.  Reading
`conflicts[cbase]` is inside the array, as the terminator has just been stored. -/
def ConfAcc.flush (cap : Nat) (c : ConfAcc) (csym : Nat) : Out ConfAcc :=
  (c.put cap (-1)).bind fun c =>
    let j := findConflictBase c.conflicts c.cbase
    let c := { c with count := c.count + 1, row := c.row.set csym (j + 1), csym := none }
    if j = c.cbase then .ok { c with cbase := c.conflicts.length }
    else
      let b := if c.conflicts.getD c.cbase 0 = -1 then c.cbase + 1 else c.cbase
      .ok { c with cbase := b, conflicts := c.conflicts.take b }

/-- byacc/output.c:476-491: an action that takes part in a conflict -/
def ConfAcc.add (cap defred : Nat) (c : ConfAcc) (p : Action) : Out ConfAcc :=
  if p.code = .SHIFT then c.put cap p.number
  else if p.number ≠ defred then
    (if c.cbase = c.conflicts.length then
      if c.cbase ≠ 0 then Out.ok { c with cbase := c.cbase - 1 } else c.put cap (-1)
    else Out.ok c).bind fun c => c.put cap ((p.number : Int) - 2)
  else .ok c

/-- byacc/output.c:451-469: the symbol changes -/
def ConfAcc.change (cap : Nat) (c : ConfAcc) (symbol : Nat) : Out ConfAcc :=
  match c.csym with
  | some s => if s ≠ symbol then c.flush cap s else .ok c
  | none => .ok c

/-- byacc/output.c:451-492: one action of the list.  The cells for shifts and reductions without
conflict, filled in the same loop, are in `actionRow`. -/
def confStep (cap defred : Nat) (c : ConfAcc) (p : Action) : Out ConfAcc :=
  (c.change cap p.symbol).bind fun c =>
    if p.suppressed = 1 then { c with csym := some p.symbol }.add cap defred p else .ok c

/-- byacc/output.c:449-492: the loop over the list of a state -/
def confLoop (cap defred : Nat) : ConfAcc → List Action → Out ConfAcc
  | c, [] => .ok c
  | c, p :: rest => (confStep cap defred c p).bind fun c => confLoop cap defred c rest

/-- byacc/output.c:438-509 for one state, `conflicts` being what the earlier states left -/
def confRow (cap ntokens defred : Nat) (conflicts : List Int) (acts : List Action) : Out ConfAcc :=
  (confLoop cap defred ⟨conflicts, conflicts.length, none, List.replicate ntokens 0, 0⟩ acts).bind fun c =>
    match c.csym with
    | some s => c.flush cap s
    | none => .ok c

/-- byacc/output.c:432-602 `token_actions`: the vectors `2 * nstates + i` (568-588) and the array of
conflicts; the argument lists the states to go -/
def confActions (cap ntokens nstates : Nat) (sv : List Int) (rows : List (List Action)) (defred : List Nat) :
    List Nat → List Int × List Vec → Out (List Int × List Vec)
  | [], st => .ok st
  | i :: rest, st =>
    match rows.getD i [] with
    | [] => confActions cap ntokens nstates sv rows defred rest st
    | acts =>
      (confRow cap ntokens (defred.getD i 0) st.1 acts).bind fun c =>
        confActions cap ntokens nstates sv rows defred rest
          (c.conflicts, st.2.set (2 * nstates + i) (rowVec ntokens sv c.row c.count 0 1))

/-- The arrays of a backtracking parser. -/
structure BTables extends Tables where
  cindex : List Int
  ctable : List Int
deriving DecidableEq, Repr

/-- byacc/output.c:1131-1135: the vectors of `token_actions`, and `conflicts` -/
def tokenActionsB (g : Gram) (sv : List Int) (o : Generated) : Out (List Int × List Vec) :=
  let n := o.aut.nstates
  confActions (4 * (o.parser.SRtotal + o.parser.RRtotal)) g.ntokens n sv o.parser.rows o.parser.defred (List.range n)
    ([], tokenActions g.ntokens n sv o.parser.rows o.parser.defred (List.replicate (3 * n + g.nvars) {}))

/-- byacc/output.c:1085-1113 `output_ctable`: `conflicts`, filled up with -1 to at least `high`
entries.  (The first entry is -1 without conflicts.  If `conflicts` were allocated but empty, its
first cell, which `NEW2` cleared, would be printed; this does not happen, see C83.) -/
def outputCtable (conflicts : List Int) (high : Nat) : List Int :=
  (if conflicts = [] then [-1] else conflicts) ++
    List.replicate (high - (if conflicts = [] then 1 else conflicts.length)) (-1)

/-- byacc/output.c:1122-1156 `output_actions` with backtracking (`PER_STATE` is 3) -/
def outputTablesB (g : Gram) (sv : List Int) (o : Generated) : Out BTables :=
  let n := o.aut.nstates
  (tokenActionsB g sv o).bind fun ta =>
  let dv := gotoActions 3 g n (setGotoMap g o.aut) sv ta.2
  (packTable n dv.2 (sortActions dv.2)).bind fun p =>
    if (p.high : Int) ≥ INT_MAX then .fatal
    else .ok
      { lhs := sv.getD g.ntokens 0 ::
          (List.range' 3 (g.nrules - 3)).map (fun i => sv.getD (g.rlhs.getD i 0) 0)
        len := 2 :: (List.range' 3 (g.nrules - 3)).map
          (fun i => (g.rrhs.getD (i + 1) 0 : Int) - (g.rrhs.getD i 0 : Int) - 1)
        defred := (List.range n).map (fun i =>
          if o.parser.defred.getD i 0 ≠ 0 then o.parser.defred.getD i 0 - 2 else 0)
        dgoto := dv.1
        sindex := p.base.take n
        rindex := (p.base.drop n).take n
        gindex := (p.base.drop (3 * n)).take (g.nvars - 1)
        table := p.table.take (p.high + 1)
        check := p.check.take (p.high + 1)
        size := p.high
        final := o.parser.final
        errcode := sv.getD 1 0
        cindex := (p.base.drop (2 * n)).take n
        ctable := outputCtable ta.1 p.high }

/-- byacc/btyaccpar.skel:505-507: is there a conflict on `yychar` in state `s`?  Then the place of
its list in `yyctable`. -/
def BTables.conflictOn (t : BTables) (s : Nat) (yychar : Int) : Option Nat :=
  t.toTables.probe (t.cindex.getD s 0) yychar

end Verif.Byacc
