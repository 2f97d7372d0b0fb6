import Verif.Byacc.Lalr
/-
byacc/mkpar.c: action rows, conflict resolution, default reductions.
-/
set_option autoImplicit false
namespace Verif.Byacc

/-- byacc/defs.h:184-185 -/
inductive ACode
  | SHIFT | REDUCE
deriving DecidableEq, Repr

/-- `struct action`, byacc/defs.h:300-309; `next` is the rest of the list.  `allocate` clears
memory, so `suppressed` starts as 0. -/
structure Action where
  symbol : Nat
  number : Nat
  prec : Int
  code : ACode
  assoc : Assoc
  suppressed : Nat := 0
deriving DecidableEq, Repr

/-- `symbol_prec[]` and `symbol_assoc[]` (set by `pack_symbols`, byacc/reader.c:3896-3913) -/
structure SymPrec where
  prec : List Int
  assoc : List Assoc
deriving DecidableEq, Repr

/-- `rprec[i]` -/
def Gram.rprecOf (g : Gram) (i : Nat) : Int := g.rprec.getD i 0
/-- `rassoc[i]` -/
def Gram.rassocOf (g : Gram) (i : Nat) : Assoc := g.rassoc.getD i .TOKEN

/-- byacc/mkpar.c:73-82: the action for a shift to `k` -/
def shiftAction (sp : SymPrec) (a : LR0) (k : Nat) : Action :=
  { symbol := a.acc k, number := k, prec := sp.prec.getD (a.acc k) 0, code := .SHIFT,
    assoc := sp.assoc.getD (a.acc k) .TOKEN }

/-- byacc/mkpar.c:56-88 `get_shifts` -/
def getShifts (g : Gram) (sp : SymPrec) (a : LR0) (stateno : Nat) : List Action :=
  (a.shiftsOf stateno).reverse.foldl (fun actions k =>
    if g.isTok (a.acc k : Int) then shiftAction sp a k :: actions else actions) []

/-- byacc/mkpar.c:137-142: the action for a reduction -/
def reduceAction (g : Gram) (ruleno symbol : Nat) : Action :=
  { symbol := symbol, number := ruleno, prec := g.rprecOf ruleno, code := .REDUCE,
    assoc := g.rassocOf ruleno }

/-- byacc/mkpar.c:114-151 `add_reduce`: the three loops advance `prev`/`next`, then the new
action is linked in. -/
def addReduce (g : Gram) (actions : List Action) (ruleno symbol : Nat) : List Action :=
  let p1 := fun x : Action => decide (x.symbol < symbol)
  let p2 := fun x : Action => decide (x.symbol = symbol ∧ x.code = .SHIFT)
  let p3 := fun x : Action => decide (x.symbol = symbol ∧ x.code = .REDUCE ∧ x.number < ruleno)
  let r1 := actions.dropWhile p1
  let r2 := r1.dropWhile p2
  let r3 := r2.dropWhile p3
  actions.takeWhile p1 ++ (r1.takeWhile p2 ++ (r2.takeWhile p3 ++ reduceAction g ruleno symbol :: r3))

/-- byacc/mkpar.c:104-108: all lookaheads of one reduction, from the last token down -/
def addRow (g : Gram) (rowp : List Word) (ruleno : Nat) (actions : List Action) : List Action :=
  (List.range g.ntokens).reverse.foldl (fun actions j =>
    if BIT rowp j then addReduce g actions ruleno j else actions) actions

/-- byacc/mkpar.c:91-111 `add_reductions` -/
def addReductions (g : Gram) (lo : LalrOut) (stateno : Nat) (actions : List Action) : List Action :=
  let m := lo.lookaheads.getD stateno 0
  let n := lo.lookaheads.getD (stateno + 1) 0
  (List.range' m (n - m)).foldl (fun actions i =>
    addRow g (row lo.LA i) (lo.ruleno.getD i 0) actions) actions

/-- byacc/mkpar.c:45-53 `parse_actions` -/
def parseActions (g : Gram) (sp : SymPrec) (a : LR0) (lo : LalrOut) (stateno : Nat) : List Action :=
  addReductions g lo stateno (getShifts g sp a stateno)

/-- byacc/mkpar.c:154-172 `find_final_state`: the loop runs from the last shift of state 0
down and stops at the one on the goal symbol (`ritem[1]`).  Without shifts `final_state`
keeps its initial value 0. -/
def findFinalState (g : Gram) (a : LR0) : Nat :=
  (((a.shiftsOf 0).reverse.find? (fun t => (a.acc t : Int) == g.item 1)).getD
    ((a.shiftsOf 0).head?.getD 0))

/-! ### remove_conflicts -/

/-- State of the loop at byacc/mkpar.c:227-302 over one action list.  The list cells already
visited are `before ++ pref ++ between`, where `pref` is the cell `pref` points to (none: NULL). -/
structure CR where
  before : List Action
  pref : Option Action
  between : List Action
  symbol : Int
  sr : Nat
  rr : Nat
deriving DecidableEq, Repr

/-- The visited part of the list. -/
def CR.visited (c : CR) : List Action := c.before ++ (c.pref.toList ++ c.between)

/-- `p->suppressed = n` -/
def Action.supp (p : Action) (n : Nat) : Action := { p with suppressed := n }

/-- `p` stays in place with mark `n`, `pref` unchanged -/
def CR.keep (c : CR) (p : Action) : CR := { c with between := c.between ++ [p] }

/-- `pref->suppressed = 2; pref = p;` -/
def CR.replace (c : CR) (q p : Action) : CR :=
  { c with before := c.before ++ q.supp 2 :: c.between, pref := some p, between := [] }

/-- byacc/mkpar.c:229-301: body of the loop for the action `p`.  `lemon` is `lemon_prec_flag`,
`fin` is `i == final_state`.  Simplification: `StartBacktrack` does nothing because `backtrack`
is off. -/
def crStep (lemon fin : Bool) (c : CR) (p : Action) : CR :=
  if (p.symbol : Int) ≠ c.symbol then
    { c with before := c.visited, pref := some p, between := [], symbol := p.symbol }
  else if fin && c.symbol == 0 then
    { c.keep (p.supp 1) with sr := c.sr + 1 }
  else match c.pref with
    | none => c.keep p
    | some q =>
      if q.code = .SHIFT then
        if q.prec > 0 && p.prec > 0 then
          if q.prec < p.prec then c.replace q p
          else if q.prec > p.prec then c.keep (p.supp 2)
          else if q.assoc = .LEFT then c.replace q p
          else if q.assoc = .RIGHT then c.keep (p.supp 2)
          else { c.keep (p.supp 2) with pref := some (q.supp 2) }
        else { c.keep (p.supp 1) with sr := c.sr + 1 }
      else
        if lemon && (q.prec > 0 && p.prec > 0) && q.prec < p.prec then c.replace q p
        else if lemon && (q.prec > 0 && p.prec > 0) && q.prec > p.prec then c.keep (p.supp 2)
        else { c.keep (p.supp 1) with rr := c.rr + 1 }

/-- byacc/mkpar.c:219-302 for one state -/
def crRow (lemon fin : Bool) (acts : List Action) : CR :=
  acts.foldl (crStep lemon fin) ⟨[], none, [], -1, 0, 0⟩

/-- `MaySuppress(p)`/`NotSuppressed(p)`, byacc/mkpar.c:5-15, without backtracking -/
def Action.live (p : Action) : Bool := p.suppressed == 0

/-- byacc/mkpar.c:354-378 `sole_reduction`: the loop, with variables `count` and `ruleno`. -/
def soleLoop : List Action → Nat → Nat → Nat
  | [], count, ruleno => if count = 0 then 0 else ruleno
  | p :: rest, count, ruleno =>
    if p.code = .SHIFT ∧ p.live then 0
    else if p.code = .REDUCE ∧ p.live then
      if ruleno > 0 ∧ p.number ≠ ruleno then 0
      else soleLoop rest (if p.symbol ≠ 1 then count + 1 else count) p.number
    else soleLoop rest count ruleno

/-- byacc/mkpar.c:354-378 `sole_reduction` -/
def soleReduction (acts : List Action) : Nat := soleLoop acts 0 0

/-- byacc/mkpar.c:181-191: `rules_used` -/
def rulesUsed (nrules : Nat) (parser : List (List Action)) : List Bool :=
  parser.foldl (fun used acts =>
    acts.foldl (fun used p => if p.code = .REDUCE ∧ p.live then used.set p.number true else used) used)
    (List.replicate nrules false)

/-- byacc/mkpar.c:193-196: `nunused` -/
def nunused (nrules : Nat) (used : List Bool) : Nat :=
  (List.range' 3 (nrules - 3)).foldl (fun n i => if !(used.getD i false) then n + 1 else n) 0

/-- Result of `make_parser`. -/
structure Parser where
  rows : List (List Action)
  final : Nat
  SRconflicts : List Nat
  RRconflicts : List Nat
  SRtotal : Nat
  RRtotal : Nat
  nunused : Nat
  /-- `exit_code` was set to `EXIT_FAILURE` -/
  failed : Bool
  defred : List Nat
deriving DecidableEq, Repr

/-- byacc/mkpar.c:331-344: the checks of `%expect` (negative: not declared) in
`total_conflicts`. -/
def expectFails (srExpect rrExpect : Int) (sr rr : Nat) : Bool :=
  (srExpect ≥ 0 && (sr : Int) != srExpect) || (rrExpect ≥ 0 && (rr : Int) != rrExpect)

/-- byacc/mkpar.c:28-43 `make_parser`. -/
def makeParser (g : Gram) (sp : SymPrec) (lemon : Bool) (srExpect rrExpect : Int) (a : LR0)
    (lo : LalrOut) : Parser :=
  let parser := (List.range a.nstates).map (parseActions g sp a lo)
  let final := findFinalState g a
  let crs := (List.range a.nstates).map (fun i => crRow lemon (i == final) (parser.getD i []))
  let rows := crs.map CR.visited
  let SRtotal := crs.foldl (fun n c => n + c.sr) 0
  let RRtotal := crs.foldl (fun n c => n + c.rr) 0
  { rows := rows
    final := final
    SRconflicts := crs.map CR.sr
    RRconflicts := crs.map CR.rr
    SRtotal := SRtotal
    RRtotal := RRtotal
    nunused := nunused g.nrules (rulesUsed g.nrules rows)
    failed := if SRtotal + RRtotal > 0 then expectFails srExpect rrExpect SRtotal RRtotal else false
    defred := rows.map soleReduction }

end Verif.Byacc
