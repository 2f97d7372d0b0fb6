import Verif.Byacc.Main
import Verif.Byacc.Verbose
import Verif.Byacc.Names
import Verif.Byacc.Scan
/-
byacc/graph.c: the graph of the automaton (`-g`), and byacc/verbose.c: the states in the report (`-v`).
The names of symbols are given: `pn` is `symbol_pname` (or `symbol_name`).
-/
set_option autoImplicit false
namespace Verif.Byacc.Gr

/-- byacc/graph.c:63-65, verbose.c:188-190: the rule of the item at `ritem + item`: minus the first negative number from there on.  (0 if there is none; the C code
would read on behind the array.) -/
def ruleAt (g : Gram) (item : Nat) : Nat := (-((g.ritem.drop item).find? (· < 0)).getD 0).toNat

/-- byacc/graph.c:68-69, verbose.c:193-194: the symbols before the dot -/
def beforeDot (g : Gram) (item : Nat) : List Int := (g.ritem.drop (g.rhs (ruleAt g item))).take (item - g.rhs (ruleAt g item))

/-- byacc/graph.c:73-77, verbose.c:198-202: the symbols from the dot on.  (`sp` is the place of the item, or the beginning of the rule if that comes after it.) -/
def afterDot (g : Gram) (item : Nat) : List Int := (g.ritem.drop (max item (g.rhs (ruleAt g item)))).takeWhile (· ≥ 0)

/-- byacc/graph.c:66-77, verbose.c:191-202: an item with its dot; `arrow` is what is printed after the left side -/
def dotted (g : Gram) (pn : Nat → List Nat) (arrow : List Nat) (item : Nat) : List Nat :=
  pn (g.lhs (ruleAt g item)) ++ arrow ++ (beforeDot g item).flatMap (fun x => pn x.toNat ++ [32]) ++ [46] ++ (afterDot g item).flatMap (fun x => 32 :: pn x.toNat)

/-- byacc/graph.c:88-110 `graph_LA`; the number is `fs2_larno` -/
def graphLA (g : Gram) (pn : Nat → List Nat) (lo : LalrOut) (ruleno : Nat) (larno : Nat) : List Nat × Nat :=
  if lo.ruleno[larno]? = some ruleno then
    (Rd.str " { " ++ ((List.range g.ntokens).reverse.filter (BIT (row lo.LA larno))).flatMap (fun t => pn t ++ [32]) ++ Rd.str "}", larno + 1)
  else ([], larno)

/-- byacc/graph.c:57-83: the items of a state -/
def graphItems (g : Gram) (pn : Nat → List Nat) (lo : LalrOut) : List Nat → Nat → List Nat
  | [], _ => []
  | i :: is, larno =>
    let la := if g.item i < 0 then graphLA g pn lo (-(g.item i)).toNat larno else ([], larno);
    Rd.str "  " ++ dotted g pn (Rd.str " -> ") i ++ la.1 ++ Rd.str "\\l" ++ graphItems g pn lo is la.2

/-- byacc/graph.c:48-85 `graph_state`, for the item set that `closure` (line 23) left -/
def graphState (g : Gram) (pn : Nat → List Nat) (a : LR0) (lo : LalrOut) (stateno : Nat) : List Nat :=
  Rd.str "\n\tq" ++ decDigits stateno ++ Rd.str " [label=\"" ++ decDigits stateno ++ Rd.str ":\\l" ++
    graphItems g pn lo (closure g (setFirstDerives g) (a.states.getD stateno ⟨0, []⟩).items) (lo.lookaheads.getD stateno 0) ++ Rd.str "\"];"

/-- byacc/graph.c:30-40: the edges from a state -/
def graphEdges (pn : Nat → List Nat) (a : LR0) (i : Nat) : List Nat :=
  (a.shiftsOf i).flatMap fun sn =>
    Rd.str "\tq" ++ decDigits i ++ Rd.str " -> q" ++ decDigits sn ++ Rd.str " [label=\"" ++ pn (a.acc sn) ++ Rd.str "\"];\n"

/-- byacc/graph.c:8-43 `graph` -/
def graph (g : Gram) (pn : Nat → List Nat) (a : LR0) (lo : LalrOut) : List Nat :=
  (List.range a.nstates).flatMap (graphState g pn a lo) ++ Rd.str "\n\n" ++ (List.range a.nstates).flatMap (graphEdges pn a) ++ Rd.str "}\n"

/-! ### verbose.c -/

/-- byacc/verbose.c:175-205 `print_core` -/
def printCore (g : Gram) (sn : Nat → List Nat) (a : LR0) (state : Nat) : List Nat :=
  (a.states.getD state ⟨0, []⟩).items.flatMap fun i =>
    [9] ++ dotted g sn (Rd.str " : ") i ++ Rd.str "  (" ++ decDigits (ruleAt g i - 2) ++ Rd.str ")\n"

/-- byacc/verbose.c:240-246: the empty rules -/
def printNulls (g : Gram) (sn : Nat → List Nat) (acts : List Action) : List Nat :=
  (nullRules g acts).flatMap (fun j => [9] ++ sn (g.lhs j) ++ Rd.str " : .  (" ++ decDigits (j - 2) ++ Rd.str ")\n") ++ [10]

/-- A line of the actions of a state: what is read (`none`: `.`), and what is done. -/
inductive ALine
  | accept
  | shift (t s : Nat)
  | trialShift (t s : Nat)
  | reduce (t k lhs : Nat)
  | trialReduce (t k : Nat)
  | error
  | default (k : Nat)
  | goto (v s : Nat)
  | blank
deriving DecidableEq, Repr

/-- byacc/verbose.c:275-302 `print_shifts`; `bt` is the option `-B` -/
def shiftLines (bt : Bool) (p : List Action) : List ALine :=
  if 0 < (p.filter fun q => q.suppressed < 2 && q.code == .SHIFT).length then
    p.flatMap fun q => (if q.code == .SHIFT && q.suppressed == 0 then [.shift q.symbol q.number] else []) ++
      (if bt && q.code == .SHIFT && q.suppressed == 1 then [.trialShift q.symbol q.number] else [])
  else []

/-- byacc/verbose.c:304-346 `print_reductions` -/
def reductionLines (g : Gram) (bt : Bool) (p : List Action) (defred : Nat) : List ALine :=
  if !(p.any fun q => q.code == .REDUCE && q.suppressed < 2) then [.error]
  else
    (p.flatMap fun q => if q.code == .REDUCE && q.number != defred then
      (if q.suppressed == 0 then [.reduce q.symbol (q.number - 2) (g.lhs q.number)] else []) ++
      (if bt && q.suppressed == 1 then [.trialReduce q.symbol (q.number - 2)] else []) else []) ++
    (if 0 < defred then [.default (defred - 2)] else [])

/-- byacc/verbose.c:348-365 `print_gotos` -/
def gotoLines (g : Gram) (a : LR0) (stateno : Nat) : List ALine :=
  .blank :: (a.shiftsOf stateno).filterMap fun k => if g.isVar (a.acc k) then some (.goto (a.acc k) k) else none

/-- byacc/verbose.c:266-273: gotos are printed if the last shift of the state is one -/
def stateGotos (g : Gram) (a : LR0) (stateno : Nat) : List ALine :=
  match (a.shiftsOf stateno).getLast? with
  | none => []
  | some k => if g.isVar (a.acc k) then gotoLines g a stateno else []

/-- byacc/verbose.c:248-273 `print_actions` -/
def actionLines (g : Gram) (bt : Bool) (a : LR0) (P : Parser) (stateno : Nat) : List ALine :=
  (if stateno = P.final then [.accept] else []) ++
  (if (P.rows.getD stateno []).isEmpty then [] else
    shiftLines bt (P.rows.getD stateno []) ++ reductionLines g bt (P.rows.getD stateno []) (P.defred.getD stateno 0)) ++
  stateGotos g a stateno

/-- The text of a line. -/
def ALine.text (sn : Nat → List Nat) : ALine → List Nat
  | .accept => Rd.str "\t$end  accept\n"
  | .shift t s => [9] ++ sn t ++ Rd.str "  shift " ++ decDigits s ++ [10]
  | .trialShift t s => [9] ++ sn t ++ Rd.str "  [trial] shift " ++ decDigits s ++ [10]
  | .reduce t k l => [9] ++ sn t ++ Rd.str "  reduce " ++ decDigits k ++ Rd.str " [" ++ sn l ++ Rd.str "]\n"
  | .trialReduce t k => [9] ++ sn t ++ Rd.str "  [trial] reduce " ++ decDigits k ++ [10]
  | .error => Rd.str "\t.  error\n"
  | .default k => Rd.str "\t.  reduce " ++ decDigits k ++ [10]
  | .goto v s => [9] ++ sn v ++ Rd.str "  goto " ++ decDigits s ++ [10]
  | .blank => [10]

/-- byacc/verbose.c:250-274: the text of the actions of a state -/
def printActions (g : Gram) (sn : Nat → List Nat) (bt : Bool) (a : LR0) (P : Parser) (state : Nat) : List Nat :=
  (actionLines g bt a P state).flatMap (ALine.text sn)

/-- byacc/verbose.c:150-168: the text of a line about a conflict -/
def clineText (sn : Nat → List Nat) (state : Nat) : CLine → List Nat
  | .accept r l => decDigits state ++ Rd.str ": shift/reduce conflict (accept, reduce " ++ decDigits r ++ Rd.str " [" ++ sn l ++ Rd.str "]) on $end\n"
  | .sr s r l t => decDigits state ++ Rd.str ": shift/reduce conflict (shift " ++ decDigits s ++ Rd.str ", reduce " ++ decDigits r ++ Rd.str " [" ++ sn l ++
      Rd.str "]) on " ++ sn t ++ [10]
  | .rr r1 l1 r2 l2 t => decDigits state ++ Rd.str ": reduce/reduce conflict (reduce " ++ decDigits r1 ++ Rd.str " [" ++ sn l1 ++ Rd.str "], reduce " ++
      decDigits r2 ++ Rd.str " [" ++ sn l2 ++ Rd.str "]) on " ++ sn t ++ [10]

/-- byacc/verbose.c:108-119 `print_state` -/
def printState (g : Gram) (sn : Nat → List Nat) (bt : Bool) (a : LR0) (P : Parser) (state : Nat) : List Nat :=
  (if state ≠ 0 then Rd.str "\n\n" else []) ++
  (if P.SRconflicts.getD state 0 ≠ 0 ∨ P.RRconflicts.getD state 0 ≠ 0 then
    (printConflicts g (state == P.final) (P.rows.getD state [])).flatMap (clineText sn state) else []) ++
  Rd.str "state " ++ decDigits state ++ [10] ++ printCore g sn a state ++ printNulls g sn (P.rows.getD state []) ++ printActions g sn bt a P state

/-- byacc/verbose.c:63-80 `log_unused` -/
def logUnused (g : Gram) (sn : Nat → List Nat) (used : List Bool) : List Nat :=
  Rd.str "\n\nRules never reduced:\n" ++ (List.range' 3 (g.nrules - 3)).flatMap fun i =>
    if used.getD i false then [] else
      [9] ++ sn (g.lhs i) ++ Rd.str " :" ++ ((g.ritem.drop (g.rhs i)).takeWhile (· ≥ 0)).flatMap (fun x => 32 :: sn x.toNat) ++
        Rd.str "  (" ++ decDigits (i - 2) ++ Rd.str ")\n"

/-- byacc/defs.h:216 `PLURAL` -/
def plural (n : Nat) : List Nat := if n > 1 then [115] else []

/-- byacc/verbose.c:82-106 `log_conflicts` -/
def logConflicts (P : Parser) (n : Nat) : List Nat :=
  Rd.str "\n\n" ++ (List.range n).flatMap fun i =>
    if P.SRconflicts.getD i 0 ≠ 0 ∨ P.RRconflicts.getD i 0 ≠ 0 then
      Rd.str "State " ++ decDigits i ++ Rd.str " contains " ++
        (if 0 < P.SRconflicts.getD i 0 then decDigits (P.SRconflicts.getD i 0) ++ Rd.str " shift/reduce conflict" ++ plural (P.SRconflicts.getD i 0) else []) ++
        (if P.SRconflicts.getD i 0 ≠ 0 ∧ P.RRconflicts.getD i 0 ≠ 0 then Rd.str ", " else []) ++
        (if 0 < P.RRconflicts.getD i 0 then decDigits (P.RRconflicts.getD i 0) ++ Rd.str " reduce/reduce conflict" ++ plural (P.RRconflicts.getD i 0) else []) ++
        Rd.str ".\n"
    else []

/-- byacc/verbose.c:16-40 `verbose`, without the list of symbol numbers at the end (lines 41-60); `used` is `rules_used` -/
def report (g : Gram) (sn : Nat → List Nat) (bt : Bool) (a : LR0) (P : Parser) (used : List Bool) : List Nat :=
  [12, 10] ++ (List.range a.nstates).flatMap (printState g sn bt a P) ++
  (if P.nunused ≠ 0 then logUnused g sn used else []) ++
  (if P.SRtotal ≠ 0 ∨ P.RRtotal ≠ 0 then logConflicts P a.nstates else []) ++
  Rd.str "\n\n" ++ decDigits g.ntokens ++ Rd.str " terminals, " ++ decDigits (g.nsyms - g.ntokens) ++ Rd.str " nonterminals\n" ++
  decDigits (g.nrules - 2) ++ Rd.str " grammar rules, " ++ decDigits a.nstates ++ Rd.str " states\n"

end Verif.Byacc.Gr
