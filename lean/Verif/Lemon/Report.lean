import Verif.Lemon.Compress
import Verif.Lemon.Acttab
/-
The tables of the generated parser: `compute_action` and `ReportTable` (lemon.c:3924-3952,
4575-4635, 4918-5500).
-/
set_option autoImplicit false
namespace Verif.Lemon

/-- `rp->iRule` of the rule with index `r` -/
def Gram.iRule (g : Gram) (r : Nat) : Nat := ((iRules (g.rules.map Rule.code)).getD r 0).toNat

/-- `minShiftReduce`, lemon.c:4940 -/
def minShiftReduce (cs : List CState) : Nat := cs.length
/-- `errAction`, lemon.c:4941 -/
def errAction (g : Gram) (cs : List CState) : Nat := minShiftReduce cs + g.rules.length
/-- `accAction`, lemon.c:4942 -/
def accAction (g : Gram) (cs : List CState) : Nat := errAction g cs + 1
/-- `noAction`, lemon.c:4943 -/
def noAction (g : Gram) (cs : List CState) : Nat := accAction g cs + 1
/-- `minReduce`, lemon.c:4944 -/
def minReduce (g : Gram) (cs : List CState) : Nat := noAction g cs + 1
/-- `maxAction`, lemon.c:4945 -/
def maxAction (g : Gram) (cs : List CState) : Nat := minReduce g cs + g.rules.length

/-- the test on the symbol of a `SHIFTREDUCE`, lemon.c:3937-3938 -/
def Gram.afterReduce (g : Gram) (X : Nat) : Bool :=
  g.nterm ≤ g.index X && match g.errsym with
    | none => true
    | some e => g.index X != g.index e

/-- `compute_action`, lemon.c:3928-3952; `none` for −1.  `order` are the states in the order after
`ResortStates`: the new number of a state is its position there. -/
def computeAction (g : Gram) (cs : List CState) (order : List Nat) (a : Act) : Option Nat :=
  match a.type with
  | .SHIFT => some (order.idxOf a.x)
  | .SHIFTREDUCE => some ((if g.afterReduce a.sp then minReduce g cs else minShiftReduce cs) + g.iRule a.x)
  | .REDUCE => some (minReduce g cs + g.iRule a.x)
  | .ERROR => some (errAction g cs)
  | .ACCEPT => some (accAction g cs)
  | _ => none

/-- the state with the new number `i`, `lemp->sorted[i]` -/
def stateAt (cs : List CState) (order : List Nat) (i : Nat) : CState := cs.getD (order.getD i 0) ⟨[], none⟩

/-- the calls of `acttab_action` for the tokens of a state, lemon.c:5107-5113 -/
def tokenSet (g : Gram) (cs : List CState) (order : List Nat) (c : CState) : List (Nat × Nat) :=
  c.acts.filterMap fun a =>
    if g.nterm ≤ g.index a.sp then none
    else (computeAction g cs order a).map fun n => (g.index a.sp, n)

/-- the calls of `acttab_action` for the nonterminals of a state, lemon.c:5118-5125 -/
def ntSet (g : Gram) (cs : List CState) (order : List Nat) (c : CState) : List (Nat × Nat) :=
  c.acts.filterMap fun a =>
    if g.index a.sp < g.nterm then none
    else if g.index a.sp = g.nsymbol then none
    else (computeAction g cs order a).map fun n => (g.index a.sp, n)

/-- `ax[k].nAction`, lemon.c:5088-5096; `ax[2*i]` is the token set of state `i`, `ax[2*i+1]` its set
of nonterminals -/
def axCount (g : Gram) (cs : List CState) (order : List Nat) (k : Nat) : Nat :=
  let c := stateAt cs order (k / 2)
  if k % 2 = 0 then nTknAct g c else nNtAct g c

/-- `axset_compare(a,b) <= 0`, lemon.c:4623-4633, for sets given by `iOrder` -/
def axLe (g : Gram) (cs : List CState) (order : List Nat) (a b : Nat) : Bool :=
  axCount g cs order b < axCount g cs order a || (axCount g cs order a == axCount g cs order b && a ≤ b)

/-- The sets put in the table, in order, lemon.c:5101-5104, as numbers `iOrder`.  (The comparison
is never 0 for two sets.) -/
def axSets (g : Gram) (cs : List CState) (order : List Nat) (nx : Nat) : List Nat :=
  (qsort (axLe g cs order) (List.range (2 * nx))).takeWhile fun k => 0 < axCount g cs order k

/-- the transaction of `ax[k]` with the argument of `acttab_insert`, lemon.c:5105-5126 -/
def axOp (g : Gram) (cs : List CState) (order : List Nat) (k : Nat) : Bool × List (Nat × Nat) :=
  let c := stateAt cs order (k / 2)
  if k % 2 = 0 then (true, tokenSet g cs order c) else (false, ntSet g cs order c)

/-- The tables and constants of the generated parser. -/
structure Tables where
  /-- `YYNOCODE` -/
  nsymbol : Nat
  /-- `YYNTOKEN` -/
  nterm : Nat
  /-- `YYNSTATE`; `YY_MAX_SHIFT` is one less -/
  nx : Nat
  /-- `YY_MIN_SHIFTREDUCE` -/
  minShiftReduce : Nat
  /-- `YYNRULE` -/
  nrule : Nat
  /-- `yy_action`; its length is `YY_ACTTAB_COUNT` -/
  action : List Nat
  lookahead : List Nat
  /-- `yy_shift_ofst`; its length is `YY_SHIFT_COUNT + 1` -/
  shiftOfst : List Int
  /-- `yy_reduce_ofst`; its length is `YY_REDUCE_COUNT + 1` -/
  reduceOfst : List Int
  dflt : List Nat
  /-- `yyFallback` -/
  fallback : List Nat
  /-- `YYWILDCARD` -/
  wildcard : Option Nat
  /-- `YYERRORSYMBOL` -/
  errsym : Option Nat
  ruleLhs : List Nat
  /-- `yyRuleInfoNRhs`, without the minus sign and before conversion to `signed char` -/
  ruleNRhs : List Nat
  /-- `YY_SHIFT_MIN` -/
  shiftMin : Int
  /-- `YY_REDUCE_MIN` -/
  reduceMin : Int
  /-- `YY_REDUCE_MAX` -/
  reduceMax : Int
  deriving DecidableEq, Repr

/-- `YY_ERROR_ACTION`, lemon.c:5167 -/
def Tables.errAction (T : Tables) : Nat := T.minShiftReduce + T.nrule
/-- `YY_ACCEPT_ACTION`, lemon.c:5168 -/
def Tables.accAction (T : Tables) : Nat := T.errAction + 1
/-- `YY_NO_ACTION`, lemon.c:5169 -/
def Tables.noAction (T : Tables) : Nat := T.accAction + 1
/-- `YY_MIN_REDUCE`, lemon.c:5170 -/
def Tables.minReduce (T : Tables) : Nat := T.noAction + 1

/-- offsets without those at the end that are `NO_OFFSET`, lemon.c:5241-5242 and 5267-5268 -/
def trim (l : List (Option Int)) : List (Option Int) := (l.reverse.dropWhile Option.isNone).reverse

/-- The part of `ReportTable` that makes the tables, lemon.c:4940-5330 and 5425-5435.  `fb` is the
fallback of each terminal.  `none`: an index is outside of an array.  If there is no `%fallback`
the generated parser has no table `yyFallback`; the model has one with zeros, which is the same. -/
def report (g : Gram) (fb : Nat → Option Nat) (cs : List CState) (order : List Nat) (nx : Nat) : Option Tables :=
  let ax := axSets g cs order nx
  (insertAll g.nsymbol g.nterm (ax.map (axOp g cs order)) Acttab.empty).bind fun (p, os) =>
    p.actionSize.map fun n =>
      let ofs := fun k => (ax.zip os).lookup k
      let tkn := ((ax.zip os).filter fun e => e.1 % 2 == 0).map Prod.snd
      let nts := ((ax.zip os).filter fun e => e.1 % 2 == 1).map Prod.snd
      let mnNt := nts.foldl min 0
      { nsymbol := g.nsymbol
        nterm := g.nterm
        nx := nx
        minShiftReduce := minShiftReduce cs
        nrule := g.rules.length
        action := (List.range n).map fun i => ((p.slot i).map Prod.snd).getD (noAction g cs)
        lookahead := (List.range p.nAction).map (fun i => ((p.slot i).map Prod.fst).getD g.nsymbol) ++
          List.replicate (g.nterm + n - p.nAction) g.nterm
        shiftOfst := (trim ((List.range nx).map fun i => ofs (2 * i))).map fun o => o.getD n
        reduceOfst := (trim ((List.range nx).map fun i => ofs (2 * i + 1))).map fun o => o.getD (mnNt - 1)
        dflt := (List.range nx).map fun i =>
          match dfltReduce g (stateAt cs order i) with
          | none => errAction g cs
          | some r => minReduce g cs + g.iRule r
        fallback := (List.range g.nterm).map fun t => (fb t).getD 0
        wildcard := g.wildcard.map g.index
        errsym := g.errsym.map g.index
        ruleLhs := g.ruleList.map fun r => g.index r.lhs
        ruleNRhs := g.ruleList.map fun r => r.rhs.length
        shiftMin := tkn.foldl min 0
        reduceMin := mnNt
        reduceMax := nts.foldl max 0 }

/-- `minimum_size_type`, lemon.c:4582-4605, as signedness and number of bytes -/
def minimumSizeType (lwr upr : Int) : Bool × Nat :=
  if lwr ≥ 0 then
    if upr ≤ 255 then (false, 1)
    else if upr < 65535 then (false, 2)
    else (false, 4)
  else if lwr ≥ -127 && upr ≤ 127 then (true, 1)
  else if lwr ≥ -32767 && upr < 32767 then (true, 2)
  else (true, 4)

/-- `YYCODETYPE`: type of symbols and of the elements of `yy_lookahead`, `yyFallback` and
`yyRuleInfoLhs`, lemon.c:5011-5012 -/
def Tables.codeType (T : Tables) : Bool × Nat := minimumSizeType 0 T.nsymbol
/-- `YYACTIONTYPE`: type of actions and of the elements of `yy_action` and `yy_default`,
lemon.c:5014-5015 -/
def Tables.actionType (T : Tables) : Bool × Nat := minimumSizeType 0 (T.minReduce + T.nrule)
/-- type of the elements of `yy_shift_ofst`, lemon.c:5246-5247 -/
def Tables.shiftType (T : Tables) : Bool × Nat := minimumSizeType T.shiftMin (T.nterm + T.action.length)
/-- type of the elements of `yy_reduce_ofst`, lemon.c:5272-5273 -/
def Tables.reduceType (T : Tables) : Bool × Nat := minimumSizeType (T.reduceMin - 1) T.reduceMax

end Verif.Lemon
