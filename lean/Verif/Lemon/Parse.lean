import Verif.Lemon.Report
/-
The generated parser: lempar.c.
-/
set_option autoImplicit false
namespace Verif.Lemon

/-- The loop of `yy_find_shift_action`, lempar.c:517-565.  `none`: an assertion fails, an index is
outside of a table, or the loop has not ended after the given number of rounds.  `ndebug`: the
parser is compiled without assertions; this is modelled for the assertion on fallbacks only, the
others guard table accesses. -/
def Tables.findShiftLoop (T : Tables) (ndebug : Bool) (stateno : Nat) : Nat → Nat → Option Nat
  | 0, _ => none
  | fuel+1, la =>
    match T.shiftOfst[stateno]? with
    | none => none
    | some o =>
      if o < 0 || o > T.action.length || o + T.nterm > T.lookahead.length || T.nterm ≤ la then none
      else
        let i := o.toNat + la
        match T.lookahead[i]? with
        | none => none
        | some l =>
          if l = la then T.action[i]?
          else
            match T.fallback[la]? with
            | none => none
            | some (fb+1) =>
              if !ndebug && T.fallback[fb+1]? != some 0 then none
              else T.findShiftLoop ndebug stateno fuel (fb+1)
            | some 0 =>
              match T.wildcard with
              | none => T.dflt[stateno]?
              | some W =>
                match T.lookahead[o.toNat + W]? with
                | none => none
                | some l => if l = W ∧ 0 < la then T.action[o.toNat + W]? else T.dflt[stateno]?

/-- `yy_find_shift_action`, lempar.c:507-566 -/
def Tables.findShift (T : Tables) (ndebug : Bool) (fuel : Nat) (la stateno : Nat) : Option Nat :=
  if T.nx ≤ stateno then some stateno else T.findShiftLoop ndebug stateno fuel la

/-- `yy_find_reduce_action`, lempar.c:572-596.  `none`: an assertion fails or an index is outside of
a table. -/
def Tables.findReduce (T : Tables) (stateno la : Nat) : Option Nat :=
  match T.errsym with
  | some _ =>
    match T.reduceOfst[stateno]? with
    | none => T.dflt[stateno]?
    | some o =>
      let i := o + la
      if i < 0 || i ≥ T.action.length || T.lookahead[i.toNat]? != some la then T.dflt[stateno]?
      else T.action[i.toNat]?
  | none =>
    match T.reduceOfst[stateno]? with
    | none => none
    | some o =>
      let i := o + la
      if i < 0 || i ≥ T.action.length || T.lookahead[i.toNat]? != some la then none
      else T.action[i.toNat]?

/-- Macros that choose a variant of the parser. -/
structure PConf where
  /-- `YYSTACKDEPTH`; `none` if it is not positive: the stack grows (`malloc` is assumed not to fail) -/
  depth : Option Nat
  /-- `YYNOERRORRECOVERY` -/
  noRecovery : Bool
  /-- `YYTRACKMAXSTACKDEPTH` -/
  track : Bool
  /-- `NDEBUG` -/
  ndebug : Bool
  deriving DecidableEq, Repr

/-- What the parser does that can be seen from outside.  Values of symbols are not modelled. -/
inductive Ev
  /-- the token is put on the stack -/
  | shift (t : Nat)
  /-- the code of the rule with number `r` is run -/
  | reduce (r : Nat)
  /-- `%syntax_error` -/
  | syntaxError (t : Nat)
  /-- the destructor of a token -/
  | discard (t : Nat)
  /-- the destructor of a symbol on the stack -/
  | pop (X : Nat)
  /-- `%parse_failure` -/
  | failed
  /-- `%parse_accept` -/
  | accept
  /-- `%stack_overflow` -/
  | overflow
  deriving DecidableEq, Repr

/-- `struct yyParser`, lempar.c:205-224.  The stack has `stateno` and `major` of each entry, the top
first. -/
structure PState where
  stack : List (Nat × Nat)
  errcnt : Int
  hwm : Nat
  deriving DecidableEq, Repr

/-- `ParseInit`, lempar.c:320-344 -/
def PState.init : PState := ⟨[(0, 0)], -1, 0⟩

/-- popping all entries but the first, lempar.c:609 and 769: the stack and the destructors called -/
def popAll (st : List (Nat × Nat)) : List (Nat × Nat) × List Ev :=
  (st.drop (st.length - 1), (st.take (st.length - 1)).map fun e => Ev.pop e.2)

/-- `yyStackOverflow`, lempar.c:601-617 -/
def stackOverflow (p : PState) : PState × List Ev :=
  ({ p with stack := (popAll p.stack).1 }, (popAll p.stack).2 ++ [.overflow])

/-- `yy_parse_failed`, lempar.c:758-776 -/
def parseFailed (p : PState) : PState × List Ev :=
  ({ p with stack := (popAll p.stack).1 }, (popAll p.stack).2 ++ [.failed])

/-- Keeping the high-water mark, lempar.c:651-656 and 907-913: `idx` is the index of the top of the
stack.  `none`: the assertion fails. -/
def track (c : PConf) (idx : Nat) (p : PState) : Option PState :=
  if c.track && idx > p.hwm then
    if c.ndebug || p.hwm + 1 = idx then some { p with hwm := p.hwm + 1 } else none
  else some p

/-- `yy_shift`, lempar.c:643-680 -/
def yyShift (T : Tables) (c : PConf) (newState major : Nat) (p : PState) : Option (PState × List Ev) :=
  let idx := p.stack.length
  (track c idx p).map fun p =>
    if (c.depth.any fun d => idx > d - 1) then stackOverflow p
    else
      let newState := if T.nx ≤ newState then newState + (T.minReduce - T.minShiftReduce) else newState
      ({ p with stack := (newState, major) :: p.stack }, [.shift major])

/-- conversion to `signed char` (on the usual platforms) -/
def schar (x : Int) : Int := (x + 128) % 256 - 128

/-- `yyRuleInfoNRhs[r]`, lempar.c:689-693 -/
def Tables.nrhs (T : Tables) (r : Nat) : Int := schar (-(T.ruleNRhs.getD r 0 : Int))

/-- `yy_reduce`, lempar.c:706-753 -/
def yyReduce (T : Tables) (r : Nat) (p : PState) : Option PState :=
  match T.ruleLhs[r]? with
  | none => none
  | some A =>
    let size := T.nrhs r
    if size > 0 then none
    else
      let st := p.stack.drop (-size).toNat
      match st.head? with
      | none => none
      | some e =>
        match T.findReduce e.1 A with
        | none => none
        | some act =>
          if (T.nx ≤ act && act < T.minShiftReduce + T.nrule) || act = T.errAction then none
          else some { p with stack := (act, A) :: st }

/-- popping until the error symbol `E` can be shifted, lempar.c:984-989.  Result: the stack, the last
action found, the destructors called. -/
def popToError (T : Tables) (E : Nat) : List (Nat × Nat) → Nat → Option (List (Nat × Nat) × Nat × List Ev)
  | [], _ => none
  | [e], act => some ([e], act, [])
  | e :: st, _ =>
    match T.findReduce e.1 E with
    | none => none
    | some act =>
      if act < T.minShiftReduce + T.nrule then some (e :: st, act, [])
      else (popToError T E st act).map fun x => (x.1, x.2.1, .pop e.2 :: x.2.2)

/-- What happens on an error, lempar.c:940-1033.  Result: the new state, the events, and whether the
loop goes on with the same token. -/
def onError (T : Tables) (c : PConf) (major : Nat) (errorhit : Bool) (p : PState) : Option (PState × List Ev × Bool) :=
  match T.errsym with
  | some E =>
    let ev := if p.errcnt < 0 then [Ev.syntaxError major] else []
    match p.stack.head? with
    | none => none
    | some top =>
      if top.2 = E || errorhit then some ({ p with errcnt := 3 }, ev ++ [.discard major], false)
      else
        match popToError T E p.stack (T.errAction) with
        | none => none
        | some (st, act, pops) =>
          if st.length ≤ 1 || major = 0 then
            let r := parseFailed { p with stack := st }
            some ({ r.1 with errcnt := 3 }, ev ++ pops ++ .discard major :: r.2, false)
          else
            (yyShift T c act E { p with stack := st }).map fun r =>
              ({ r.1 with errcnt := 3 }, ev ++ pops ++ r.2, true)
  | none =>
    if c.noRecovery then some (p, [.syntaxError major, .discard major], false)
    else
      let ev := if p.errcnt ≤ 0 then [Ev.syntaxError major] else []
      if major = 0 then
        let r := parseFailed p
        some ({ r.1 with errcnt := -1 }, ev ++ .discard major :: r.2, false)
      else some ({ p with errcnt := 3 }, ev ++ [.discard major], false)

/-- Result of one round of the loop of `Parse`: the loop goes on or has ended. -/
inductive Round
  | next (errorhit : Bool) (p : PState) (evs : List Ev)
  | stop (p : PState) (evs : List Ev)
  deriving DecidableEq, Repr

/-- One round of the loop of `Parse`, lempar.c:880-1033.  `none`: an assertion fails, an index is
outside of a table or the stack, or the lookup of the action has not ended after the given number of
rounds. -/
def parseRound (T : Tables) (c : PConf) (major : Nat) (fuel : Nat) (errorhit : Bool) (p : PState) : Option Round :=
  match p.stack.head? with
  | none => none
  | some top =>
    match T.findShift c.ndebug fuel major top.1 with
    | none => none
    | some act =>
      if T.minReduce ≤ act then
        let r := act - T.minReduce
        if T.nrule ≤ r then none
        else if T.nrhs r = 0 then
          (track c (p.stack.length - 1) p).bind fun p =>
            if c.depth.any fun d => p.stack.length - 1 ≥ d - 1 then some (.stop (stackOverflow p).1 (stackOverflow p).2)
            else (yyReduce T r p).map fun p => .next errorhit p [.reduce r]
        else (yyReduce T r p).map fun p => .next errorhit p [.reduce r]
      else if act < T.minShiftReduce + T.nrule then
        (yyShift T c act major p).map fun x => .stop { x.1 with errcnt := x.1.errcnt - 1 } x.2
      else if act = T.accAction then
        match p.stack with
        | [_, bottom] => some (.stop { p with stack := [bottom], errcnt := -1 } [.accept])
        | _ => none
      else if act = T.errAction then
        (onError T c major errorhit p).map fun x => if x.2.2 then .next true x.1 x.2.1 else .stop x.1 x.2.1
      else none

/-- The loop of `Parse`, lempar.c:879-1034.  `none`: see `parseRound`, or the loop has not ended after
the given number of rounds. -/
def parseLoop (T : Tables) (c : PConf) (major : Nat) : Nat → Bool → PState → Option (PState × List Ev)
  | 0, _, _ => none
  | fuel+1, errorhit, p =>
    match parseRound T c major (fuel+1) errorhit p with
    | none => none
    | some (.stop p evs) => some (p, evs)
    | some (.next errorhit p evs) => (parseLoop T c major fuel errorhit p).map fun x => (x.1, evs ++ x.2)

/-- One call of `Parse`, lempar.c:843-1054 -/
def parseToken (T : Tables) (c : PConf) (fuel : Nat) (p : PState) (major : Nat) : Option (PState × List Ev) :=
  parseLoop T c major fuel false p

/-- several calls of `Parse` -/
def parseTokens (T : Tables) (c : PConf) (fuel : Nat) : List Nat → PState → Option (PState × List Ev)
  | [], p => some (p, [])
  | t :: ts, p => (parseToken T c fuel p t).bind fun x => (parseTokens T c fuel ts x.1).map fun y => (y.1, x.2 ++ y.2)

end Verif.Lemon
