import Verif.Byacc.Backtrack
/-
The generated parser with backtracking: byacc/btyaccpar.skel with `YYBTYACC` (option -B).

When a state has several possible actions on a token the parser starts a trial: it saves its stack,
keeps the tokens it reads in a queue, takes the first alternative, and on an error goes back to the
latest choice that has another alternative.  Actions in braces are skipped during a trial (`yytrial`,
byacc/reader.c:2912).  When the trial accepts, or an action executes `YYVALID`, the parser goes back to the
first choice and parses again along the recorded choices, now executing the actions.

Not modelled, besides what is left out in `Skel`: failure of `malloc` and `realloc`, the sizes
of the blocks for the queue.
-/
set_option autoImplicit false
namespace Verif.Byacc

/-- byacc/btyaccpar.skel:133-142 `YYParseState`: a saved state of the parser.
`state` is the state on top of the saved stack. -/
structure Saved (V : Type) where
  stack : List (Nat × V)
  errflag : Nat
  /-- place of the alternative chosen, in `yyctable` -/
  ctry : Nat
  /-- place of the next token in the queue -/
  lexeme : Nat
deriving DecidableEq

/-- What a semantic action can do, with the macros of byacc/btyaccpar.skel:359-366.  `valid v`: it
executes `YYVALID`, and leaves `v` in `yyval` if that has no effect; similarly `YYVALID_NESTED`. -/
inductive BAct (V : Type) where
  | val (v : V)
  | yyerror
  | yyaccept
  | yyabort
  | yyvalid (v : V)
  | yyvalidNested (v : V)
deriving DecidableEq

/-- The variables of a backtracking parser. -/
structure BCfg (V : Type) extends Cfg V where
  /-- `yylexemes` and `yylvals` up to `yylve` -/
  queue : List (Int × V)
  /-- `yylvp - yylvals` (and `yylexp - yylexemes`) -/
  lvp : Nat
  /-- `yyps->save` and what follows it, the latest first -/
  saves : List (Saved V)
  /-- `yypath`, the earliest first -/
  path : List (Saved V)
  /-- `yyerrctx` -/
  errctx : Option (Saved V)
  /-- about to jump to `yyreduce` with this rule, after backtracking (line 736) -/
  red : Option Nat
deriving DecidableEq

/-- How a parse ends: as without backtracking, or by a read outside the queue or the array of
alternatives. -/
inductive BHalt where
  | std (h : Halt)
  | badRead
deriving DecidableEq, Repr

/-- Result of one step. -/
inductive BRes (V : Type) where
  | next (c : BCfg V)
  | done (h : BHalt) (c : BCfg V)
deriving DecidableEq

/-- What varies between generated parsers.  `act trial r d vs`: what rule `r` does in a trial or
outside, otherwise as `Driver.act`. -/
structure BDriver (V : Type) where
  t : BTables
  act : Bool → Nat → V → List V → BAct V
  zero : V
  init : Nat
  max : Nat

variable {V : Type}

/-- The parts of the parser that are the same without backtracking (the actions are not used here). -/
def BDriver.plain (P : BDriver V) : Driver V :=
  { t := P.t.toTables, act := fun _ d _ => .val d, zero := P.zero, init := P.init, max := P.max }

/-- `yytrial`, byacc/btyaccpar.skel:244 -/
def BCfg.trial (c : BCfg V) : Bool := !c.saves.isEmpty

/-- An event, recorded outside trials only. -/
def BCfg.note (c : BCfg V) (e : Ev) : BCfg V := if c.trial then c else { c with log := e :: c.log }

/-- A result of the parts that are the same without backtracking. -/
def BCfg.lift (c : BCfg V) : Res V → BRes V
  | .next d => .next { c with toCfg := { d with log := if c.trial then c.log else d.log } }
  | .done h d => .done (.std h) { c with toCfg := { d with log := if c.trial then c.log else d.log } }

/-- byacc/btyaccpar.skel:428-482 and 953-1008: read a token unless there is one: from the queue; in
a trial from `yylex`, adding it to the queue as it is; else from `yylex`. -/
def BCfg.read (c : BCfg V) : BCfg V :=
  match c.chr with
  | some _ => c
  | none =>
    match c.queue[c.lvp]? with
    | some (x, v) => { c with chr := some (if x < 0 then 0 else x), lval := v, lvp := c.lvp + 1 }
    | none =>
      if c.trial then
        match c.input with
        | [] => { c with chr := some 0, queue := c.queue ++ [(0, c.lval)], lvp := c.lvp + 1 }
        | (x, v) :: rest =>
          { c with chr := some (if x < 0 then 0 else x), lval := v, input := rest,
                   queue := c.queue ++ [(x, v)], lvp := c.lvp + 1 }
      else { c with toCfg := c.toCfg.read }

/-- byacc/btyaccpar.skel:1048-1086 `yyvalid`: go back to the first choice and follow the choices
recorded.  (`yypath->state` is read at line 1064 and after; `yyvalid` is reached only in a trial, so `yypath` is not NULL.) -/
def BCfg.valid (c : BCfg V) : BRes V :=
  match c.path with
  | _ :: _ => .done (.std .abort) c
  | [] =>
    match c.saves.reverse with
    | [] => .done .badRead c
    | s :: rest =>
      .next { c with path := s :: rest, saves := [], errctx := none, lvp := s.lexeme, chr := none, stack := s.stack }

/-- byacc/btyaccpar.skel:1104-1109 `yyaccept` -/
def BCfg.accept (c : BCfg V) : BRes V := if c.trial then c.valid else .done (.std .accept) c

/-- byacc/btyaccpar.skel:790-869 `yyinrecovery`, up to the loop -/
def BCfg.inrecovery (c : BCfg V) : BRes V := c.lift c.toCfg.inrecovery

/-- byacc/btyaccpar.skel:700-726: the error context, if this is the error furthest on -/
def BCfg.memorize (c : BCfg V) : Saved V :=
  match c.errctx with
  | some e => if e.lexeme < c.lvp then ⟨c.stack, c.errflag, 0, c.lvp⟩ else e
  | none => ⟨c.stack, c.errflag, 0, c.lvp⟩

/-- byacc/btyaccpar.skel:689-788 `yyerrhandler`, the argument being `yyps->save`: try the next
alternative of the latest choice that has one; without choices, an error. -/
def BDriver.handle (P : BDriver V) : List (Saved V) → Bool → BCfg V → BRes V
  | [], newerr, c =>
    if newerr then { c with log := .report :: c.log }.inrecovery else c.inrecovery
  | s :: rest, _, c =>
    let ctx := c.memorize
    let c := { c with errctx := some ctx, lvp := s.lexeme, chr := none, stack := s.stack,
                      saves := { s with ctry := s.ctry + 1 } :: rest }
    let a := P.t.ctable.getD (s.ctry + 1) (-1)
    if 0 ≤ a then .next { c with red := some a.toNat }
    else
      let c := { c with saves := rest }
      match rest with
      | _ :: _ => P.handle rest true c
      | [] =>
        match ctx.lexeme with
        | 0 => .done .badRead c
        | k + 1 =>
          match c.queue[k]? with
          | none => .done .badRead c
          | some (x, v) =>
            { c with lvp := k + 1, chr := if x < 0 then none else some x, lval := v, stack := ctx.stack,
                     errctx := none, log := .report :: c.log }.inrecovery

/-- byacc/btyaccpar.skel:918-1043: the end of `yyreduce` -/
def BDriver.finish (P : BDriver V) (c : BCfg V) (m : Nat) (yym : Int) (yyval : V) : BRes V :=
  match c.stack.drop m with
  | [] => .done (.std .underflow) c
  | (s, v) :: below =>
    let c := { c with stack := (s, v) :: below }
    if s = 0 ∧ yym = 0 then
      match c.toCfg.write P.t.final yyval with
      | .done h d => .done (.std h) { c with toCfg := d }
      | .next d =>
        let c := ({ c with toCfg := d } : BCfg V).read
        if c.chr = some 0 then c.accept else .next c
    else c.lift (P.plain.push c.toCfg (P.t.gotoOf s yym) yyval)

/-- byacc/btyaccpar.skel:871-1043 `yyreduce` by rule `r`; `YYERROR` continues at lines 678-688 (it
is recorded, but `yynerrs` is not increased). -/
def BDriver.reduce (P : BDriver V) (c : BCfg V) (r : Nat) : BRes V :=
  let m := (P.t.len.getD r 0).toNat
  let vs := c.stack.map Prod.snd
  let c := { c.note (.reduce r) with red := none }
  if c.stack.length ≤ m then .done (.std .underflow) c
  else
    match P.act c.trial r (if m = 0 then P.zero else vs.getD (m - 1) P.zero) vs with
    | .val v => P.finish c m (P.t.lhs.getD r 0) v
    | .yyerror => P.handle c.saves false { c.note .raised with stack := c.stack.drop m }
    | .yyaccept => c.accept
    | .yyabort => .done (.std .abort) c
    | .yyvalid v => if c.trial then c.valid else P.finish c m (P.t.lhs.getD r 0) v
    | .yyvalidNested v => if c.saves.length = 1 then c.valid else P.finish c m (P.t.lhs.getD r 0) v

/-- byacc/btyaccpar.skel:527-613: a new choice; the list of alternatives is at `e`.  Gives the place
of the alternative to try; `none` if `yylvp` would leave the queue. -/
def BDriver.enter (P : BDriver V) (c : BCfg V) (e : Nat) : Option (BCfg V × Nat) :=
  let ctry := if P.t.ctable.getD e (-1) = -1 then e + 1 else e
  let c : BCfg V :=
    if c.saves.isEmpty ∧ c.lvp = c.queue.length then
      { c with lvp := 0, chr := none, queue := match c.chr with | some x => [(x, c.lval)] | none => [] }
    else c
  match c.chr with
  | none => some ({ c with saves := ⟨c.stack, c.errflag, ctry, c.lvp⟩ :: c.saves }, ctry)
  | some _ =>
    match c.lvp with
    | 0 => none
    | k + 1 => some ({ c with lvp := k, chr := none, saves := ⟨c.stack, c.errflag, ctry, k⟩ :: c.saves }, ctry)

/-- byacc/btyaccpar.skel:614-644: do what is at `ctry`, the list of alternatives for the token `x`
being at `e` -/
def BDriver.choose (P : BDriver V) (c : BCfg V) (x : Int) (e ctry : Nat) : BRes V :=
  let a := P.t.ctable.getD ctry (-1)
  if a < 0 then .done .badRead c
  else if e = ctry then
    let c : BCfg V := { c with lvp := if c.chr = none then c.lvp + 1 else c.lvp }
    c.lift (P.plain.push { c.toCfg with chr := none, errflag := c.errflag - 1, log := .shift x :: c.log } a.toNat c.lval)
  else P.reduce c a.toNat

/-- One round of `yyloop` (byacc/btyaccpar.skel:425-674), or of the recovery loop (793-846), or the
reduction after backtracking.  `yystate` is the state on top of the stack whenever `yyloop` is reached. -/
def BDriver.step (P : BDriver V) (c : BCfg V) : BRes V :=
  match c.red with
  | some r => P.reduce c r
  | none =>
    match c.stack with
    | [] => .done (.std .underflow) c
    | (s, _) :: _ =>
      if c.recover then c.lift (P.plain.step c.toCfg)
      else if P.t.defred.getD s 0 ≠ 0 then P.reduce c (P.t.defred.getD s 0)
      else
        let c := c.read
        let x := c.chr.getD 0
        match P.t.conflictOn s x with
        | some e =>
          match c.path with
          | p :: rest =>
            let c := { c with path := rest }
            if (p.stack.map Prod.fst).head? = some s then P.choose c x e p.ctry else .done (.std .abort) c
          | [] =>
            match P.enter c e with
            | none => .done .badRead c
            | some (c, ctry) => P.choose c x e ctry
        | none =>
          match P.t.shiftOn s x with
          | some q =>
            c.lift (P.plain.push { c.toCfg with chr := none, errflag := c.errflag - 1, log := .shift x :: c.log } q c.lval)
          | none =>
            match P.t.reduceOn s x with
            | some r => P.reduce c r
            | none => if c.errflag = 0 then P.handle c.saves true c else c.inrecovery

/-- byacc/btyaccpar.skel:406-424: the variables when `yyloop` is first reached.  `queue` and `lvp`
are static and keep what an earlier call left there. -/
def BDriver.start (P : BDriver V) (size : Nat) (u : V) (input queue : List (Int × V)) (lvp : Nat) : BCfg V :=
  { toCfg := P.plain.start size u input, queue := queue, lvp := lvp, saves := [], path := [], errctx := none, red := none }

/-- at most `n` steps -/
def BDriver.run (P : BDriver V) : Nat → BCfg V → BRes V
  | 0, c => .next c
  | n+1, c =>
    match P.step c with
    | .next c => P.run n c
    | .done h c => .done h c

end Verif.Byacc
