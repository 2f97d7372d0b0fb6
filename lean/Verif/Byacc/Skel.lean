import Verif.Byacc.Output
/-
The generated parser: byacc/btyaccpar.skel (the skeleton selected by byacc/makefile:44) as used
without backtracking, and byacc/yaccpar.skel, which then differs only in the value returned after
a stack overflow (2 instead of 1).

Not modelled: positions, destructors, debug output, `yyclearin`, `yyerrok` and `YYREJECT` in
actions, failure of `realloc`, overflow of `unsigned` stack sizes, the narrowing of `yychar` and
`yystate` to `YYINT`.
-/
set_option autoImplicit false
namespace Verif.Byacc

/-- byacc/yaccpar.skel:209-210, 225-226, 245-246 and (with a state in the place of `yychar`) 333-334
(btyaccpar.skel:646-647, 665-666, 796-797, 1021-1022):
`((yyn = index) != 0) && (yyn += x) >= 0 && yyn <= YYTABLESIZE && yycheck[yyn] == x`, and then
`yytable[yyn]`. -/
def Tables.probe (t : Tables) (index x : Int) : Option Nat :=
  if index ≠ 0 ∧ 0 ≤ index + x ∧ index + x ≤ t.size ∧ t.check[(index + x).toNat]? = some x then
    t.table[(index + x).toNat]?
  else none

/-- byacc/yaccpar.skel:209-210: shift on `yychar` in state `s` -/
def Tables.shiftOn (t : Tables) (s : Nat) (yychar : Int) : Option Nat := t.probe (t.sindex.getD s 0) yychar

/-- byacc/yaccpar.skel:225-226: reduction on `yychar` in state `s` -/
def Tables.reduceOn (t : Tables) (s : Nat) (yychar : Int) : Option Nat := t.probe (t.rindex.getD s 0) yychar

/-- byacc/yaccpar.skel:333-337: the state entered from `s` after reducing to the left-hand side `yym` -/
def Tables.gotoOf (t : Tables) (s : Nat) (yym : Int) : Nat :=
  match t.probe (t.gindex.getD yym.toNat 0) (s : Int) with
  | some q => q
  | none => t.dgoto.getD yym.toNat 0

/-! ### the driver -/

/-- What the parser does, in the order of the debug messages of the skeleton. -/
inductive Ev where
  /-- the token with this code is shifted -/
  | shift (code : Int)
  /-- reduction by this rule (number as in `yylhs`) -/
  | reduce (rule : Nat)
  /-- `yyerror("syntax error")`, `++yynerrs` -/
  | report
  /-- an action executed `YYERROR`; `++yynerrs` without a message -/
  | raised
  /-- recovery shifts the error token -/
  | errShift
  /-- recovery discards a state -/
  | pop
  /-- recovery discards the lookahead -/
  | discard (code : Int)
deriving DecidableEq, Repr

/-- How a parse ends. -/
inductive Halt where
  /-- returns 0 -/
  | accept
  /-- returns 1 -/
  | abort
  /-- `yyerror("yacc stack overflow")`, returns 2 (yaccpar.skel: 1) -/
  | overflow
  /-- a read below the stack -/
  | underflow
  /-- a write above the allocated stack -/
  | badWrite
deriving DecidableEq, Repr

/-- What a semantic action can do: leave a value in `yyval`, or execute one of the macros of
byacc/yaccpar.skel:151-154. -/
inductive Act (V : Type) where
  | val (v : V)
  | yyerror
  | yyaccept
  | yyabort
deriving DecidableEq

/-- The parser's variables.  `V` is the type of semantic values. -/
structure Cfg (V : Type) where
  /-- `s_base .. s_mark` and `l_base .. l_mark`, the top first -/
  stack : List (Nat × V)
  /-- `yychar`; `none` is `YYEMPTY` -/
  chr : Option Int
  /-- `yylval` -/
  lval : V
  /-- what `yylex` will return, with the values it will leave in `yylval`; 0 after that -/
  input : List (Int × V)
  /-- `yyerrflag` -/
  errflag : Nat
  /-- `stacksize` -/
  size : Nat
  /-- inside the loop of the error recovery (yaccpar.skel:243-270) -/
  recover : Bool
  /-- events so far, the latest first -/
  log : List Ev
deriving DecidableEq

/-- Result of one step: a configuration, or the end of the parse. -/
inductive Res (V : Type) where
  | next (c : Cfg V)
  | done (h : Halt) (c : Cfg V)
deriving DecidableEq

/-- What varies between generated parsers: the tables; the semantic actions (`act r d vs`: what
rule `r` does if `yyval` is `d` beforehand and `vs` are the values on the stack, the top first);
the value that is all zero bytes; `YYINITSTACKSIZE`; `YYMAXDEPTH`. -/
structure Driver (V : Type) where
  t : Tables
  act : Nat → V → List V → Act V
  zero : V
  init : Nat
  max : Nat

variable {V : Type}

/-- byacc/yaccpar.skel:106-138 (btyaccpar.skel:254-304) `yygrowstack`: the new size; `none` is
`YYENOMEM` -/
def Driver.grow (P : Driver V) (size : Nat) : Option Nat :=
  if size = 0 then some P.init
  else if size ≥ P.max then none
  else if size * 2 > P.max then some P.max
  else some (size * 2)

/-- `*++yystack.s_mark = q; *++yystack.l_mark = v;` (byacc/yaccpar.skel:219-220, 255-256, 315-316,
344-345) -/
def Cfg.write (c : Cfg V) (q : Nat) (v : V) : Res V :=
  if c.stack.length < c.size then .next { c with stack := (q, v) :: c.stack } else .done .badWrite c

/-- byacc/yaccpar.skel:217, 253, 343:
`if (s_mark >= s_last && yygrowstack(&yystack) == YYENOMEM) goto yyoverflow;` and then the push -/
def Driver.push (P : Driver V) (c : Cfg V) (q : Nat) (v : V) : Res V :=
  if c.stack.length ≥ c.size then
    match P.grow c.size with
    | none => .done .overflow c
    | some n => { c with size := n }.write q v
  else c.write q v

/-- byacc/yaccpar.skel:196-208, 317-329: read a token unless there is one -/
def Cfg.read (c : Cfg V) : Cfg V :=
  match c.chr with
  | some _ => c
  | none =>
    match c.input with
    | [] => { c with chr := some 0 }
    | (x, v) :: rest => { c with chr := some (if x < 0 then 0 else x), lval := v, input := rest }

/-- byacc/yaccpar.skel:239-285 `yyinrecovery`, up to the loop of lines 243-270 -/
def Cfg.inrecovery (c : Cfg V) : Res V :=
  if c.errflag < 3 then .next { c with errflag := 3, recover := true }
  else
    match c.chr with
    | none => .next c
    | some x => if x = 0 then .done .abort c else .next { c with chr := none, log := .discard x :: c.log }

/-- byacc/yaccpar.skel:303-346: the end of `yyreduce`; `m` symbols are replaced by the left-hand
side `yym` with value `yyval` -/
def Driver.finish (P : Driver V) (c : Cfg V) (m : Nat) (yym : Int) (yyval : V) : Res V :=
  match c.stack.drop m with
  | [] => .done .underflow c
  | (s, v) :: below =>
    let c := { c with stack := (s, v) :: below }
    if s = 0 ∧ yym = 0 then
      match c.write P.t.final yyval with
      | .done h c => .done h c
      | .next c =>
        let c := c.read
        if c.chr = some 0 then .done .accept c else .next c
    else P.push c (P.t.gotoOf s yym) yyval

/-- byacc/yaccpar.skel:287-346 `yyreduce` by rule `r` -/
def Driver.reduce (P : Driver V) (c : Cfg V) (r : Nat) : Res V :=
  let m := (P.t.len.getD r 0).toNat
  let vs := c.stack.map Prod.snd
  let c := { c with log := .reduce r :: c.log }
  if c.stack.length ≤ m then .done .underflow c
  else
    match P.act r (if m = 0 then P.zero else vs.getD (m - 1) P.zero) vs with
    | .val v => P.finish c m (P.t.lhs.getD r 0) v
    | .yyerror => { c with log := .raised :: c.log }.inrecovery
    | .yyaccept => .done .accept c
    | .yyabort => .done .abort c

/-- One round of `yyloop` (byacc/yaccpar.skel:194-285), or of the recovery loop (243-270).
`yystate` is the state on top of the stack whenever `yyloop` is reached. -/
def Driver.step (P : Driver V) (c : Cfg V) : Res V :=
  match c.stack with
  | [] => .done .underflow c
  | (s, _) :: below =>
    if c.recover then
      match P.t.shiftOn s P.t.errcode with
      | some q => P.push { c with recover := false, log := .errShift :: c.log } q c.lval
      | none =>
        if below.isEmpty then .done .abort c
        else .next { c with stack := below, log := .pop :: c.log }
    else if P.t.defred.getD s 0 ≠ 0 then P.reduce c (P.t.defred.getD s 0)
    else
      let c := c.read
      let x := c.chr.getD 0
      match P.t.shiftOn s x with
      | some q =>
        P.push { c with chr := none, errflag := c.errflag - 1, log := .shift x :: c.log } q c.lval
      | none =>
        match P.t.reduceOn s x with
        | some r => P.reduce c r
        | none =>
          if c.errflag = 0 then { c with log := .report :: c.log }.inrecovery else c.inrecovery

/-- byacc/yaccpar.skel:173-192: the variables when `yyloop` is first reached; `size` is the stack
kept from an earlier call (0: none), `u` the content of the bottom value cell. -/
def Driver.start (P : Driver V) (size : Nat) (u : V) (input : List (Int × V)) : Cfg V :=
  { stack := [(0, u)], chr := none, lval := P.zero, input := input, errflag := 0,
    size := if size = 0 then P.init else size, recover := false, log := [] }

/-- at most `n` steps -/
def Driver.run (P : Driver V) : Nat → Cfg V → Res V
  | 0, c => .next c
  | n+1, c =>
    match P.step c with
    | .next c => P.run n c
    | .done h c => .done h c

end Verif.Byacc
