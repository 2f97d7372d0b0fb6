import Verif.Lemon.Parse
/-
Model of the values that a parser made by lemon keeps on its stack (lempar.c).  The values decide
nothing in the parser, so that they are added to the model of `Verif/Lemon/Parse.lean`: each event of
a call of `Parse` reads and writes them as below.

`V` are the values of symbols (the union `YYMINORTYPE`, lempar.c:58 and 198).  `code r xs old` is what the code of the
rule with number `r` leaves in the entry that becomes that of the left-hand side, if the values of
the right-hand side are `xs` and `old` was in that entry before (lempar.c:722-736; which values the labels of the
code stand for is the matter of C75).  Other effects of code are not modelled.
-/
set_option autoImplicit false
namespace Verif.Lemon

variable {V : Type}

/-- The values on the stack: `yytos - yystack` and `yystack[i].minor`, lempar.c:186-224.  Entries above the
top keep what was in them. -/
structure Mem (V : Type) where
  top : Nat
  val : Nat → V

/-- Events with values. -/
inductive VEv (V : Type)
  /-- the symbol is put on the stack with this value -/
  | shift (X : Nat) (v : V)
  /-- the code of the rule with number `r` is run, with the values of its right-hand side, and leaves the
  value for its left-hand side -/
  | reduce (r : Nat) (xs : List V) (v : V)
  | syntaxError (t : Nat) (v : V)
  /-- the destructor of a token is called for its value -/
  | discard (t : Nat) (v : V)
  /-- the destructor of a symbol is called for its value -/
  | pop (X : Nat) (v : V)
  | failed
  /-- the parser accepts; the value of the start symbol -/
  | accept (v : V)
  | overflow
  deriving DecidableEq, Repr

/-- writing an entry -/
def Mem.set (m : Mem V) (i : Nat) (v : V) : Mem V := { m with val := fun j => if j = i then v else m.val j }

/-- The values in an event of a call of `Parse` for a token with value `v`: `yy_shift` (lempar.c:675-678),
`yy_reduce` (722-751), `yy_syntax_error` (971, 1013, 1027), `yy_destructor` for the token (981, 991, 1014, 1030),
`yy_pop_parser_stack` (409-422), and accepting (935-938). -/
def vstep (T : Tables) (code : Nat → List V → V → V) (v : V) (m : Mem V) : Ev → Mem V × VEv V
  | .shift X => ({ m.set (m.top + 1) v with top := m.top + 1 }, .shift X v)
  | .reduce r =>
    let n := (-T.nrhs r).toNat
    let i := m.top + 1 - n
    let xs := (List.range n).map fun k => m.val (i + k)
    let res := code r xs (m.val i)
    ({ m.set i res with top := i }, .reduce r xs res)
  | .syntaxError t => (m, .syntaxError t v)
  | .discard t => (m, .discard t v)
  | .pop X => ({ m with top := m.top - 1 }, .pop X (m.val m.top))
  | .failed => (m, .failed)
  | .accept => ({ m with top := m.top - 1 }, .accept (m.val m.top))
  | .overflow => (m, .overflow)

/-- the values in the events of a call of `Parse`, one after the other -/
def vsteps (T : Tables) (code : Nat → List V → V → V) (v : V) : List Ev → Mem V → Mem V × List (VEv V)
  | [], m => (m, [])
  | e :: evs, m =>
    let x := vstep T code v m e
    let y := vsteps T code v evs x.1
    (y.1, x.2 :: y.2)

/-- One call of `Parse` for the token `t` with value `v`, lempar.c:843-1054. -/
def parseValue (T : Tables) (c : PConf) (code : Nat → List V → V → V) (fuel : Nat) (p : PState) (m : Mem V) (tv : Nat × V) :
    Option (PState × Mem V × List (VEv V)) :=
  (parseToken T c fuel p tv.1).map fun x => (x.1, vsteps T code tv.2 x.2 m)

/-- several calls of `Parse` -/
def parseValues (T : Tables) (c : PConf) (code : Nat → List V → V → V) (fuel : Nat) :
    List (Nat × V) → PState → Mem V → Option (PState × Mem V × List (VEv V))
  | [], p, m => some (p, m, [])
  | tv :: ts, p, m =>
    (parseValue T c code fuel p m tv).bind fun x => (parseValues T c code fuel ts x.1 x.2.1).map fun y => (y.1, y.2.1, x.2.2 ++ y.2.2)

/-- `ParseFinalize` (and `ParseFree`), lempar.c:427-453: what is left on the stack is destroyed -/
def finalizeValues (T : Tables) (code : Nat → List V → V → V) (d : V) (p : PState) (m : Mem V) : List (VEv V) :=
  (vsteps T code d (popAll p.stack).2 m).2

end Verif.Lemon
