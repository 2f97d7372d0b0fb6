import Verif.Lemon.Grammar
import Verif.Lemon.Count
/-
Specification: how lemon settles several actions competing for one symbol in one state.
-/
set_option autoImplicit false
namespace Verif.Lemon

/-- One of the actions competing for a symbol: shift to a state, reduce by a rule, accept. -/
inductive Cand
  | shift (q : Nat)
  | reduce (r : Nat)
  | accept
  deriving DecidableEq, Repr

/-- Outcome of comparing two competitors.  `neither`: a tie on a token that is not associative;
`abort`: lemon cannot deal with the pair. -/
inductive Duel
  | first | second | conflict | neither | abort
  deriving DecidableEq, Repr

/-- the precedence of a symbol, if it has one -/
def Gram.precOf (g : Gram) (X : Nat) : Option Int := if g.prec X < 0 then none else some (g.prec X)

/-- The precedence table.  `pt`, `a`: precedence and associativity of the token; `pr` etc.: of
the rules.  Without both precedences there is a conflict; else the higher precedence wins; a
shift/reduce tie is decided by the associativity, a reduce/reduce tie is a conflict.  Two shifts
are a conflict (possible only with multi-terminals). -/
def duel (prec : Option Int) (assoc : Assoc) (rulePrec : Nat → Option Int) : Cand → Cand → Duel
  | .shift _, .shift _ => .conflict
  | .shift _, .reduce r =>
    match prec, rulePrec r with
    | some p, some q =>
      if q < p then .first
      else if p < q then .second
      else match assoc with
        | .RIGHT => .first
        | .LEFT => .second
        | .NONE | .PRECEDENCE => .neither
        | .UNK => .abort
    | _, _ => .conflict
  | .reduce r, .reduce r' =>
    match rulePrec r, rulePrec r' with
    | some p, some q => if q < p then .first else if p < q then .second else .conflict
    | _, _ => .conflict
  | _, _ => .abort

/-- What remains: one action, or a shift and a reduction that tie on a non-associative token. -/
inductive Outcome
  | one (c : Cand)
  | tie (c d : Cand)
  deriving DecidableEq, Repr

/-- how a conflict counts -/
def conflictCount : Cand → Cand → Count
  | .shift _, .reduce _ => ⟨1, 1, 0⟩
  | .reduce _, .reduce _ => ⟨1, 0, 1⟩
  | _, _ => ⟨1, 0, 0⟩

/-- The competitors are compared from left to right, the winner so far with the next one; in a
conflict the winner so far is kept.  `none`: lemon cannot deal with the competitors. -/
def settle (d : Cand → Cand → Duel) : Cand → List Cand → Option (Outcome × Count)
  | c, [] => some (.one c, .zero)
  | c, e :: es =>
    match d c e with
    | .first => settle d c es
    | .second => settle d e es
    | .conflict => (settle d c es).map fun r => (r.1, (conflictCount c e).add r.2)
    | .neither => if es = [] then some (.tie c e, .zero) else none
    | .abort => none

end Verif.Lemon
