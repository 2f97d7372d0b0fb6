import Verif.Lemon.Parse
/-
Specification: what a parser made by lemon does over time.
-/
set_option autoImplicit false
namespace Verif.Lemon

/-- the state after a round -/
def Round.state : Round → PState
  | .next _ p _ => p
  | .stop p _ => p

/-- the events of a round -/
def Round.evs : Round → List Ev
  | .next _ _ evs => evs
  | .stop _ evs => evs

/-- `Trace T c ps evs`: the parser, started and given some tokens, has gone through the states `ps`
(the latest first), with the events `evs`.  (In each round any token is allowed, so there are more
traces than there are runs of the parser.) -/
inductive Trace (T : Tables) (c : PConf) : List PState → List Ev → Prop
  | init : Trace T c [.init] []
  | round {p : PState} {ps : List PState} {evs : List Ev} {t fuel : Nat} {errorhit : Bool} {r : Round} (h : Trace T c (p :: ps) evs)
      (hr : parseRound T c t fuel errorhit p = some r) : Trace T c (r.state :: p :: ps) (evs ++ r.evs)

/-- numbers of the rules reduced by -/
def reductions (evs : List Ev) : List Nat := evs.filterMap fun | .reduce r => some r | _ => none

end Verif.Lemon
