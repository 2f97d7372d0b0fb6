import Verif.Byacc.Skel
/-
What a parse did, read off its log of events (the latest first).
-/
set_option autoImplicit false
namespace Verif.Byacc

variable {V : Type}

/-- The tokens before the end of the input (`yylex` returning 0 or less). -/
def tokensOf (input : List (Int × V)) : List (Int × V) := input.takeWhile (fun p => decide (0 < p.1))

/-- The rules reduced by, latest first. -/
def reductions (log : List Ev) : List Nat := log.filterMap fun | .reduce r => some r | _ => none

/-- The codes shifted, latest first. -/
def shifts (log : List Ev) : List Int := log.filterMap fun | .shift x => some x | _ => none

/-- The configuration in a result. -/
def Res.cfg : Res V → Cfg V
  | .next c => c
  | .done _ c => c

/-- tokens shifted -/
def nShift (log : List Ev) : Nat := log.countP fun | .shift _ => true | _ => false
/-- tokens other than the end of the input shifted -/
def nTok (log : List Ev) : Nat := log.countP fun | .shift x => x != 0 | _ => false
/-- tokens discarded -/
def nDiscard (log : List Ev) : Nat := log.countP fun | .discard _ => true | _ => false
/-- error tokens shifted -/
def nErrShift (log : List Ev) : Nat := log.countP fun | .errShift => true | _ => false
/-- states popped -/
def nPop (log : List Ev) : Nat := log.countP fun | .pop => true | _ => false
/-- reductions -/
def nReduce (log : List Ev) : Nat := log.countP fun | .reduce _ => true | _ => false

end Verif.Byacc
