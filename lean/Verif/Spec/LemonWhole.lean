import Verif.Spec.LemonTextRead
/-
Specification: the parser that is in a C file made by lemon.
-/
set_option autoImplicit false
namespace Verif.Spec.LText
open Verif.Lemon
open Verif.Spec.GFile (text)

/-- numbers as entries of an array -/
def ints (l : List Nat) : List Entry := l.map fun n : Nat => .int n

/-- The text `t` has the tables and constants `T` of a parser.  Tables of which only the entries are printed are found by their place in the template. -/
structure HasTables (I : LText) (ls : List (List Nat)) (t : List Nat) (T : Tables) : Prop where
  nsymbol : HasDefine t (text "YYNOCODE") T.nsymbol
  nterm : HasDefine t (text "YYNTOKEN") T.nterm
  nstate : HasDefine t (text "YYNSTATE") T.nx
  maxShift : HasDefine t (text "YY_MAX_SHIFT") (T.nx - 1)
  nrule : HasDefine t (text "YYNRULE") T.nrule
  minShiftReduce : HasDefine t (text "YY_MIN_SHIFTREDUCE") T.minShiftReduce
  maxShiftReduce : HasDefine t (text "YY_MAX_SHIFTREDUCE") (T.minShiftReduce + T.nrule - 1)
  errAction : HasDefine t (text "YY_ERROR_ACTION") T.errAction
  accAction : HasDefine t (text "YY_ACCEPT_ACTION") T.accAction
  noAction : HasDefine t (text "YY_NO_ACTION") T.noAction
  minReduce : HasDefine t (text "YY_MIN_REDUCE") T.minReduce
  maxReduce : HasDefine t (text "YY_MAX_REDUCE") (T.minReduce + T.nrule - 1)
  acttabCount : HasDefine t (text "YY_ACTTAB_COUNT") T.action.length
  shiftCount : HasDefine t (text "YY_SHIFT_COUNT") (T.shiftOfst.length - 1)
  reduceCount : HasDefine t (text "YY_REDUCE_COUNT") (T.reduceOfst.length - 1)
  shiftMin : HasDefine t (text "YY_SHIFT_MIN") T.shiftMin
  reduceMin : HasDefine t (text "YY_REDUCE_MIN") T.reduceMin
  reduceMax : HasDefine t (text "YY_REDUCE_MAX") T.reduceMax
  wildcard : ∀ W, T.wildcard = some W → HasDefine t (text "YYWILDCARD") W
  errsym : ∀ E, T.errsym = some E → HasDefine t (text "YYERRORSYMBOL") E
  action : HasArray t (text "YYACTIONTYPE") "yy_action" (ints T.action)
  lookahead : HasArray t (text "YYCODETYPE") "yy_lookahead" (ints T.lookahead)
  shiftOfst : HasArray t (cType T.shiftType) "yy_shift_ofst" (T.shiftOfst.map .int)
  reduceOfst : HasArray t (cType T.reduceType) "yy_reduce_ofst" (T.reduceOfst.map .int)
  dflt : HasArray t (text "YYACTIONTYPE") "yy_default" (ints T.dflt)
  /-- either there is a table of fallbacks, or no token has one -/
  fallback : ∃ p, Between I ls 4 t p ∧ ((readArray p = some (ints T.fallback) ∧ HasDefine t (text "YYFALLBACK") 1) ∨ (p = [] ∧ ∀ v ∈ T.fallback, v = 0))
  ruleLhs : ∃ p, Between I ls 9 t p ∧ readArray p = some (ints T.ruleLhs)
  ruleNRhs : ∃ p, Between I ls 10 t p ∧ readArray p = some (T.ruleNRhs.map fun n : Nat => .int (-(n : Int)))

end Verif.Spec.LText
