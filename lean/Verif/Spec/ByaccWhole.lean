import Verif.Spec.OutDefs
/-
Specification: the parser that is in a file made by byacc.
-/
set_option autoImplicit false
namespace Verif.Spec.OutText
open Verif.Byacc
open Spec.YText

/-- The tables and constants `t` of a parser are in the text: the arrays in `tabs`, the constants in `code`.  (The code of the error token is with those of
the other tokens.) -/
structure HasTables (tabs code : List Nat) (static : Bool) (pfx : List Nat) (t : Tables) : Prop where
  lhs : HasArray tabs static (pfx ++ txt "lhs") [] [] t.lhs
  len : HasArray tabs static (pfx ++ txt "len") [] [] t.len
  defred : HasArray tabs static (pfx ++ txt "defred") [] [] (t.defred.map Int.ofNat)
  dgoto : HasArray tabs static (pfx ++ txt "dgoto") [] [] (t.dgoto.map Int.ofNat)
  sindex : HasArray tabs static (pfx ++ txt "sindex") [] [] t.sindex
  rindex : HasArray tabs static (pfx ++ txt "rindex") [] [] t.rindex
  gindex : HasArray tabs static (pfx ++ txt "gindex") [] [] t.gindex
  table : HasArray tabs static (pfx ++ txt "table") [] [] (t.table.map Int.ofNat)
  check : HasArray tabs static (pfx ++ txt "check") [] [] t.check
  size : HasDefine code (txt "YYTABLESIZE") t.size
  final : HasDefine code (txt "YYFINAL") t.final

end Verif.Spec.OutText
