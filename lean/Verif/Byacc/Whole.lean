import Verif.Byacc.Front
import Verif.Byacc.Output
/-
byacc/main.c: from the text of a grammar file to the tables.
-/
set_option autoImplicit false
namespace Verif.Byacc

/-- byacc/main.c:964-971, the passes `reader`, `lr0`, `lalr`, `make_parser` and the tables written by `output`.  `lp` is `lemon_prec_flag`
(option `-z`), `per` is `PER_STATE`.  `none`: the file is refused (or outside of the model), or the tables get too large. -/
def makeTables (per : Nat) (lp : Bool) (file text : List Nat) : Option (Rd.FileOut × Generated × Tables) :=
  match Rd.reader lp file text with
  | .error _ => none
  | .ok out =>
    match generate out.gram out.prec lp out.sr out.rr with
    | none => none
    | some o =>
      match outputTables per out.gram out.num.value o with
      | .ok t => some (out, o, t)
      | _ => none

end Verif.Byacc
