import Verif.Byacc.Text
import Verif.Byacc.Whole
/-
The text of the generated files: what it depends on, for a given grammar file.
-/
set_option autoImplicit false
namespace Verif.Byacc
open Rd

/-- byacc/reader.c:3767-3769, 3870, 3881, 3896, 3907: `symbol_name[k]` -/
def symbolName (o : FileOut) (k : Nat) : List Nat :=
  if k = 0 then str "$end"
  else if k = o.num.ntokens then str "$accept"
  else (((o.num.index.zip o.syms).find? (fun p => p.1 == k)).map (fun p => p.2.name)).getD []

/-- byacc/reader.c:3875-3887: `max_tok_pval` -/
def maxTok (o : FileOut) : Int := (o.num.value.take o.num.ntokens).foldl (fun m v => if v > m then v else m) 0

/-- byacc/reader.c:3874-3911: `symbol_pval[k]` -/
def symbolPval (o : FileOut) (k : Nat) : Nat :=
  if k < o.num.ntokens then (o.num.value.getD k 0).toNat else ((maxTok o + 1) + (o.num.value.getD k 0 + 1)).toNat

/-- byacc/output.c:1520-1523: a rule as it is read by `output_debug`; the loop also ends at `$end`, which is 0 -/
def printedRule (g : Gram) (i : Nat) : Nat × List Nat :=
  (g.lhs i, ((g.ritem.drop (g.rhs i)).takeWhile (fun x => decide (0 < x))).map Int.toNat)

/-- What the text depends on: the parts that come from the rules and the tables are filled in (`stos`: byacc/output.c:362-368). -/
def TextIn.ofFile (I : TextIn) (o : FileOut) (a : LR0) (t : BTables) : TextIn :=
  { I with
    ntokens := o.num.ntokens
    names := (List.range o.num.nsyms).map (symbolName o)
    values := o.num.value
    pvals := (List.range o.num.nsyms).map (symbolPval o)
    rules := (List.range' 2 (o.gram.nrules - 2)).map (printedRule o.gram)
    stos := a.states.map (fun c => (symbolPval o c.acc : Int))
    t := t }

end Verif.Byacc
