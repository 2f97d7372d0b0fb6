import Verif.Byacc.Naked
import Verif.Byacc.Graph
/-
The list of rules at the beginning of the report (`-v`), byacc/reader.c:4020-4063, and the list of symbols at its end, byacc/verbose.c:41-60.
-/
set_option autoImplicit false
namespace Verif.Byacc
open Rd

/-- byacc/reader.c:4034-4049: what is written in front of the symbols of rule `i`; `spacing` is the number of blanks in front of `|` -/
def listHead (o : FileOut) (i spacing : Nat) : List Nat × Nat :=
  if o.gram.lhs i ≠ o.gram.lhs (i - 1) then
    ((if i ≠ 2 then [10] else []) ++ padLeft 4 (decDigits (i - 2)) ++ str "  " ++ symbolName o (o.gram.lhs i) ++ str " :",
      (symbolName o (o.gram.lhs i)).length + 1)
  else (padLeft 4 (decDigits (i - 2)) ++ str "  " ++ List.replicate spacing 32 ++ [124], spacing)

/-- byacc/reader.c:4051-4061: the symbols of rule `i`, its `%prec` and the end of the line -/
def listBody (o : FileOut) (x : NakedIn) (i : Nat) (rhs : List Nat) : List Nat :=
  rhs.flatMap (fun s => 32 :: symbolName o s) ++
    (match x.buckets.getD i none with
     | some b => str " %prec " ++ b.name
     | none => []) ++ [10]

/-- byacc/reader.c:4032-4062: the `n` rules from rule `i` on; `k` is the place in `ritem` at which they start -/
def listRules (o : FileOut) (x : NakedIn) (i k spacing : Nat) : Nat → List Nat
  | 0 => []
  | n + 1 =>
    let rhs := ((o.gram.ritem.drop k).takeWhile (fun y => decide (0 ≤ y))).map Int.toNat
    (listHead o i spacing).1 ++ listBody o x i rhs ++ listRules o x (i + 1) (k + rhs.length + 1) (listHead o i spacing).2 n

/-- byacc/reader.c:4022-4063 `print_grammar`, with `-v` -/
def ruleList (o : FileOut) (x : NakedIn) : List Nat := listRules o x 2 1 0 (o.gram.nrules - 2)

/-- byacc/verbose.c:51-52, 57-58: a line about a symbol; `v` is the number it has in the parser -/
def symbolLine (o : FileOut) (i : Nat) (v : Int) : List Nat :=
  [32] ++ padLeft 5 (decDigits i) ++ str "  " ++ padLeft 5 (decInt v) ++ str "  " ++ symbolName o i ++ [10]

/-- byacc/verbose.c:41-60: the list of the symbols -/
def symbolList (o : FileOut) : List Nat :=
  str "\ngrammar parser grammar\n" ++ str "symbol# value# symbol\n" ++
  (List.range o.num.ntokens).flatMap (fun i => symbolLine o i (o.num.value.getD i 0)) ++
  (List.range' o.num.ntokens (o.num.nsyms - o.num.ntokens)).flatMap (fun i => symbolLine o i ((maxTok o + 1) + o.num.value.getD i 0 + 1))

end Verif.Byacc
