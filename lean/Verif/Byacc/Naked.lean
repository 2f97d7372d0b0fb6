import Verif.Byacc.TextFile
/-
The grammar without its actions: byacc/reader.c:4311-4359, 4451-4539 (`byacc -n`).
-/
set_option autoImplicit false
namespace Verif.Byacc
open Rd

/-- What the grammar is printed from, besides the arrays of `FileOut`: `S->prec` and `S->rprec_bucket[0 .. nrules-1]`. -/
structure NakedIn where
  levels : Int
  buckets : List (Option BSym)
deriving DecidableEq, Repr

/-- byacc/reader.c:2135-2140, 2672, 2734-2735, 3597: `rprec_bucket` of a rule, set where `rprec` is set to the precedence of a symbol -/
def bucketAt (syms : List BSym) : RPrec → Option BSym
  | .ofSym n => syms[n]?
  | _ => none

/-- byacc/reader.c:5169-5188 `reader`, as far as it is needed here: the state of the reader at the end, besides the arrays -/
def readerNaked (lp : Bool) (file text : List Nat) : R (FileOut × NakedIn) :=
  if text.contains 0 then .error .outside
  else do
    let s ← readText ((linesOf file text).flatMap Line.text)
    let syms ← checkSymbols s
    .ok (packFile lp s syms (s.d.goal.getD 0), ⟨s.d.prec, none :: none :: none :: s.rd.rprec.reverse.map (bucketAt syms)⟩)

/-- byacc/reader.c:4311-4324: the letter for an associativity -/
def assocChr : Assoc → Nat
  | .LEFT => 76
  | .RIGHT => 82
  | .NONASSOC => 78
  | .PRECEDENCE => 80
  | _ => 85

/-- byacc/reader.c:4311-4324 `print_symbol_prec_assoc_commented` -/
def precComment (prec : Int) (a : Assoc) : List Nat := str " /*" ++ decInt prec ++ [assocChr a] ++ str "*/"

/-- byacc/reader.c:4326-4332 `print_symbol_prec_commented` -/
def symComment (o : FileOut) (k : Nat) : List Nat :=
  if o.prec.prec.getD k 0 ≠ 0 then precComment (o.prec.prec.getD k 0) (o.prec.assoc.getD k .TOKEN) else []

/-- byacc/reader.c:4334-4359 `get_prec_name` -/
def precName : Assoc → Option (List Nat)
  | .LEFT => some (str "left")
  | .RIGHT => some (str "right")
  | .NONASSOC => some (str "nonassoc")
  | .PRECEDENCE => some (str "precedence")
  | _ => none

/-- the name starts with `$` -/
def dollar (n : List Nat) : Bool := n.head? == some 36

/-- byacc/reader.c:4460-4466 -/
def nakedTokens (o : FileOut) : List Nat :=
  (List.range o.num.ntokens).flatMap (fun i =>
    let n := symbolName o i
    if !(dollar n || n == str "error") then str "%token " ++ n ++ [10] else []) ++ [10]

/-- byacc/reader.c:4470-4484: the tokens of a level from number `i` on; `n` of them are left, `sassoc` is whether the keyword was written -/
def nakedLevelFrom (o : FileOut) (k : Int) (sassoc : Bool) (i : Nat) : Nat → List Nat × Bool
  | 0 => ([], sassoc)
  | n + 1 =>
    if o.prec.prec.getD i 0 == k && !dollar (symbolName o i) then
      if sassoc then
        let r := nakedLevelFrom o k true (i + 1) n
        (32 :: symbolName o i ++ r.1, r.2)
      else
        match precName (o.prec.assoc.getD i .TOKEN) with
        | none => nakedLevelFrom o k false (i + 1) n
        | some a =>
          let r := nakedLevelFrom o k true (i + 1) n
          (37 :: a ++ str " /*" ++ decInt k ++ str "*/" ++ 32 :: symbolName o i ++ r.1, r.2)
    else nakedLevelFrom o k sassoc (i + 1) n

/-- byacc/reader.c:4468-4488: one level -/
def nakedLevel (o : FileOut) (k : Int) : List Nat :=
  let r := nakedLevelFrom o k false 0 o.num.ntokens
  r.1 ++ if r.2 then [10] else []

/-- byacc/reader.c:4497-4508: what is written in front of rule `i` -/
def nakedHead (o : FileOut) (i : Nat) : List Nat :=
  let n := symbolName o (o.gram.lhs i)
  if o.gram.lhs i ≠ o.gram.lhs (i - 1) then
    (if i > 3 && !dollar n then str "\t;\n" else []) ++
      (if dollar n then [] else (if i = 2 then str "x_start_rule_" else n) ++ str " :\n\t")
  else str "\t|"

/-- byacc/reader.c:4510-4538: the rest of rule `i`, whose right-hand side is `rhs` -/
def nakedBody (o : FileOut) (x : NakedIn) (i : Nat) (rhs : List Nat) : List Nat :=
  let skip := dollar (symbolName o (o.gram.lhs i))
  (if rhs ≠ [] then rhs.flatMap fun s => if !skip && !dollar (symbolName o s) then 32 :: symbolName o s ++ symComment o s else []
   else if !skip then str " /*empty*/" else []) ++
  if !skip then
    (match x.buckets.getD i none with
     | some b => str " %prec " ++ b.name ++ precComment b.prec b.assoc
     | none => []) ++ [10]
  else []

/-- byacc/reader.c:4492-4538: the `n` rules from rule `i` on; `k` is the place in `ritem` at which they start -/
def nakedRules (o : FileOut) (x : NakedIn) (i k : Nat) : Nat → List Nat
  | 0 => []
  | n + 1 =>
    let rhs := ((o.gram.ritem.drop k).takeWhile (fun y => decide (0 ≤ y))).map Int.toNat
    nakedHead o i ++ nakedBody o x i rhs ++ nakedRules o x (i + 1) (k + rhs.length + 1) n

/-- byacc/reader.c:4451-4539 `print_grammar_naked` -/
def nakedText (o : FileOut) (x : NakedIn) : List Nat :=
  nakedTokens o ++
  (List.range (x.levels.toNat + 1)).flatMap (fun k : Nat => nakedLevel o k) ++
  str "\n%start " ++ (o.syms[o.goal]?.map BSym.name).getD [] ++ [10] ++
  str "\n%%\n\n" ++
  nakedRules o x 2 1 (o.gram.nrules - 2) ++
  str "\t;\n"

end Verif.Byacc
