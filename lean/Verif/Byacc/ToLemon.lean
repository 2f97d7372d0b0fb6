import Verif.Byacc.Naked
import Verif.Byacc.Names
/-
The grammar in the form of lemon's grammar files: byacc/reader.c:4361-4448 (`print_grammar_lemon`).
-/
set_option autoImplicit false
namespace Verif.Byacc
open Rd

/-- What is written by one call after the other.  A piece is `none` if the call reads outside of an array (byacc/reader.c:4244-4309). -/
def written : List (Option (List Nat)) → Option (List Nat)
  | [] => some []
  | p :: ps => p.bind fun a => (written ps).map fun b => a ++ b

/-- byacc/reader.c:4371-4377: the declarations of the tokens -/
def lemonTokens (o : FileOut) : List (Option (List Nat)) :=
  ((List.range o.num.ntokens).flatMap fun i =>
    let n := symbolName o i
    if !(dollar n || n == str "error") then
      if n.head? != some 34 then [some (str "%token "), lemonTokenName n, some (str " .\n")] else []
    else []) ++ [some [10]]

/-- byacc/reader.c:4382-4396: the tokens of level `k` from number `i` on; `n` of them are left, `sassoc` is whether the keyword was written -/
def lemonLevelFrom (o : FileOut) (k : Int) (sassoc : Bool) (i : Nat) : Nat → List (Option (List Nat)) × Bool
  | 0 => ([], sassoc)
  | n + 1 =>
    if o.prec.prec.getD i 0 == k && !dollar (symbolName o i) then
      if sassoc then
        let r := lemonLevelFrom o k true (i + 1) n
        (some [32] :: lemonTokenName (symbolName o i) :: r.1, r.2)
      else
        match precName (o.prec.assoc.getD i .TOKEN) with
        | none => lemonLevelFrom o k false (i + 1) n
        | some a =>
          let r := lemonLevelFrom o k true (i + 1) n
          (some (37 :: a ++ str " /*" ++ decInt k ++ str "*/") :: some [32] :: lemonTokenName (symbolName o i) :: r.1, r.2)
    else lemonLevelFrom o k sassoc (i + 1) n

/-- byacc/reader.c:4380-4400: one level -/
def lemonLevel (o : FileOut) (k : Int) : List (Option (List Nat)) :=
  let r := lemonLevelFrom o k false 0 o.num.ntokens
  r.1 ++ if r.2 then [some (str " .\n")] else []

/-- byacc/reader.c:4406-4412: what is written in front of rule `i` -/
def lemonHead (o : FileOut) (i : Nat) : List (Option (List Nat)) :=
  let n := symbolName o (o.gram.lhs i)
  (if o.gram.lhs i ≠ o.gram.lhs (i - 1) then [some [10]] else []) ++
    (if dollar n then [] else [if i = 2 then some (str "x_start_rule_") else lemonRuleName n, some (str " ::=")])

/-- byacc/reader.c:4425, `lookup`: the class of the symbol with a given name.  (The search in the hash table is a search for the name.) -/
def isTermName (o : FileOut) (n : List Nat) : Bool := (o.syms.find? fun b => b.name == n).any fun b => b.cls == .TERM

/-- byacc/reader.c:4420-4432: a symbol of a right-hand side -/
def lemonSym (o : FileOut) (s : Nat) : List (Option (List Nat)) :=
  let n := symbolName o s
  if isTermName o n then [some [32], lemonTokenName n, some (symComment o s)] else [some [32], lemonRuleName n]

/-- byacc/reader.c:4414-4446: the rest of rule `i`, whose right-hand side is `rhs` -/
def lemonBody (o : FileOut) (x : NakedIn) (i : Nat) (rhs : List Nat) : List (Option (List Nat)) :=
  let skip := dollar (symbolName o (o.gram.lhs i))
  (if rhs = [] then (if !skip then [some (str " /*empty*/")] else [])
   else rhs.flatMap fun s => if !skip && !dollar (symbolName o s) then lemonSym o s else []) ++
  if !skip then
    match x.buckets.getD i none with
    | some b => [some (str " . ["), lemonTokenName b.name, some (str "]"), some (precComment b.prec b.assoc), some [10]]
    | none => [some (str " .\n")]
  else []

/-- byacc/reader.c:4403-4446: the `n` rules from rule `i` on; `k` is the place in `ritem` at which they start -/
def lemonRules (o : FileOut) (x : NakedIn) (i k : Nat) : Nat → List (Option (List Nat))
  | 0 => []
  | n + 1 =>
    let rhs := ((o.gram.ritem.drop k).takeWhile (fun y => decide (0 ≤ y))).map Int.toNat
    lemonHead o i ++ lemonBody o x i rhs ++ lemonRules o x (i + 1) (k + rhs.length + 1) n

/-- byacc/reader.c:4361-4448 `print_grammar_lemon` -/
def lemonText (o : FileOut) (x : NakedIn) : Option (List Nat) := written (
  lemonTokens o ++
  (List.range (x.levels.toNat + 1)).flatMap (fun k : Nat => lemonLevel o k) ++
  [some (str "\n%start_symbol "), lemonRuleName ((o.syms[o.goal]?.map BSym.name).getD []), some [10]] ++
  lemonRules o x 2 1 (o.gram.nrules - 2))

end Verif.Byacc
