import Verif.Byacc.Skel
/-
Specification: the reads of the tables in one round of the parser of byacc/yaccpar.skel.
-/
set_option autoImplicit false
namespace Verif.Spec.Reads
open Verif.Byacc

/-- the arrays of a generated parser -/
inductive Arr where
  | lhs | len | defred | dgoto | sindex | rindex | gindex | table | check
deriving DecidableEq, Repr

/-- the number of elements of an array -/
def size (t : Tables) : Arr → Nat
  | .lhs => t.lhs.length
  | .len => t.len.length
  | .defred => t.defred.length
  | .dgoto => t.dgoto.length
  | .sindex => t.sindex.length
  | .rindex => t.rindex.length
  | .gindex => t.gindex.length
  | .table => t.table.length
  | .check => t.check.length

/-- an element of an array -/
def cell (t : Tables) : Arr → Nat → Option Int
  | .lhs, i => t.lhs[i]?
  | .len, i => t.len[i]?
  | .defred, i => t.defred[i]?.map Int.ofNat
  | .dgoto, i => t.dgoto[i]?.map Int.ofNat
  | .sindex, i => t.sindex[i]?
  | .rindex, i => t.rindex[i]?
  | .gindex, i => t.gindex[i]?
  | .table, i => t.table[i]?.map Int.ofNat
  | .check, i => t.check[i]?

/-- a read: the array and the index -/
abbrev Read := Arr × Int

/-- The read is inside the array. -/
def Inside (t : Tables) (r : Read) : Prop := 0 ≤ r.2 ∧ r.2 < size t r.1

/-- `((yyn = index[i]) != 0) && (yyn += x) >= 0 && yyn <= YYTABLESIZE && yycheck[yyn] == x`, and `yytable[yyn]` if this holds;
`base` is `index[i]` -/
def probeReads (t : Tables) (index : Arr) (i base x : Int) : List Read :=
  (index, i) ::
    if base ≠ 0 ∧ 0 ≤ base + x ∧ base + x ≤ t.size then
      (.check, base + x) :: if t.check[(base + x).toNat]? = some x then [(.table, base + x)] else []
    else []

/-- the test for a shift of `x` in state `s` (byacc/yaccpar.skel:209-213, 246-249) -/
def shiftReads (t : Tables) (s : Nat) (x : Int) : List Read := probeReads t .sindex s (t.sindex.getD s 0) x

/-- the test for a reduction on `x` in state `s` (byacc/yaccpar.skel:225-229) -/
def reduceReads (t : Tables) (s : Nat) (x : Int) : List Read := probeReads t .rindex s (t.rindex.getD s 0) x

/-- the next state (byacc/yaccpar.skel:333-337) -/
def gotoReads (t : Tables) (s : Nat) (yym : Int) : List Read :=
  probeReads t .gindex yym (t.gindex.getD yym.toNat 0) s ++ if (t.probe (t.gindex.getD yym.toNat 0) s).isSome then [] else [(.dgoto, yym)]

/-- `yyreduce` by rule `r` (byacc/yaccpar.skel:287-337) -/
def ruleReads {V : Type} (P : Driver V) (c : Cfg V) (r : Nat) : List Read :=
  let m := (P.t.len.getD r 0).toNat
  let vs := c.stack.map Prod.snd
  let yym := P.t.lhs.getD r 0
  (.len, (r : Int)) ::
    match P.act r (if m = 0 then P.zero else vs.getD (m - 1) P.zero) vs with
    | .val _ =>
      (.lhs, (r : Int)) ::
        match (c.stack.drop m).head? with
        | none => []
        | some (s, _) => if s = 0 ∧ yym = 0 then [] else gotoReads P.t s yym
    | _ => []

/-- one round of `yyloop`, or of the loop of the error recovery (byacc/yaccpar.skel:194-285) -/
def roundReads {V : Type} (P : Driver V) (c : Cfg V) : List Read :=
  match c.stack with
  | [] => []
  | (s, _) :: _ =>
    if c.recover then shiftReads P.t s P.t.errcode
    else
      (.defred, (s : Int)) ::
        if P.t.defred.getD s 0 ≠ 0 then ruleReads P c (P.t.defred.getD s 0)
        else
          let x := c.read.chr.getD 0
          shiftReads P.t s x ++
            if (P.t.shiftOn s x).isSome then []
            else reduceReads P.t s x ++
              match P.t.reduceOn s x with
              | some r => ruleReads P c.read r
              | none => []

/-- The tables have the same constants, and the same elements where they are read. -/
def Agree (l : List Read) (t t' : Tables) : Prop :=
  t.size = t'.size ∧ t.final = t'.final ∧ t.errcode = t'.errcode ∧ ∀ r ∈ l, cell t r.1 r.2.toNat = cell t' r.1 r.2.toNat

end Verif.Spec.Reads
