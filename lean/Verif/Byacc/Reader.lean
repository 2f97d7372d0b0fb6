/-
byacc/reader.c: the part that stores the grammar in the arrays used by the table
construction.
-/
namespace Verif.Byacc

/-- byacc/defs.h:129-137: associativity classes of `%token`, `%left`, ... -/
inductive Assoc
  | TOKEN | LEFT | RIGHT | NONASSOC | PRECEDENCE
deriving DecidableEq, Repr

/-- byacc/defs.h:180 -/
def UNDEFINED : Int := -1

/-- A grammar symbol (`struct bucket`, byacc/defs.h:233-256).  Only the fields used
after reading: final index, whether `class == TERM`, precedence (0 = none) and
associativity. -/
structure Bucket where
  index : Nat
  isTerm : Bool
  prec : Int
  assoc : Assoc
deriving DecidableEq, Repr

/-- Result of the inner loop of `pack_grammar`. -/
structure RhsOut where
  items : List Int
  prec : Int
  assoc : Assoc
  rest : List (Option Bucket)

/-- byacc/reader.c:3989-4003, the loop `while (pitem[j])`: copies the symbol indices
of one rule and determines `prec2`/`assoc`.  `none` is the NULL pointer ending a rule.
`lp` is `lemon_prec_flag`.  The list is the rest of `pitem` from position `j`. -/
def packRhs (lp : Bool) : List (Option Bucket) → Int → Assoc → RhsOut
  | some b :: rest, prec2, assoc =>
    let (prec2, assoc) :=
      if b.isTerm then
        if prec2 == 0 || !lp then (b.prec, b.assoc) else (prec2, assoc)
      else (prec2, assoc)
    let o := packRhs lp rest prec2 assoc
    { o with items := (b.index : Int) :: o.items }
  | none :: rest, prec2, assoc => ⟨[], prec2, assoc, rest⟩
  | [], prec2, assoc => ⟨[], prec2, assoc, []⟩

/-- A rule as kept while reading: left side `plhs[i]`, and `rprec[i]`, `rassoc[i]`
(`UNDEFINED` without `%prec`). -/
structure PRule where
  lhs : Bucket
  rprec : Int
  rassoc : Assoc

/-- The arrays produced by `pack_grammar`. -/
structure PackOut where
  ritem : List Int
  rlhs : List Nat
  rrhs : List Nat
  rprec : List Int
  rassoc : List Assoc

/-- byacc/reader.c:3965-4011, the loop over user rules `i = 3 ..`, writing the arrays
from position `i` (`j` for `ritem`) on, and finally `rrhs[i] = j`. -/
def packRules (lp : Bool) : Nat → Nat → List PRule → List (Option Bucket) → PackOut
  | _, j, [], _ => ⟨[], [], [j], [], []⟩
  | i, j, p :: more, pitem =>
    let rhs := packRhs lp pitem 0 .TOKEN
    let o := packRules lp (i+1) (j + rhs.items.length + 1) more rhs.rest
    { ritem := rhs.items ++ (-(i : Int)) :: o.ritem
      rlhs := p.lhs.index :: o.rlhs
      rrhs := j :: o.rrhs
      rprec := (if p.rprec == UNDEFINED then rhs.prec else p.rprec) :: o.rprec
      rassoc := (if p.rprec == UNDEFINED then rhs.assoc else p.rassoc) :: o.rassoc }

/-- The grammar as seen by the table construction (fields of `byacc_t`). -/
structure Gram where
  ntokens : Nat
  nsyms : Nat
  ritem : List Int
  rlhs : List Nat
  rrhs : List Nat
  rprec : List Int
  rassoc : List Assoc
deriving DecidableEq, Repr

namespace Gram
/-- `nrules` (length of `rlhs`) -/
def nrules (g : Gram) : Nat := g.rlhs.length
/-- `nitems` (length of `ritem`) -/
def nitems (g : Gram) : Nat := g.ritem.length
/-- `start_symbol == ntokens`, byacc/reader.c:3769 -/
def start (g : Gram) : Nat := g.ntokens
/-- `nvars`, byacc/reader.c:3770 -/
def nvars (g : Gram) : Nat := g.nsyms - g.ntokens
/-- `ritem[j]` -/
def item (g : Gram) (j : Nat) : Int := g.ritem.getD j 0
/-- `rlhs[i]` -/
def lhs (g : Gram) (i : Nat) : Nat := g.rlhs.getD i 0
/-- `rrhs[i]` -/
def rhs (g : Gram) (i : Nat) : Nat := g.rrhs.getD i 0
end Gram

/-- byacc/reader.c:3932-4018 `pack_grammar`.  `pitem` starts with the four NULL entries
set by `initialize_grammar` (byacc/reader.c:2105-2108). The goal's index is
`start_symbol + 1` (byacc/reader.c:3816). -/
def packGrammar (lp : Bool) (ntokens nsyms : Nat) (rules : List PRule)
    (pitem : List (Option Bucket)) : Gram :=
  let o := packRules lp 3 4 rules (pitem.drop 4)
  { ntokens := ntokens
    nsyms := nsyms
    ritem := [-1, ((ntokens + 1 : Nat) : Int), 0, -2] ++ o.ritem
    rlhs := [0, 0, ntokens] ++ o.rlhs
    rrhs := [0, 0, 1] ++ o.rrhs
    rprec := [0, 0, 0] ++ o.rprec
    rassoc := [.TOKEN, .TOKEN, .TOKEN] ++ o.rassoc }

end Verif.Byacc

namespace Verif.Byacc

/-- byacc/reader.c:1733-1744: effect of naming symbol `b` in a `%token`/`%left`/...
declaration at precedence level `prec`; `ignore` is `ignore_prec_flag`.
Simplification: tag and value handling are left out. -/
def declareToken (ignore : Bool) (assoc : Assoc) (prec : Int) (b : Bucket) : Bucket :=
  let b := { b with isTerm := true }
  if assoc ≠ .TOKEN && !ignore then { b with assoc := assoc, prec := prec } else b

/-- byacc/reader.c:3591-3598: effect of `%prec b` on the rule being read. -/
def markPrec (ignore : Bool) (b : Bucket) (r : PRule) : PRule :=
  if !ignore then { r with rprec := b.prec, rassoc := b.assoc } else r

/-- byacc/reader.c:1696-1763 `declare_tokens`: one declaration naming the symbols at positions
`names` of `syms`.  The first component is `S->prec`, raised by one first unless it is a `%token`
declaration. -/
def declareTokens (ignore : Bool) (assoc : Assoc) (names : List Nat) (st : Int × List Bucket) :
    Int × List Bucket :=
  let prec := if assoc ≠ .TOKEN then st.1 + 1 else st.1
  (prec, names.foldl (fun syms s => syms.modify s (declareToken ignore assoc prec)) st.2)

/-- All token and precedence declarations of a grammar in order; `S->prec` starts at 0. -/
def declareAll (ignore : Bool) (decls : List (Assoc × List Nat)) (syms : List Bucket) : Int × List Bucket :=
  decls.foldl (fun st d => declareTokens ignore d.1 d.2 st) (0, syms)

end Verif.Byacc
