import Verif.Lemon.Read
import Mathlib.Data.List.Sort
/-
From what the reader leaves to the grammar for which tables are made: `main` (lemon.c:1756-1787) and the first part of
`FindStates` (lemon.c:963-981).
-/
set_option autoImplicit false
namespace Verif.Lemon

/-- `"{default}"`, lemon.c:1764 -/
def defaultName : List Nat := [123, 100, 101, 102, 97, 117, 108, 116, 125]

/-- `"error"`, lemon.c:1761 -/
def errorName : List Nat := [101, 114, 114, 111, 114]

/-- `i1` and `i2` of `Symbolcmpp`, lemon.c:6000-6001 -/
def symClass (y : Sym) : Nat := if y.type = .MULTITERMINAL then 3 else if y.name.headD 0 > 90 then 2 else 1

/-- `Symbolcmpp`, lemon.c:5996-6003: the first symbol is not after the second.  The numbers are the fields `index`. -/
def symLe (a b : Sym × Nat) : Prop := symClass a.1 < symClass b.1 ∨ (symClass a.1 = symClass b.1 ∧ a.2 ≤ b.2)

instance : DecidableRel symLe := fun _ _ => inferInstanceAs (Decidable (_ ∨ _))

/-- lemon.c:1764-1766: the symbols of the table, in the order in which they were made -/
def RState.table (s : RState) : List Sym := (s.symNew defaultName).syms

/-- `lem.symbols` after `qsort`, lemon.c:1767-1768.  Two different symbols have different fields `index` when they are compared, so that the result
does not depend on the method of sorting. -/
def RState.symbols (s : RState) : List Sym := (s.table.zipIdx.insertionSort symLe).map Prod.fst

/-- the field `index` after lemon.c:1769 -/
def RState.index (s : RState) (x : List Nat) : Nat := s.symbols.findIdx fun y => y.name == x

/-- lemon.c:1770: the symbols before the multi-terminals at the end -/
def RState.lowSymbols (s : RState) : List Sym := (s.symbols.reverse.dropWhile fun y => y.type == .MULTITERMINAL).reverse

/-- the assertion, lemon.c:1771 -/
def RState.lastIsDefault (s : RState) : Prop := s.lowSymbols.getLast?.map Sym.name = some defaultName

/-- `lem.nsymbol`, lemon.c:1772 -/
def RState.nsymbol (s : RState) : Nat := s.lowSymbols.length - 1

/-- `lem.nterminal`, lemon.c:1773-1774 -/
def RState.nterminal (s : RState) : Nat := 1 + ((s.symbols.drop 1).takeWhile fun y => isUpper (y.name.headD 0)).length

/-- the terminals of all multi-terminals, by `index`: of those in the table, and of those in the rules.  Lists that are the same are
given once (see `Gram`). -/
def RState.mts (s : RState) : List (List Nat) :=
  ((s.syms.filter fun y => y.type == .MULTITERMINAL).map (fun y => y.subsym.map s.index) ++
    s.rules.flatMap fun r => r.rhs.filterMap fun p => match p.1 with | .alts l => some (l.map s.index) | .sym _ => none).eraseDups

/-- the number that a symbol has in `Gram` -/
def RState.num (s : RState) : RhsRef → Nat
  | .sym x =>
    if (s.sym x).type = .MULTITERMINAL then s.nterminal + s.mts.idxOf ((s.sym x).subsym.map s.index)
    else if s.index x < s.nterminal then s.index x
    else s.index x + s.mts.length
  | .alts l => s.nterminal + s.mts.idxOf (l.map s.index)

/-- the rules as `FindRulePrecedences` finds them.  `rp->code`, lemon.c:1781 -/
def RState.rule (s : RState) (r : RRule) : Rule :=
  { lhs := s.num (.sym r.lhs), rhs := r.rhs.map fun p => s.num p.1, prec := r.precsym.map fun x => s.num (.sym x), code := r.code.isSome }

/-- the start symbol, lemon.c:963-981, and whether the error is reported that there is no symbol with the name given; `none` if
there is no rule ("Empty grammar.", lemon.c:1757-1760, and lemon.c:977) -/
def RState.startName (s : RState) : Option (List Nat × Bool) :=
  s.rules.head?.map fun r =>
    match s.args .startSymbol with
    | none => (r.lhs, false)
    | some x => if s.table.any fun y => y.name == x then (x, false) else (r.lhs, true)

/-- The grammar.  `prec` and `assoc` are the fields of the terminals. -/
def RState.gram (s : RState) : Option Gram :=
  s.startName.map fun S =>
    { nterm := s.nterminal
      mts := s.mts
      nsym := s.nsymbol + s.mts.length
      rules := s.rules.map s.rule
      start := s.num (.sym S.1)
      errsym := (s.find errorName).map fun y => s.num (.sym y.name)
      wildcard := s.wildcard.map fun x => s.num (.sym x)
      prec := fun t => if t < s.nterminal then (s.symbols[t]?.map Sym.prec).getD (-1) else -1
      assoc := fun t => if t < s.nterminal then (s.symbols[t]?.map Sym.assoc).getD .UNK else .UNK
      yaccPrec := s.yaccPrec }

/-- the fallbacks of the terminals, by `index` -/
def RState.fb (s : RState) (t : Nat) : Option Nat :=
  if t < s.nterminal then (s.symbols[t]?.bind Sym.fallback).map s.index else none

end Verif.Lemon
