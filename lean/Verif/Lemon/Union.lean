import Verif.Lemon.Number
/-
The union for the values of symbols: `print_stack_union` (lemon.c:4461-4574).
-/
set_option autoImplicit false
namespace Verif.Lemon

/-- the loops of lemon.c:4522-4525: the text without white space at its ends -/
def stdType (t : List Nat) : List Nat := ((t.dropWhile isSpace).reverse.dropWhile isSpace).reverse

/-- `hash = hash*53 + stddt[j]`, lemon.c:4530-4533: 32 bits, and `char` is signed -/
def typeHash (t : List Nat) : Nat :=
  t.foldl (fun h c => (h * 53 + (if c < 128 then c else 4294967040 + c)) % 4294967296) 0

/-- the loop of lemon.c:4535-4542, which ends at the first slot that is free or has the type.  The first argument is fuel, as many
steps as there are slots are enough. -/
def probeType (types : List (Option (List Nat))) (t : List Nat) : Nat → Nat → Nat
  | 0, h => h
  | f + 1, h =>
    match types.getD h none with
    | none => h
    | some u => if u = t then h else probeType types t f (if h + 1 ≥ types.length then 0 else h + 1)

/-- one step of the loop lemon.c:4508-4552 for the symbol `sp`: the new `types`, and `dtnum` -/
def unionStep (s : RState) (types : List (Option (List Nat))) (sp : Sym) : List (Option (List Nat)) × Nat :=
  if sp.name = errorName then (types, types.length + 1)
  else if sp.type ≠ .NONTERMINAL then (types, 0)
  else
    match sp.datatype.or (s.args .defaultType) with
    | none => (types, 0)
    | some t =>
      if s.args .tokenType = some (stdType t) then (types, 0)
      else
        let h := probeType types (stdType t) types.length ((typeHash (stdType t) % 2147483648) % types.length)
        (if (types.getD h none).isNone then types.set h (some (stdType t)) else types, h + 1)

/-- the loop of lemon.c:4508-4552: `types`, and the fields `dtnum` of the symbols -/
def unionLoop (s : RState) : List Sym → List (Option (List Nat)) → List (Option (List Nat)) × List Nat
  | [], types => (types, [])
  | sp :: l, types => let p := unionStep s types sp; let q := unionLoop s l p.1; (q.1, p.2 :: q.2)

/-- the symbols `symbols[0]` … `symbols[nsymbol-1]` -/
def RState.realSymbols (s : RState) : List Sym := s.symbols.take s.nsymbol

/-- `print_stack_union` up to lemon.c:4552; `arraysize` is twice the number of symbols -/
def RState.union (s : RState) : List (Option (List Nat)) × List Nat :=
  unionLoop s s.realSymbols (List.replicate (s.nsymbol * 2) none)

/-- the field `dtnum` of a symbol of the table.  It is 0 for multi-terminals, which are not among the symbols of the loop. -/
def RState.dtnum (s : RState) (x : List Nat) : Nat := s.union.2.getD (s.realSymbols.findIdx fun y => y.name == x) 0

/-- the fields of the union that are printed, with types, lemon.c:4561-4571: `int yyinit` is left out; `none` is the type of
tokens.  (`useCnt` of the error symbol is not 0.) -/
def RState.fields (s : RState) : List (Nat × Option (List Nat)) :=
  (0, none) :: (s.union.1.zipIdx.filterMap fun p => p.1.map fun t => (p.2 + 1, some t)) ++
    if (s.find errorName).isSome then [(s.dtnum errorName, some [105, 110, 116])] else []

end Verif.Lemon
