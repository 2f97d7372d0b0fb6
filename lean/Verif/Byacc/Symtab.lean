/-
byacc/symtab.c: the symbol table.  Names are lists of character codes without the final NUL.
-/
set_option autoImplicit false
namespace Verif.Byacc

/-- byacc/symtab.c:10-23 `hash`.  `none`: the assertion `name && *name` fails.  Characters are
taken as non-negative (ASCII); `& (TABLE_SIZE - 1)` is the remainder by 1024.  The first character
is not reduced. -/
def symHash : List Nat → Option Nat
  | [] => none
  | c :: s => some (s.foldl (fun k c => (31 * k + c) % 1024) c)

/-- The table: `chains[h]` is the chain starting at `fs7_symbol_table[h]` (through `link`), as
numbers of buckets; `names` are the names of the buckets in the order of creation (through
`next`). -/
structure SymTab where
  chains : List (List Nat)
  names : List (List Nat)
deriving DecidableEq, Repr

/-- byacc/symtab.c:81-101 `create_symbol_table` -/
def symCreate : SymTab :=
  let error := [101, 114, 114, 111, 114]
  ⟨(List.replicate 1024 []).set ((symHash error).getD 0) [0], [error]⟩

/-- byacc/symtab.c:57-78 `lookup`: the bucket for `name` and the table.  A new bucket is put at the
end of its chain and at the end of the list of symbols.  `none`: assertion failure. -/
def symLookup (t : SymTab) (name : List Nat) : Option (Nat × SymTab) := do
  let h ← symHash name
  match (t.chains.getD h []).find? (fun i => t.names[i]? == some name) with
  | some i => some (i, t)
  | none =>
    let i := t.names.length
    some (i, ⟨t.chains.modify h (· ++ [i]), t.names ++ [name]⟩)

/-- A sequence of lookups, as done while reading a grammar. -/
def symLookups : SymTab → List (List Nat) → Option (List Nat × SymTab)
  | t, [] => some ([], t)
  | t, n :: ns => do
    let (i, t) ← symLookup t n
    let (is, t) ← symLookups t ns
    some (i :: is, t)

end Verif.Byacc
