import Verif.Byacc.Reader
/-
byacc/reader.c:3750-3929 `pack_symbols`: numbering of the symbols and token codes.
-/
set_option autoImplicit false
namespace Verif.Byacc

/-- A symbol before numbering, in the order of creation (`first_symbol`, `next`): whether its class
is `TERM`, and its `value` (`UNDEFINED` if none was given).  Simplification: `Value_t` is `short`,
here an unbounded integer; names, precedences and tags are left out. -/
structure PSym where
  isTerm : Bool
  value : Int
deriving DecidableEq, Repr

/-- byacc/reader.c:3838-3846: insertion of `n` in the sorted array `symbol_value[0..k-1]`.
The list is that array backwards (first `symbol_value[k-1]`). -/
def insertValue (n : Int) : List Int → List Int
  | x :: xs => if x > n then x :: insertValue n xs else n :: x :: xs
  | [] => [n]

/-- byacc/reader.c:3835-3847: the explicit codes above 256 in increasing order. -/
def explicitCodes (toks : List PSym) : List Int :=
  (toks.foldl (fun acc t => if t.value > 256 then insertValue t.value acc else acc) []).reverse

/-- byacc/reader.c:3862-3863: the inner loop; skips all entries equal to `n`. -/
def dropSame (n : Int) : List Int → List Int
  | x :: xs => if x == n then dropSame n xs else x :: xs
  | [] => []

theorem dropSame_le (n : Int) (l : List Int) : (dropSame n l).length ≤ l.length := by
  induction l with
  | nil => exact Nat.le_refl _
  | cons x xs ih => unfold dropSame; split <;> simp <;> omega

/-- byacc/reader.c:3860-3865: `while (j < k && n == symbol_value[j])`.  The list is
`symbol_value[j..k-1]`. -/
def skipCodes (n : Int) : List Int → Int × List Int
  | x :: xs => if n == x then skipCodes (n + 1) (dropSame n xs) else (n, x :: xs)
  | [] => (n, [])
termination_by l => l.length
decreasing_by have := dropSame_le n xs; simp; omega

/-- byacc/reader.c:3854-3869: the loop over tokens `i = 2 ..`: a token without code gets the next
free one. -/
def assignCodes : List PSym → Int → List Int → List Int
  | [], _, _ => []
  | t :: more, n, sv =>
    if t.value == UNDEFINED then
      let (n, sv) := skipCodes n sv
      n :: assignCodes more (n + 1) sv
    else t.value :: assignCodes more n sv

/-- byacc/reader.c:3849-3869: the codes of tokens `1, 2, ..`; token 1 is `error`. -/
def tokenCodes : List PSym → List Int
  | [] => []
  | e :: more => (if e.value == UNDEFINED then 256 else e.value) :: assignCodes more 257 (explicitCodes (e :: more))

/-- What `pack_symbols` stores. -/
structure Numbering where
  ntokens : Nat
  nsyms : Nat
  /-- `index` of each symbol, in order of creation -/
  index : List Nat
  /-- `symbol_value[]` -/
  value : List Int
deriving DecidableEq, Repr

/-- byacc/reader.c:3795-3821: indices of the symbols from `pos` on.  `i`: next token index,
`k`: next index of a nonterminal other than the goal. -/
def indices (goal goalIndex : Nat) : List PSym → Nat → Nat → Nat → List Nat
  | [], _, _, _ => []
  | s :: more, pos, i, k =>
    if s.isTerm then i :: indices goal goalIndex more (pos + 1) (i + 1) k
    else if pos = goal then goalIndex :: indices goal goalIndex more (pos + 1) i k
    else k :: indices goal goalIndex more (pos + 1) i (k + 1)

/-- byacc/reader.c:3750-3929 `pack_symbols`.  `goal` is the position of the goal symbol.
The values of the nonterminals (lines 3823-3833, 3904-3909) are written at their indices
`start + 1, ..`: goal 0, others 1, 2, .. in order. -/
def packSymbols (syms : List PSym) (goal : Nat) : Numbering :=
  let toks := syms.filter (·.isTerm)
  let nts := syms.filter (fun s => !s.isTerm)
  let ntokens := toks.length + 1
  let nsyms := syms.length + 2
  { ntokens := ntokens
    nsyms := nsyms
    index := indices goal (ntokens + 1) syms 0 1 (ntokens + 2)
    value := 0 :: tokenCodes toks ++ -1 :: (List.range nts.length).map fun (k : Nat) => (k : Int) }

end Verif.Byacc
