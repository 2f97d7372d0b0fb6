import Verif.Byacc.Bits
import Verif.Proofs.Loop
/-
byacc/warshall.c
-/
namespace Verif.Byacc

/-- Row `i` of a bit matrix (`R + i * rowsize`). -/
def row (R : List (List Word)) (i : Nat) : List Word := R.getD i []

/-- Loop over `rowj`, byacc/warshall.c:24-45: every row whose bit in the current
column (`*ccol & (ONE_AS_BITWORD << i)`, word `cword`, bit `i`) is set is or-ed in
place with row `k` (`rowi`).
Simplification: the flat array is a list of rows, pointers are row numbers. -/
def warshallInner (n k cword i : Nat) (R : List (List Word)) : List (List Word) :=
  loop n (fun R j =>
    if rdw (row R j) cword &&& (1#64 <<< i) != 0#64 then
      R.set j (orRow (row R j) (row R k))
    else R) R

/-- `if (++i >= BITS_PER_WORD) { i = 0; cword++; }` byacc/warshall.c:47-51 -/
def bumpCol (c : Nat × Nat) : Nat × Nat :=
  if c.2 + 1 ≥ 64 then (c.1 + 1, 0) else (c.1, c.2 + 1)

/-- byacc/warshall.c:5-55 `transitive_closure`. The loop state is the matrix and
the column cursor `(cword - R, i)`. -/
def transitiveClosure (R : List (List Word)) (n : Nat) : List (List Word) :=
  (loop n (fun (s : List (List Word) × (Nat × Nat)) k =>
    (warshallInner n k s.2.1 s.2.2 s.1, bumpCol s.2)) (R, (0, 0))).1

/-- byacc/warshall.c:57-82 `reflexive_transitive_closure`. -/
def reflexiveTransitiveClosure (R : List (List Word)) (n : Nat) : List (List Word) :=
  (loop n (fun (s : List (List Word) × (Nat × Nat)) k =>
    (s.1.set k ((row s.1 k).set s.2.1 (rdw (row s.1 k) s.2.1 ||| (1#64 <<< s.2.2))),
     bumpCol s.2)) (transitiveClosure R n, (0, 0))).1

end Verif.Byacc
