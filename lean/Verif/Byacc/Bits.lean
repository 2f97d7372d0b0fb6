/-
Bit rows of byacc.
-/
namespace Verif.Byacc

/-- `bitword_t` is `size_t`: byacc/defs.h:75-80.  Simplification: a 64-bit
`size_t` is assumed. -/
abbrev Word := BitVec 64

/-- byacc/defs.h:84 `WORDSIZE(n)`. -/
def wordsize (n : Nat) : Nat := (n + (64 - 1)) / 64

/-- Read of word `i` of a row (`r[i]`).  Reads outside the row are given the value
0 by the model; the theorems about rows state the length. -/
def rdw (r : List Word) (i : Nat) : Word := r.getD i 0#64

/-- byacc/defs.h:85 `BIT(r,n)`. -/
def BIT (r : List Word) (n : Nat) : Bool :=
  ((rdw r (n / 64)) >>> (n &&& (64 - 1))) &&& 1#64 != 0#64

/-- byacc/defs.h:86 `SETBIT(r,n)`. -/
def SETBIT (r : List Word) (n : Nat) : List Word :=
  r.set (n / 64) (rdw r (n / 64) ||| (1#64 <<< (n &&& (64 - 1))))

/-- The inner loops `while (rowj < rend) *rowj++ |= *rp++;`
(byacc/warshall.c:35-36, closure.c:102-103, lalr.c:515-516 and 592-593). -/
def orRow (a b : List Word) : List Word := List.zipWith (· ||| ·) a b

/-- A zeroed row of `w` words (`NEW2` calls `allocate`, which clears memory). -/
def zeroRow (w : Nat) : List Word := List.replicate w 0#64

end Verif.Byacc
