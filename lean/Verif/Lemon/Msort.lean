/-
Model of the two list sorts of lemon.c: `msort` (used for configurations and actions) and
`Rule_sort` (used for rules).  Both keep an array of lists ("bins"); a linked list is modelled
by a `List`, the null pointer by `[]`.  Relinking `next` pointers in place is modelled by
building a new list.
-/
set_option autoImplicit false
namespace Verif.Lemon

variable {α : Type}

/-- Auxiliary to `merge` and `ruleMerge`: merging a list with head `x` whose tail is merged by
`rest`; `lt x y` tells whether `x` goes before `y`.  (Written this way to be a structural
recursion.) -/
def mergeInto (lt : α → α → Bool) (x : α) (rest : List α → List α) : List α → List α
  | [] => x :: rest []
  | y :: b => if lt x y then x :: rest (y :: b) else y :: mergeInto lt x rest b

/-- lemon.c:1935-1969 `merge`: the elements of both lists, always the smaller head first, the
head of `a` when the comparison gives 0. -/
def merge (cmp : α → α → Int) : List α → List α → List α
  | [], b => b
  | x :: a, b => mergeInto (fun x y => cmp x y ≤ 0) x (merge cmp a) b

/-- lemon.c:1998-2002 and 1648-1652: `ep` is merged with the bins from the first on until an
empty bin is found, which receives the result.  The last bin is never merged with: it receives
the result whatever it holds. -/
def carry (m : List α → List α → List α) (ep : List α) : List (List α) → List (List α)
  | [] => []
  | [_] => [ep]
  | b :: c :: bs =>
    match b with
    | [] => ep :: c :: bs
    | _ :: _ => [] :: carry m (m ep b) (c :: bs)

/-- `LISTSIZE`, lemon.c:1984 -/
def listSize : Nat := 30

/-- lemon.c:1994-2003: distribution of the list over the bins; final loop 2004-2005. -/
def msortBins (cmp : α → α → Int) (n : Nat) (list : List α) : List (List α) :=
  list.foldl (fun set e => carry (fun ep b => merge cmp ep b) [e] set) (List.replicate n [])

/-- lemon.c:2005: one step of the final loop, `if( set[i] ) ep = merge(set[i],ep,cmp,offset)` -/
def msortJoin (cmp : α → α → Int) (ep b : List α) : List α :=
  match b with
  | [] => ep
  | _ :: _ => merge cmp b ep

/-- lemon.c:1985-2007 `msort`, with the number of bins as a parameter -/
def msortWith (cmp : α → α → Int) (n : Nat) (list : List α) : List α :=
  (msortBins cmp n list).foldl (msortJoin cmp) []

/-- lemon.c:1985-2007 `msort` -/
def msort (cmp : α → α → Int) (list : List α) : List α := msortWith cmp listSize list

/-- lemon.c:1619-1638 `Rule_merge`; `key` is the field `iRule`. -/
def ruleMerge (key : α → Int) : List α → List α → List α
  | [], b => b
  | x :: a, b => mergeInto (fun x y => key x < key y) x (ruleMerge key a) b

/-- lemon.c:1643-1655: distribution over the bins -/
def ruleSortBins (key : α → Int) (n : Nat) (list : List α) : List (List α) :=
  list.foldl (fun x rp => carry (fun rp b => ruleMerge key b rp) [rp] x) (List.replicate n [])

/-- lemon.c:1643-1662 `Rule_sort`, with the number of bins (32 in the code) as a parameter -/
def ruleSortWith (key : α → Int) (n : Nat) (list : List α) : List α :=
  (ruleSortBins key n list).foldl (fun rp b => ruleMerge key b rp) []

/-- lemon.c:1643-1662 `Rule_sort` -/
def ruleSort (key : α → Int) (list : List α) : List α := ruleSortWith key 32 list

end Verif.Lemon
