/-
Model of the associative arrays of lemon.c ("table.c"): `Strsafe_*` (x1), `Symbol_*` (x2),
`State_*` (x3) and `Configtable_*` (x4) are four copies of the same code with different key
types.  They are modelled once, for any key type `K`, data type `D` and hash function.

The nodes live in the array `tbl` and are addressed by their position; a hash chain is the list
of positions obtained by following `next`.  The back pointers `from` (never read) and memory
exhaustion are not modelled.
-/
set_option autoImplicit false
namespace Verif.Lemon

/-- `struct s_x2` with `x2node`, lemon.c:6007-6023; `count` is `tbl.length`. -/
structure Tab (K D : Type) where
  size : Nat
  tbl : List (K × D)
  ht : List (List Nat)
  deriving Repr

variable {K D : Type}

/-- lemon.c:6026-6043 `Symbol_init` (128 slots; also `Strsafe_init` 5849-5866 with 1024,
`State_init` 6242-6259 with 128, `Configtable_init` with 64). -/
def Tab.init (K D : Type) (size : Nat) : Tab K D := ⟨size, [], List.replicate size []⟩

/-- `h & (size-1)` of the hash value -/
def Tab.slot (hash : K → Nat) (t : Tab K D) (k : K) : Nat := Nat.land (hash k) (t.size - 1)

/-- Walk along a chain, lemon.c:6139-6143: first node with the given key.  `eq a b` is
`strcmp(a,b)==0`, `statecmp(a,b)==0` or `Configcmp(a,b)==0`. -/
def Tab.walk (eq : K → K → Bool) (tbl : List (K × D)) (k : K) : List Nat → Option D
  | [] => none
  | i :: is =>
    match tbl[i]? with
    | none => none
    | some (k', d) => if eq k' k then some d else Tab.walk eq tbl k is

/-- lemon.c:6131-6145 `Symbol_find` -/
def Tab.find (hash : K → Nat) (eq : K → K → Bool) (t : Tab K D) (k : K) : Option D :=
  Tab.walk eq t.tbl k (t.ht.getD (t.slot hash k) [])

/-- lemon.c:6088-6110: a table of twice the size with the same nodes; each node is put at the
head of its new chain, in the order of the array. -/
def Tab.grow (hash : K → Nat) (t : Tab K D) : Tab K D :=
  let size := t.size * 2
  { size := size
    tbl := t.tbl
    ht := t.tbl.zipIdx.foldl (fun ht n =>
      let h := Nat.land (hash n.1.1) (size - 1)
      ht.set h (n.2 :: ht.getD h [])) (List.replicate size []) }

/-- lemon.c:6070-6127 `Symbol_insert`: refuses a key that is already there. -/
def Tab.insert (hash : K → Nat) (eq : K → K → Bool) (t : Tab K D) (k : K) (d : D) : Tab K D × Bool :=
  match Tab.walk eq t.tbl k (t.ht.getD (t.slot hash k) []) with
  | some _ => (t, false)
  | none =>
    let t := if t.tbl.length ≥ t.size then t.grow hash else t
    let h := t.slot hash k
    ({ t with tbl := t.tbl ++ [(k, d)], ht := t.ht.set h (t.tbl.length :: t.ht.getD h []) }, true)

/-- lemon.c:6167-6179 `Symbol_arrayof` (and `State_arrayof`): all data in the order of the array -/
def Tab.arrayof (t : Tab K D) : List D := t.tbl.map Prod.snd

/-- lemon.c:5803-5808 `strhash`; 32-bit unsigned arithmetic.  A byte of 128 or more is negative as
a `char` and is sign-extended. -/
def strhash (x : List Nat) : Nat :=
  x.foldl (fun h c => (h * 13 + (if c < 128 then c else 2^32 - 256 + c)) % 2^32) 0

/-- lemon.c:6210-6218 `statehash`: the basis as a list of (rule index, dot) -/
def statehash (a : List (Nat × Nat)) : Nat :=
  a.foldl (fun h c => (h * 571 + c.1 * 37 + c.2) % 2^32) 0

/-- The fields of `struct symbol` set by `Symbol_new`: name, type (true for `TERMINAL`), `id`.
The precedence, type, rule list … are set later and are not part of this model. -/
structure SymRec where
  name : List Nat
  terminal : Bool
  id : Nat
  deriving DecidableEq, Repr

/-- `ISUPPER` on the first byte of a name (C locale) -/
def isUpper (c : Nat) : Bool := 65 ≤ c && c ≤ 90

/-- lemon.c:5955-5980 `Symbol_new`, without the use counter. -/
def symbolNew (t : Tab (List Nat) SymRec) (x : List Nat) : Tab (List Nat) SymRec × SymRec :=
  match t.find strhash (fun a b => a == b) x with
  | some sp => (t, sp)
  | none =>
    let sp := { name := x, terminal := isUpper (x.headD 0), id := t.tbl.length }
    ((t.insert strhash (fun a b => a == b) x sp).1, sp)

/-- lemon.c:5814-5828 `Strsafe`: the saved copy of a string.  A pointer is modelled by the
position of the string in the table. -/
def strsafe (t : Tab (List Nat) Nat) (y : List Nat) : Tab (List Nat) Nat × Nat :=
  match t.find strhash (fun a b => a == b) y with
  | some z => (t, z)
  | none => ((t.insert strhash (fun a b => a == b) y t.tbl.length).1, t.tbl.length)

/-- A sequence of `Symbol_new` calls, with the results. -/
def symbolNews (t : Tab (List Nat) SymRec) : List (List Nat) → Tab (List Nat) SymRec × List SymRec
  | [] => (t, [])
  | x :: xs =>
    let (t1, s) := symbolNew t x
    let (t2, ss) := symbolNews t1 xs
    (t2, s :: ss)

/-- lemon.c:6026 and the calls made afterwards -/
def symbolTable (xs : List (List Nat)) : Tab (List Nat) SymRec × List SymRec :=
  symbolNews (Tab.init _ _ 128) xs

end Verif.Lemon
