import Verif.Spec.LemonLayout
/-
Specification: reading numbers, strings and macros from C text.
-/
set_option autoImplicit false
namespace Verif.Spec.LText
open Verif.Lemon
open Verif.Spec.GFile (text)

/-- the value of a number without sign -/
def digits (t : List Nat) : Option Nat :=
  if t ≠ [] ∧ ∀ c ∈ t, 48 ≤ c ∧ c ≤ 57 then some (t.foldl (fun v c => 10 * v + (c - 48)) 0) else none

/-- the value of a number -/
def number : List Nat → Option Int
  | 45 :: t => (digits t).map fun n : Nat => -(n : Int)
  | t => (digits t).map Int.ofNat

/-- Where we are in the text of an array: between entries, behind `/`, in a comment, in a comment behind `*`, in a string with `s` read, behind a string, in a
number with `s` read. -/
inductive Place
  | gap | slash | comment | star | str (s : List Nat) | done (s : List Nat) | num (s : List Nat)

/-- an entry of an array -/
inductive Entry
  | int (v : Int) | str (s : List Nat)
deriving DecidableEq, Repr

/-- Reads the text of an array: numbers and strings without escapes, each with a comma behind it, and white space and comments between them. -/
def readGo : Place → List Nat → Option (List Entry)
  | .gap, [] => some []
  | .gap, c :: t => if c = 32 ∨ c = 10 then readGo .gap t else if c = 47 then readGo .slash t else if c = 34 then readGo (.str []) t else readGo (.num [c]) t
  | .slash, 42 :: t => readGo .comment t
  | .comment, c :: t => if c = 42 then readGo .star t else readGo .comment t
  | .star, c :: t => if c = 47 then readGo .gap t else if c = 42 then readGo .star t else readGo .comment t
  | .str s, c :: t => if c = 34 then readGo (.done s) t else if c = 92 ∨ c = 10 then none else readGo (.str (s ++ [c])) t
  | .done s, 44 :: t => (readGo .gap t).map (.str s :: ·)
  | .num s, c :: t => if c = 44 then (number s).bind fun v => (readGo .gap t).map (.int v :: ·) else readGo (.num (s ++ [c])) t
  | _, _ => none

/-- the entries of an array -/
def readArray (t : List Nat) : Option (List Entry) := readGo .gap t

/-- the number a macro stands for, perhaps in parentheses -/
def macroNumber : List Nat → Option Int
  | 40 :: t => if t.getLast? = some 41 then number t.dropLast else none
  | t => number t

/-- the name and the number in the definition of a macro -/
def readDefine (l : List Nat) : Option (List Nat × Int) :=
  if (text "#define ").isPrefixOf l then
    (macroNumber (((l.drop 8).dropWhile (· != 32)).dropWhile (· == 32))).map (((l.drop 8).takeWhile (· != 32)), ·)
  else none

/-- There is a line in the text that defines the macro called `name` as the number `v`. -/
def HasDefine (t name : List Nat) (v : Int) : Prop :=
  ∃ a l b, t = a ++ (l ++ [10]) ++ b ∧ LineStart a ∧ 10 ∉ l ∧ readDefine l = some (name, v)

/-- There is an array in the text, from the start of a line. -/
def HasArray (t type : List Nat) (name : String) (l : List Entry) : Prop :=
  ∃ a body b, t = a ++ (text "static const " ++ type ++ text " " ++ text name ++ text "[] = {\n" ++ body ++ text "};\n") ++ b ∧ LineStart a ∧ readArray body = some l

/-- In the text `p` stands between the sections `i` and `i + 1` of the template. -/
def Between (I : LText) (ls : List (List Nat)) (i : Nat) (t p : List Nat) : Prop :=
  ∃ a s s' b, Section I ls i s ∧ Section I ls (i + 1) s' ∧ LineStart a ∧ t = a ++ s ++ p ++ s' ++ b

/-- a word without white space, quotes, backslashes and stars -/
def Safe (w : List Nat) : Prop := ∀ c ∈ w, c ≠ 10 ∧ c ≠ 32 ∧ c ≠ 34 ∧ c ≠ 42 ∧ c ≠ 92

/-- The names of symbols are safe. -/
structure SafeNames (I : LText) : Prop where
  tokenPrefix : Safe (arg I .tokenPrefix "")
  symbols : ∀ i, i < I.s.nsymbol → Safe (symbolName I i)
  fallback : ∀ i f, i < I.s.nsymbol → I.s.symbols[i]?.bind Sym.fallback = some f → Safe f
  lhs : ∀ p ∈ I.rules, Safe p.1.lhs
  rhs : ∀ p ∈ I.rules, ∀ r ∈ p.1.rhs, Safe (I.s.refText r.1)

end Verif.Spec.LText
