import Verif.Spec.LemonFile
/-
What the arguments of lemon mean.
-/
set_option autoImplicit false
namespace Verif.Spec.LemonOpts
open Verif.Spec.GFile (text)

/-- the letters of the options that are on or off -/
def flagLetters : List Nat := text "bcEgyYzumlpqrsSx"
/-- the letters of options that are accepted and ignored -/
def ignoredLetters : List Nat := text "fIOW"

/-- an option with a text -/
inductive TextOpt where
  | outputDir | define | template
deriving DecidableEq, Repr

def TextOpt.letter : TextOpt → Nat
  | .outputDir => 100
  | .define => 68
  | .template => 84

inductive Meaning where
  | flag (c : Nat) (on : Bool)
  | text (t : TextOpt) (z : List Nat)
  | nothing
  | file (f : List Nat)
deriving DecidableEq, Repr

/-- What an argument means: `-b…` and `+b…` switch a flag on and off; `-dTEXT`, `+dTEXT` and `d=TEXT` give a text; an argument that does not begin with a sign and has
no `=` is a file. -/
inductive Means : List Nat → Meaning → Prop
  | on (c : Nat) (rest : List Nat) : c ∈ flagLetters → Means (45 :: c :: rest) (.flag c true)
  | off (c : Nat) (rest : List Nat) : c ∈ flagLetters → Means (43 :: c :: rest) (.flag c false)
  | sign (sg : Nat) (t : TextOpt) (z : List Nat) : sg = 45 ∨ sg = 43 → Means (sg :: t.letter :: z) (.text t z)
  | assign (t : TextOpt) (z : List Nat) : Means (t.letter :: 61 :: z) (.text t z)
  | ignored (sg c : Nat) (rest : List Nat) : sg = 45 ∨ sg = 43 → c ∈ ignoredLetters → Means (sg :: c :: rest) .nothing
  | file (f : List Nat) : f.head? ≠ some 45 → f.head? ≠ some 43 → 61 ∉ f → Means f (.file f)

/-- the files among the arguments -/
def files (ms : List Meaning) : List (List Nat) := ms.filterMap fun | .file f => some f | _ => none

/-- the texts given with an option, in order -/
def texts (t : TextOpt) (ms : List Meaning) : List (List Nat) := ms.filterMap fun | .text t' z => if t' = t then some z else none | _ => none

/-- whether a flag is on: the last mention decides -/
def isOn (c : Nat) (ms : List Meaning) : Bool := ((ms.filterMap fun | .flag c' v => if c' = c then some v else none | _ => none).getLast?).getD false

end Verif.Spec.LemonOpts
