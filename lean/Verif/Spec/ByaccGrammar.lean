import Verif.Spec.ByaccMeaning
import Verif.Proofs.Pack
/-
Specification: the numbers and codes of the symbols of a grammar file, and its grammar.
-/
set_option autoImplicit false
namespace Verif.Spec.YText
open Byacc (Assoc)
open Classical

/-- The text the reader is given: the lines of the file without the `#line` directives. -/
def GivenText (file text t : List Nat) : Prop := ∃ ls out, Splits text ls ∧ ReadLines 0 file ls out ∧ t = out.flatMap NLine.text

/-- A symbol without rules of its own. -/
def Terminal (us : List Use) (n : List Nat) : Prop := ¬ IsLhs us n ∧ hiddenOf us n = none

/-- The tokens, in the order in which they are first named; `error` is the first. -/
noncomputable def tokenNames (us : List Use) : List (List Nat) := (names us).filter fun n => decide (Terminal us n)

/-- The other symbols but the start symbol, in that order. -/
noncomputable def otherNames (us : List Use) (goal : List Nat) : List (List Nat) := (names us).filter fun n => decide (¬ Terminal us n ∧ n ≠ goal)

/-- The number of a symbol: 0 is the end of the input; then come the tokens, a new start symbol, the start symbol, and the others. -/
noncomputable def symNumber (us : List Use) (goal n : List Nat) : Nat :=
  if Terminal us n then (tokenNames us).idxOf n + 1
  else if n = goal then (tokenNames us).length + 2
  else (tokenNames us).length + 3 + (otherNames us goal).idxOf n

/-- The code given to a token: by a number, or as a character. -/
def codeGiven (us : List Use) (n : List Nat) : Option Nat := (numberOf us n).or (charOf us n)

/-- The codes of the tokens.  A token without a code gets the least number from 257 on that is neither given to a token nor the code of an earlier
token without one; `error` gets 256. -/
structure CodesOf (us : List Use) (code : List Nat → Int) : Prop where
  given : ∀ n ∈ tokenNames us, ∀ c, codeGiven us n = some c → code n = c
  error : codeGiven us (txt "error") = none → code (txt "error") = 256
  free : ∀ n ∈ tokenNames us, codeGiven us n = none → n ≠ txt "error" → 257 ≤ code n ∧
    (∀ m ∈ tokenNames us, (codeGiven us m ≠ none ∨ (tokenNames us).idxOf m < (tokenNames us).idxOf n) → code n ≠ code m) ∧
    ∀ y, 257 ≤ y → y < code n → ∃ m ∈ tokenNames us, (codeGiven us m ≠ none ∨ (tokenNames us).idxOf m < (tokenNames us).idxOf n) ∧ code m = y

/-- The precedence of a symbol, 0 if it has none. -/
def levelOf (us : List Use) (n : List Nat) : Int := (precOf us n).elim 0 fun p => (p.1 : Int)
def kindOf (us : List Use) (n : List Nat) : Assoc := (precOf us n).elim .TOKEN Prod.snd

/-- A symbol as the rules refer to it. -/
noncomputable def symBucket (us : List Use) (goal n : List Nat) : Byacc.Bucket :=
  { index := symNumber us goal n
    isTerm := decide (Terminal us n)
    prec := levelOf us n
    assoc := kindOf us n }

/-- The precedence of a rule that is not taken from its symbols; -1: it is. -/
def ruleLevel (us : List Use) : PrecBy → Int
  | .rhs => -1
  | .of n => levelOf us n
  | .nowhere => 0
def ruleKind (us : List Use) : PrecBy → Assoc
  | .of n => kindOf us n
  | _ => .TOKEN

/-- A rule by the numbers of its symbols. -/
noncomputable def srcRule (us : List Use) (goal : List Nat) (r : SRule) : Byacc.SrcRule :=
  { lhs := symBucket us goal r.lhs
    rhs := r.rhs.map (symBucket us goal)
    rprec := ruleLevel us r.prec
    rassoc := ruleKind us r.prec }

end Verif.Spec.YText
