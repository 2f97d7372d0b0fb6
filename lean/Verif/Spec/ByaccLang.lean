import Verif.Spec.ByaccGrammar
/-
Specification: the language of a grammar file for byacc.
-/
set_option autoImplicit false
namespace Verif.Spec.YText

/-- Symbols (by their names) stand for tokens: a token for itself, a symbol with rules for what one of its right-hand sides stands for.  Actions do
not matter. -/
inductive Stands (F : File) : List (List Nat) → List (List Nat) → Prop
  | nil : Stands F [] []
  | token (n : List Nat) (β w : List (List Nat)) : Terminal F.uses n → Stands F β w → Stands F (n :: β) (n :: w)
  | rule (a : Alt) (β w w' : List (List Nat)) : a ∈ F.alts → Stands F (symsOf a.rhs) w → Stands F β w' → Stands F (a.lhs.key :: β) (w ++ w')

/-- A sentence: tokens for which the start symbol stands. -/
def File.Sentence (F : File) (w : List (List Nat)) : Prop := Stands F [F.goal] w

/-! Values -/

/-- What is performed in a rule from left to right: a symbol, or an action, given by its number. -/
inductive Step
  | sym (n : List Nat)
  | act (m : Nat)
deriving DecidableEq, Repr

/-- The right-hand side of a rule: symbols, and actions but a final one, which belongs to the rule as a whole.  `n` numbers are used before. -/
def stepsOf (n : Nat) : List El → List Step
  | [] => []
  | .sym x :: r => .sym x.key :: stepsOf n r
  | .prec _ :: r => stepsOf n r
  | .action _ _ :: r => if precOnly r then [] else .act (n + 1) :: stepsOf (n + 1) r

/-- Rules with the numbers used before them: each rule uses one, and one for each inner action. -/
def numbered (n : Nat) : List Alt → List (Nat × Alt)
  | [] => []
  | a :: as => (n, a) :: numbered (n + innerActions a.rhs + 1) as

/-- Values along a parse tree, from left to right.  `ctx` are the values to the left, nearest first; tokens come with their values.  The value of an
action within a rule is computed by `f` with its number from what is to its left; that of a rule by `f` with its number from the values on its right-hand
side and of what is to the left of these.  `f` is also given a default: the first value on the right-hand side, `zero` if there is none. -/
inductive Computes {V : Type} (F : File) (zero : V) (f : Nat → V → List V → V) : List V → List Step → List (List Nat × V) → List V → Prop
  | nil (ctx : List V) : Computes F zero f ctx [] [] []
  | token (ctx : List V) (n : List Nat) (v : V) (β : List Step) (w : List (List Nat × V)) (vs : List V) : Terminal F.uses n →
      Computes F zero f (v :: ctx) β w vs → Computes F zero f ctx (.sym n :: β) ((n, v) :: w) (v :: vs)
  | action (ctx : List V) (m : Nat) (β : List Step) (w : List (List Nat × V)) (vs : List V) :
      Computes F zero f (f m zero ctx :: ctx) β w vs → Computes F zero f ctx (.act m :: β) w (f m zero ctx :: vs)
  | rule (ctx : List V) (n : Nat) (a : Alt) (β : List Step) (w w' : List (List Nat × V)) (us vs : List V) (v : V) : (n, a) ∈ numbered 0 F.alts →
      Computes F zero f ctx (stepsOf n a.rhs) w us → v = f (n + innerActions a.rhs + 1) (us.headD zero) (us.reverse ++ ctx) →
      Computes F zero f (v :: ctx) β w' vs → Computes F zero f ctx (.sym a.lhs.key :: β) (w ++ w') (v :: vs)

/-- No two tokens have the same code: numbers given are positive and different, and 256 is left to `error`. -/
structure CodesDiffer (us : List Use) : Prop where
  pos : ∀ n ∈ tokenNames us, codeGiven us n ≠ some 0
  diff : ∀ n ∈ tokenNames us, ∀ m ∈ tokenNames us, ∀ c, codeGiven us n = some c → codeGiven us m = some c → n = m
  err : ∀ n ∈ tokenNames us, n ≠ txt "error" → codeGiven us n ≠ some 256

end Verif.Spec.YText
