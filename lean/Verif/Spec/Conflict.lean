import Verif.Byacc.MkPar
/-
Specification: which of the actions competing for one token in one state survive, and which of
them are conflicts.  Only the data type of actions is taken from the model.

`L` is always the list of the actions competing for one token: the shift (if any) first, then
the reductions by increasing rule number.  A precedence of 0 means "no precedence".
-/
set_option autoImplicit false
namespace Verif.Spec
open Byacc

def HasPrec (x : Action) : Prop := 0 < x.prec

/-- The reduction `r` wins against the shift `s`: higher precedence, or the same precedence and
left associative. -/
def Overrides (s r : Action) : Prop :=
  HasPrec s ∧ HasPrec r ∧ (s.prec < r.prec ∨ (s.prec = r.prec ∧ s.assoc = .LEFT))

/-- Same precedence, neither left nor right associative: neither the shift nor the reduction is
allowed. -/
def Cancels (s r : Action) : Prop :=
  HasPrec s ∧ HasPrec r ∧ s.prec = r.prec ∧ s.assoc ≠ .LEFT ∧ s.assoc ≠ .RIGHT

/-- The reductions that win against the shift; all of them if there is no shift. -/
def Cands (L : List Action) (r : Action) : Prop :=
  r ∈ L ∧ r.code = .REDUCE ∧ ∀ s ∈ L, s.code = .SHIFT → Overrides s r

/-- `f` is the candidate with the lowest rule number. -/
def IsFirst (C : Action → Prop) (f : Action) : Prop := C f ∧ ∀ y, C y → f.number ≤ y.number

/-- Choice between reductions: the lowest rule number; with the lemon option (and if the lowest
numbered rule has a precedence at all) the highest precedence, then the lowest rule number. -/
def Best (lemon : Bool) (C : Action → Prop) (x : Action) : Prop :=
  C x ∧
  ((lemon = false ∨ ∃ f, IsFirst C f ∧ ¬ HasPrec f) → IsFirst C x) ∧
  (¬ (lemon = false ∨ ∃ f, IsFirst C f ∧ ¬ HasPrec f) →
    ∀ y, C y → y.prec < x.prec ∨ (y.prec = x.prec ∧ x.number ≤ y.number))

/-- Action `x` survives among its competitors `L`. -/
def Kept (lemon : Bool) (L : List Action) (x : Action) : Prop :=
  (x.code = .SHIFT ∧ ∀ r ∈ L, r.code = .REDUCE → ¬ Overrides x r ∧ ¬ Cancels x r) ∨
  (x.code = .REDUCE ∧ Best lemon (Cands L) x)

/-- `y` is a shift/reduce conflict with the earlier competitors `P`: `P` has a shift that no
reduction of `P` overrides, and shift or `y` lack a precedence.  In the accepting state on
end of input (`acc`) every further reduction counts as one. -/
def SRConf (acc : Bool) (P : List Action) (y : Action) : Prop :=
  P ≠ [] ∧ (acc = true ∨
    ∃ s ∈ P, s.code = .SHIFT ∧ (∀ r ∈ P, r.code = .REDUCE → ¬ Overrides s r) ∧ ¬ (HasPrec s ∧ HasPrec y))

/-- `y` is a reduce/reduce conflict with the earlier competitors `P`: a reduction `z` of `P`
would be chosen without `y`, and the precedences do not decide between `z` and `y`. -/
def RRConf (lemon acc : Bool) (P : List Action) (y : Action) : Prop :=
  acc = false ∧ ∃ z, Best lemon (Cands P) z ∧
    ¬ (lemon = true ∧ HasPrec z ∧ HasPrec y ∧ z.prec ≠ y.prec)

open Classical in
/-- Number of competitors in `L` that are shift/reduce conflicts. -/
noncomputable def srCount (acc : Bool) (L : List Action) : Nat :=
  (List.range L.length).countP fun i => ∃ y, L[i]? = some y ∧ SRConf acc (L.take i) y

open Classical in
/-- Number of competitors in `L` that are reduce/reduce conflicts. -/
noncomputable def rrCount (lemon acc : Bool) (L : List Action) : Nat :=
  (List.range L.length).countP fun i => ∃ y, L[i]? = some y ∧ RRConf lemon acc (L.take i) y

/-- The actions of a row competing for token `X`. -/
def competitors (row : List Action) (X : Nat) : List Action := row.filter (fun x => x.symbol == X)

end Verif.Spec
