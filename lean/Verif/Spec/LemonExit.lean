import Verif.Spec.LemonLang
import Verif.Lemon.Grammar
/-
Specification: what has to be right about a grammar so that lemon reports success.
-/
set_option autoImplicit false
namespace Verif.Spec.GFile

/-- the symbols used by a grammar: the start symbol, and what the rules of a symbol that is used mention -/
inductive Used (rules : List (Nat × List Nat)) (S : Nat) : Nat → Prop
  | start : Used rules S S
  | rule {A X : Nat} {α : List Nat} : Used rules S A → (A, α) ∈ rules → X ∈ α → Used rules S X

/-- the same for the names in a file -/
inductive Uses (items : List Item) (S : Word) : Word → Prop
  | start : Uses items S S
  | rule {A : Word} {a : Option Word} {rhs : List Elem} {line : Nat} {e : Elem} : Uses items S A → .rule A a rhs line ∈ items → e ∈ rhs → Uses items S e.name

/-- The number at the beginning of a text: blanks, a sign, and digits.  It is 0 if there is no number. -/
inductive BeginsWith : List Nat → Int → Prop
  | blank {c : Nat} {t : List Nat} {i : Int} : (c = 32 ∨ 9 ≤ c ∧ c ≤ 13) → BeginsWith t i → BeginsWith (c :: t) i
  | digits {ds t : List Nat} : ds ≠ [] → (∀ c ∈ ds, 48 ≤ c ∧ c ≤ 57) → (∀ c ∈ t.head?, ¬ (48 ≤ c ∧ c ≤ 57)) →
      BeginsWith (ds ++ t) ((ds.foldl (fun n c => 10 * n + (c - 48)) 0 : Nat) : Int)
  | plus {ds t : List Nat} : (∀ c ∈ ds, 48 ≤ c ∧ c ≤ 57) → (∀ c ∈ t.head?, ¬ (48 ≤ c ∧ c ≤ 57)) →
      BeginsWith (43 :: (ds ++ t)) ((ds.foldl (fun n c => 10 * n + (c - 48)) 0 : Nat) : Int)
  | minus {ds t : List Nat} : (∀ c ∈ ds, 48 ≤ c ∧ c ≤ 57) → (∀ c ∈ t.head?, ¬ (48 ≤ c ∧ c ≤ 57)) →
      BeginsWith (45 :: (ds ++ t)) (-((ds.foldl (fun n c => 10 * n + (c - 48)) 0 : Nat) : Int))
  | none {t : List Nat} : (∀ c ∈ t.head?, ¬ (48 ≤ c ∧ c ≤ 57) ∧ c ≠ 43 ∧ c ≠ 45 ∧ c ≠ 32 ∧ ¬ (9 ≤ c ∧ c ≤ 13)) → BeginsWith t 0

/-- the number of conflicts declared by `%expect`, or 0 -/
def Declares (o : Opts) (items : List Item) (n : Int) : Prop :=
  match argOf o items ("expect", false) with
  | some w => BeginsWith w n
  | none => n = 0

end Verif.Spec.GFile
