import Verif.Spec.LemonFile
/-
Specification: the language of a grammar file, and the numbers of the tokens.
-/
set_option autoImplicit false
namespace Verif.Spec.GFile

/-- the tokens of a file in the order of their first mention -/
def tokens (o : Opts) (items : List Item) : List Word := (names o items).filter fun x => decide (Upper x)

/-- the number of a token: its place among the tokens, from 1 -/
def tokenNumber (o : Opts) (items : List Item) (x : Word) : Nat := (tokens o items).idxOf x + 1

/-- the nonterminals in the order of their first mention -/
def nonterminals (o : Opts) (items : List Item) : List Word :=
  (names o items).filter fun x => decide (¬ Upper x ∧ x ≠ text "$" ∧ isClass items x = false)

/-- the token classes in the order of their declaration -/
def classes (o : Opts) (items : List Item) : List Word := (names o items).filter fun x => isClass items x

/-- Sequences of symbols stand for sequences of tokens: a token for itself or, if there are alternatives, for one of those; a
class for one of its members; a nonterminal for what the right side of one of its rules stands for. -/
inductive Stands (items : List Item) : List Elem → List Word → Prop
  | nil : Stands items [] []
  | token {e : Elem} {es : List Elem} {X : Word} {w : List Word} (he : Upper e.name) (hX : X ∈ e.name :: e.alts) (h : Stands items es w) :
      Stands items (e :: es) (X :: w)
  | cls {e : Elem} {es : List Elem} {X : Word} {w : List Word} (he : isClass items e.name) (hX : X ∈ membersOf items e.name) (h : Stands items es w) :
      Stands items (e :: es) (X :: w)
  | rule {e : Elem} {es rhs : List Elem} {a : Option Word} {line : Nat} {v w : List Word} (hr : .rule e.name a rhs line ∈ items)
      (h₁ : Stands items rhs v) (h₂ : Stands items es w) : Stands items (e :: es) (v ++ w)

/-- `w` is a sentence for the nonterminal `S` -/
def Sentence (items : List Item) (S : Word) (w : List Word) : Prop := Stands items [⟨S, []⟩] w

/-- the left side of a rule -/
def Item.lhsOf : Item → Option Word
  | .rule l _ _ _ => some l
  | _ => none

/-- the start symbol: the one declared, or else the left side of the first rule -/
def startSymbol (o : Opts) (items : List Item) : Option Word :=
  match argOf o items ("start_symbol", false) with
  | some x => some x
  | none => items.findSome? Item.lhsOf

/-- What a valid file has to satisfy so that lemon can make a parser: the start symbol is a nonterminal and is not on
the right side of a rule; the left sides of rules and `error` are no token classes. -/
structure Sound (o : Opts) (items : List Item) (S : Word) : Prop where
  start : startSymbol o items = some S
  rules : ∃ l a rhs line, .rule l a rhs line ∈ items
  nonterminal : S ∈ nonterminals o items
  noRhs : ∀ l a rhs line, .rule l a rhs line ∈ items → ∀ e ∈ rhs, e.name ≠ S
  lhs : ∀ l a rhs line, .rule l a rhs line ∈ items → isClass items l = false
  error : isClass items (text "error") = false

/-- the number of symbols on the right side of a rule, and one for the rule -/
def Item.size : Item → Nat
  | .rule _ _ rhs _ => rhs.length + 1
  | _ => 0

def fileSize (items : List Item) : Nat := (items.map Item.size).sum

/-- a token can be taken for itself, for what its fallback can be taken for, and for the wildcard -/
inductive TakenFor (items : List Item) : Word → Word → Prop
  | self (X : Word) : TakenFor items X X
  | fallback {X Y Z : Word} : fallbackOf items X = some Y → TakenFor items Y Z → TakenFor items X Z
  | wildcard {X W : Word} : (wildcards items).head? = some W → TakenFor items X W

end Verif.Spec.GFile
