import Verif.Spec.LemonSql
/-
Specification: the grammar file that says the same without actions, token classes and comments.
-/
set_option autoImplicit false
namespace Verif.Spec.Again
open Verif.Spec.GFile Verif.Spec.Sql
open Verif.Lemon (Assoc)

/-- the tokens with a fallback, divided where the fallback changes -/
def fallbackRuns (f : Word → Option Word) : List Word → List (Word × List Word)
  | [] => []
  | X :: l =>
    match f X, fallbackRuns f l with
    | none, gs => gs
    | some F, [] => [(F, [X])]
    | some F, (F', Ys) :: gs => if F' = F then (F, X :: Ys) :: gs else (F, [X]) :: (F', Ys) :: gs

/-- the declaration of the tokens with precedence `j` -/
def level (o : Opts) (items : List Item) (j : Nat) : Option Item :=
  match (tokens o items).filter fun X => (precOf o items X).map Prod.fst = some j with
  | [] => none
  | X :: l => (precOf o items X).map fun p => .prec p.2 (X :: l)

/-- an element: the tokens of a class are written out -/
def writtenOut (items : List Item) (e : Elem) : Elem := ⟨(choices items e).headD [], (choices items e).tail.map fun X => .alt 124 X⟩

/-- a rule without aliases and action, and the mark behind it -/
def bare (o : Opts) (items : List Item) (p : Item × List Item) : List Item :=
  .rule (lhsOf p.1) none ((rhsOf p.1).map (writtenOut items)) 0 :: ((if o.ignorePrec then none else p.2.findSome? Item.markOf).map Item.mark).toList

/-- the file.  The numbers of lines are not given. -/
def again (o : Opts) (items : List Item) (S : Word) : List Item :=
  (if tokens o items = [] then [] else [.token (tokens o items)]) ++
  ((fallbackRuns (fallbackOf items) (tokens o items)).map fun g => .fallback (g.1 :: g.2)) ++
  (List.range ((precs items).length + 1)).filterMap (level o items) ++
  ((wildcards items).head?.map fun X => Item.wildcard [X]).toList ++
  [.arg "start_symbol" S 0] ++ (parts items).flatMap (bare o items)

/-- the words of a file -/
def fileWords (items : List Item) : List Word := (items.flatMap Item.words).map Prod.snd

/-- the item without the number of its line -/
def unlined : Item → Item
  | .rule l a rhs _ => .rule l a rhs 0
  | .code t _ => .code t 0
  | .arg k a _ => .arg k a 0
  | .destructor X a _ => .destructor X a 0
  | .type X a _ => .type X a 0
  | it => it

end Verif.Spec.Again
