import Verif.Spec.LemonLang
import Verif.Spec.LemonScan
/-
Specification: the code of a rule, and what its labels stand for.
-/
set_option autoImplicit false
namespace Verif.Spec.RuleCode
open Verif.Spec.GFile (Word text)
open Verif.Spec.Words (letter inName)

/-- The parts of the code: names (with numbers among them), and the other characters.  `mark` is the first comment which says
that the value of the left side may overwrite that of the first symbol. -/
inductive Piece
  | name (x : Word)
  | other (c : Nat)
  | mark
  deriving DecidableEq, Repr

/-- the text of a piece; `m` is the comment -/
def Piece.text (m : Word) : Piece → Word
  | .name x => x
  | .other c => [c]
  | .mark => m

/-- the text of some pieces -/
def textOf (m : Word) (ps : List Piece) : Word := ps.flatMap (Piece.text m)

/-- The text `z` is divided into the pieces `ps`: names are as long as possible, and a comment `m`, if there can be one, is marked at its
first place. -/
structure Divides (m : Option Word) (z : Word) (ps : List Piece) : Prop where
  text : z = textOf (m.getD []) ps
  names : ∀ x, .name x ∈ ps → x ≠ [] ∧ ∀ c ∈ x, inName c
  others : ∀ c, .other c ∈ ps → ¬ inName c
  apart : ∀ u x y v, ps ≠ u ++ .name x :: .name y :: v
  marked : .mark ∈ ps ↔ ∃ m', m = some m' ∧ m' <:+: z
  first : ∀ u v, ps = u ++ .mark :: v → .mark ∉ v ∧ ∀ k < (textOf (m.getD []) u).length, ¬ m.getD [] <+: z.drop k

/-- the labels of a rule -/
structure Labels where
  lhs : Option Word
  rhs : List (Option Word)

/-- a label is an identifier -/
def Ident (x : Word) : Prop := ∃ c t, x = c :: t ∧ letter c ∧ ∀ d ∈ t, inName d

/-- all labels are identifiers -/
def Labels.Idents (L : Labels) : Prop := (∀ x, L.lhs = some x → Ident x) ∧ ∀ x, some x ∈ L.rhs → Ident x

/-- what a name may stand for: the left side, or a symbol of the right side -/
inductive Ref
  | lhs
  | rhs (i : Nat)
  deriving DecidableEq, Repr

/-- what the name `x` stands for: if there are several symbols with the label, for the first -/
def Labels.ref (L : Labels) (x : Word) : Option Ref :=
  if L.lhs = some x then some .lhs else if some x ∈ L.rhs then some (.rhs (L.rhs.idxOf (some x))) else none

/-- the piece is a label that stands for a symbol of the right side -/
def Labels.isRhs (L : Labels) : Option Piece → Bool
  | some (.name x) => match L.ref x with | some (.rhs _) => true | _ => false
  | _ => false

/-- The code with labels replaced.  `value` is the text for the value, `token` that for the number of the token: `@X` stands for the latter,
if `X` is a label of a symbol on the right side.  The first argument tells whether the character in front is `@`. -/
def replace (m : Word) (L : Labels) (value : Ref → Word) (token : Nat → Word) : Bool → List Piece → Word
  | _, [] => []
  | at_, .name x :: ps =>
    (match L.ref x with
      | none => x
      | some .lhs => value .lhs
      | some (.rhs i) => if at_ then token i else value (.rhs i)) ++ replace m L value token false ps
  | _, .other c :: ps => (if c = 64 ∧ L.isRhs ps.head? then [] else [c]) ++ replace m L value token (c == 64) ps
  | _, .mark :: ps => m ++ replace m L value token false ps

/-- the comment: there can be one if the left side and the first symbol have different labels -/
def Labels.comment (L : Labels) : Option Word :=
  match L.lhs, L.rhs.head? with
  | some a, some (some b) => if a = b then none else some (Verif.Spec.GFile.text "/*" ++ a ++ Verif.Spec.GFile.text "-overwrites-" ++ b ++ Verif.Spec.GFile.text "*/")
  | _, _ => none

/-- the name occurs in the code -/
def Occurs (ps : List Piece) (x : Word) : Prop := .name x ∈ ps

/-- the last piece is a label -/
def EndsInLabel (L : Labels) (ps : List Piece) : Prop := ∃ u x, ps = u ++ [.name x] ∧ L.ref x ≠ none

/-- the comment comes directly behind a label -/
def LabelBeforeMark (L : Labels) (ps : List Piece) : Prop := ∃ u x v, ps = u ++ .name x :: .mark :: v ∧ L.ref x ≠ none

/-- What the labels of a rule and their use must satisfy.  `sameField` tells whether the values of the left side and the first symbol are in the same field. -/
structure Proper (L : Labels) (ps : List Piece) (sameField : Prop) : Prop where
  /-- the label of the left side is used, or is also that of the first symbol -/
  lhs : ∀ a, L.lhs = some a → Occurs ps a ∨ L.rhs.head? = some (some a)
  /-- labels of the right side are used, but the first need not be if it is also that of the left side -/
  rhs : ∀ a, some a ∈ L.rhs → Occurs ps a ∨ L.lhs = some a
  /-- all labels are different, but those of the left side and the first symbol may be equal, if the values are in the same field -/
  distinct : ∀ (i j : Nat) (a : Word), L.rhs[i]? = some (some a) → L.rhs[j]? = some (some a) → i = j
  first : ∀ (i : Nat) (a : Word), L.lhs = some a → L.rhs[i]? = some (some a) → i = 0 ∧ sameField
  /-- the first label is not used after the comment -/
  after : ∀ u v a, ps = u ++ .mark :: v → L.rhs.head? = some (some a) → ¬ Occurs v a

/-- a number -/
def num (i : Int) : Word := Verif.Spec.GFile.text (toString i)

/-- the entry of the stack for the symbol with number `i`, counted from 0, of `n` symbols: the last symbol is on top, `yymsp[0]`.  With `i` = 0 it is also the entry of the left side. -/
def entry (n i : Nat) : Word := Verif.Spec.GFile.text "yymsp[" ++ num ((i : Int) - n + 1) ++ Verif.Spec.GFile.text "]"

/-- the value in such an entry, in the field with number `d` of the union -/
def minor (n i d : Nat) : Word := entry n i ++ Verif.Spec.GFile.text ".minor.yy" ++ num d

/-- the number of the token in such an entry -/
def major (n i : Nat) : Word := entry n i ++ Verif.Spec.GFile.text ".major"

/-- the call of the destructor for the symbol with index `x` in such an entry -/
def destroy (x n i : Nat) : Word :=
  Verif.Spec.GFile.text "  yy_destructor(yypParser," ++ num x ++ Verif.Spec.GFile.text ",&" ++ entry n i ++ Verif.Spec.GFile.text ".minor);\n"

/-- The place of a value.  `d` and `ds` are the fields of the left side and of the symbols of the right side; the value of the left side is in its
entry, or, if `loc`, in a variable. -/
def place (n d : Nat) (ds : Nat → Nat) (loc : Bool) : Ref → Word
  | .lhs => if loc then Verif.Spec.GFile.text "yylhsminor.yy" ++ num d else minor n 0 d
  | .rhs i => minor n i (ds i)

end Verif.Spec.RuleCode
