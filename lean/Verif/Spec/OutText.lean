import Verif.Byacc.Text
import Verif.Spec.ByaccCode
/-
Specification: the text of a generated file.
-/
set_option autoImplicit false
namespace Verif.Spec.OutText
open Byacc (Piece)
open Spec.YText

/-- the bytes of the code file called `name` -/
def bytes (name : List Nat) (l : List Piece) : List Nat := l.flatMap (Piece.bytes name)

/-- the number of the line on which the text behind `t` starts, if `t` is not in the middle of a line -/
def lineAfter (t : List Nat) : Nat := t.count 10 + 1

/-- The text behind `t` starts on a new line. -/
def LineStart (t : List Nat) : Prop := t = [] ∨ t.getLast? = some 10

/-- Every directive that points to the file itself stands on a line of its own, and names the line after it. -/
def SelfRight (name : List Nat) (l : List Piece) : Prop :=
  ∀ a n b, l = a ++ .self n :: b → LineStart (bytes name a) ∧ n = lineAfter (bytes name (a ++ [.self n]))

/-- The text is a list of decimal numbers; there may be white space before a number, and a comma follows it. -/
inductive IntList : List Nat → List Int → Prop
  | nil (ws : List Nat) : (∀ c ∈ ws, Space c) → IntList ws []
  | cons (ws d t : List Nat) (v : Int) (l : List Int) :
      (∀ c ∈ ws, Space c) → Decimal v d → IntList t l → IntList (ws ++ (d ++ 44 :: t)) (v :: l)

/-- In the text an array of numbers called `name` is defined, from the start of a line, between the lines `before` and `after`. -/
def HasArray (text : List Nat) (static : Bool) (name before after : List Nat) (l : List Int) : Prop :=
  ∃ a body b, text = a ++ before ++ (if static then txt "static " else []) ++ txt "const YYINT " ++ name ++ txt "[] = {" ++ body ++ txt "};\n" ++ after ++ b ∧
    LineStart a ∧ IntList body l

/-- In the text a macro is defined as a number. -/
def HasDefine (text name : List Nat) (v : Int) : Prop :=
  ∃ a d b, text = a ++ txt "#define " ++ name ++ [32] ++ d ++ [10] ++ b ∧ LineStart a ∧ Decimal v d

end Verif.Spec.OutText
