import Verif.Spec.OutText
/-
Specification: the places of the user's code in a generated file.
-/
set_option autoImplicit false
namespace Verif.Spec.OutText
open Byacc (Piece CodeBlock)
open Spec.YText

/-- The parts are in the text, one behind the other in this order, each from the start of a line. -/
inductive InOrder : List (List Nat) → List Nat → Prop
  | nil (t : List Nat) : InOrder [] t
  | snoc (ps : List (List Nat)) (p a b : List Nat) : InOrder ps a → LineStart a → InOrder (ps ++ [p]) (a ++ p ++ b)

/-- a `%code` block in the output -/
def codePart (kind : List Nat) (b : Option CodeBlock) : List (List Nat) :=
  match b with
  | none => []
  | some b => [txt "/* %code \"" ++ kind ++ txt "\" block start */\n" ++ b.lines ++ txt "/* %code \"" ++ kind ++ txt "\" block end */\n"]

/-- text that ends with a newline -/
def closed (t : List Nat) : List Nat := if t.getLast? = some 10 then t else t ++ [10]

/-- a directive that points to a line of the grammar file -/
def directive (lflag : Bool) (n : Nat) (name : List Nat) : List Nat :=
  if lflag then [] else txt "#line " ++ (toString n).toList.map Char.toNat ++ txt " \"" ++ name ++ txt "\"\n"

/-- The third part of a grammar file in the output.  `before` is the file up to the `%%`, `after` what follows it.  If there is nothing but a newline on the line of
the `%%`, then the text starts on the next line. -/
def thirdPart (lflag : Bool) (name : List Nat) : Option (List Nat × List Nat) → List (List Nat)
  | none => []
  | some (before, after) =>
    match after with
    | [] => []
    | c :: t =>
      if c = 10 then if t = [] then [] else [directive lflag (lineAfter (before ++ [10])) name ++ closed t]
      else [directive lflag (lineAfter before) name ++ closed (c :: t)]

/-- How the third part is at hand when it is written: the rest of the line of the `%%`, to which a newline is added if the file ends there; the rest of the
file; the number of the line. -/
def ThirdRead (third : Option (List Nat × List Nat)) (trail : Option (List Nat × List Nat × Nat)) : Prop :=
  (third = none ∧ trail = none) ∨
  ∃ before l after rest, third = some (before, after) ∧ trail = some (l ++ [10], rest, lineAfter before) ∧ 10 ∉ l ∧ (after = l ++ 10 :: rest ∨ after = l ∧ rest = [])

/-- The actions in the output: each line `#line 1 ""` is replaced by a directive that points to the code file. -/
def ActsPart (lflag : Bool) (name actions part : List Nat) : Prop :=
  if lflag then part = actions
  else ∃ l : List Piece, part = bytes name l ∧ l.flatMap (fun p => match p with | .text t => t | .self _ => txt "#line 1 \"\"\n") = actions

/-- the lines for a destructor: the label, the code -/
def destructParts (d : Nat × List Nat) : List (List Nat) :=
  [txt "\tcase " ++ (toString d.1).toList.map Char.toNat ++ txt ":\n" ++ d.2 ++ [10], txt "\tbreak;\n"]

end Verif.Spec.OutText
