import Verif.Spec.OutText
/-
Specification: macros for the tokens in a generated file.
-/
set_option autoImplicit false
namespace Verif.Spec.OutText
open Spec.YText

/-- A word that can be the name of a macro (`$` counts as a letter). -/
def CWord (n : List Nat) : Prop :=
  ∃ c r, n = c :: r ∧ (Letter c ∨ c = 95 ∨ c = 36) ∧ ∀ x ∈ r, Letter x ∨ Digit x ∨ x = 95 ∨ x = 36

/-- The macro for a token called `n` is called `m`: its name, or, without `-s`, the text of a string. -/
def MacroOf (sflag : Bool) (n m : List Nat) : Prop := CWord m ∧ (n = m ∨ (sflag = false ∧ n = 34 :: (m ++ [34])))

/-- The text defines a macro for each of the tokens that can have one, in order, and nothing else. -/
inductive DefLines (sflag : Bool) : List (List Nat × Int) → List Nat → Prop
  | nil : DefLines sflag [] []
  | line (n m d t : List Nat) (v : Int) (l : List (List Nat × Int)) : MacroOf sflag n m → Decimal v d → DefLines sflag l t →
      DefLines sflag ((n, v) :: l) (txt "#define " ++ m ++ [32] ++ d ++ [10] ++ t)
  | skip (n t : List Nat) (v : Int) (l : List (List Nat × Int)) : (¬ ∃ m, MacroOf sflag n m) → DefLines sflag l t → DefLines sflag ((n, v) :: l) t

/-- The text has macros for the tokens, from the start of a line on, and the macro for the error token behind them, if `err`. -/
def HasDefines (text : List Nat) (sflag : Bool) (l : List (List Nat × Int)) (err : Option Int) : Prop :=
  ∃ a body e b, text = a ++ body ++ e ++ b ∧ LineStart a ∧ DefLines sflag l body ∧
    match err with
    | none => e = []
    | some v => ∃ d, Decimal v d ∧ e = txt "#define YYERRCODE " ++ d ++ [10]

end Verif.Spec.OutText
