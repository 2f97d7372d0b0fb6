import Verif.Spec.OutText
/-
Specification: strings in a generated file.
-/
set_option autoImplicit false
namespace Verif.Spec.OutText
open Spec.YText

/-- the escapes of C with one character -/
def cEscapes : List (Nat × Nat) :=
  [(34, 34), (39, 39), (63, 63), (92, 92), (97, 7), (98, 8), (102, 12), (110, 10), (114, 13), (116, 9), (118, 11)]

/-- The text between the quotes of a string of C, and the characters it stands for.  (Trigraphs are left out.) -/
inductive CBody : List Nat → List Nat → Prop
  | nil : CBody [] []
  | plain (c : Nat) (t s : List Nat) : c ≠ 34 → c ≠ 92 → c ≠ 10 → CBody t s → CBody (c :: t) (c :: s)
  | escape (c n : Nat) (t s : List Nat) : (c, n) ∈ cEscapes → CBody t s → CBody (92 :: c :: t) (n :: s)
  /-- one to three octal digits, as many as there are -/
  | octal (ds t s : List Nat) : ds ≠ [] → (∀ d ∈ ds, Octal d) → (ds.length = 3 ∨ (ds.length < 3 ∧ NotNext Octal t)) → CBody t s →
      CBody (92 :: (ds ++ t)) (ds.foldl (fun n d => 8 * n + (d - 48)) 0 :: s)
  /-- `x` and hexadecimal digits, as many as there are -/
  | hex (ds : List Nat) (n : Nat) (t s : List Nat) : ds ≠ [] → Hex ds n → NotNext (fun c => ∃ d, HexDigit c d) t → CBody t s →
      CBody (92 :: 120 :: (ds ++ t)) (n :: s)

/-- The text is a string of C with these characters. -/
def CString (t s : List Nat) : Prop := ∃ b, t = 34 :: (b ++ [34]) ∧ CBody b s

/-- an entry: 0, or a string with these characters -/
def StrEntry (t : List Nat) : Option (List Nat) → Prop
  | none => t = [48]
  | some s => CString t s

/-- The text is a list of strings and zeros; there may be white space before an entry, and a comma follows it. -/
inductive StrList : List Nat → List (Option (List Nat)) → Prop
  | nil (ws : List Nat) : (∀ c ∈ ws, Space c) → StrList ws []
  | cons (ws d t : List Nat) (s : Option (List Nat)) (l : List (Option (List Nat))) :
      (∀ c ∈ ws, Space c) → StrEntry d s → StrList t l → StrList (ws ++ (d ++ 44 :: t)) (s :: l)

/-- In the text an array of strings called `name` is defined, from the start of a line. -/
def HasStrArray (text : List Nat) (static : Bool) (name : List Nat) (l : List (Option (List Nat))) : Prop :=
  ∃ a body b, text = a ++ (if static then txt "static " else []) ++ txt "const char *const " ++ name ++ txt "[] = {\n" ++ body ++ txt "};\n" ++ b ∧
    LineStart a ∧ StrList body l

/-- A name of a symbol as the reader makes it: a word, or the name of a literal. -/
inductive SymName : List Nat → Prop
  | word (n : List Nat) : (∀ c ∈ n, NameChar c) → SymName n
  | lit (s : List Nat) : SymName (Byacc.litName s)

/-- The text is a name of a symbol that can be printed: no string (of other than one character) with a quote in it. -/
def NoQuote (n : List Nat) : Prop := ∀ s, n = Byacc.litName s → s.length = 1 ∨ 34 ∉ s

/-- a rule in words: `left : right ..` -/
def ruleText (lhs : List Nat) (rhs : List (List Nat)) : List Nat := lhs ++ txt " :" ++ rhs.flatMap (fun n => 32 :: n)

end Verif.Spec.OutText
