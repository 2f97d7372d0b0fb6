import Mathlib.Data.List.Infix
/-
Specification: the words of a grammar file for lemon.
-/
set_option autoImplicit false
namespace Verif.Spec.Words

def letter (c : Nat) : Prop := (65 ≤ c ∧ c ≤ 90) ∨ (97 ≤ c ∧ c ≤ 122)
def digit (c : Nat) : Prop := 48 ≤ c ∧ c ≤ 57
/-- letters, digits and underscores -/
def inName (c : Nat) : Prop := letter c ∨ digit c ∨ c = 95
def blank (c : Nat) : Prop := c = 32 ∨ (9 ≤ c ∧ c ≤ 13)

/-- the text of a C comment after `/*`: it ends with the first `*/` -/
def CommentRest (b : List Nat) : Prop := ∃ a, b = a ++ [42, 47] ∧ ¬ [42, 47] <:+: a ++ [42]

/-- the text between the quotes `q` of a literal of C: a backslash is followed by any character -/
inductive LiteralText (q : Nat) : List Nat → Prop
  | nil : LiteralText q []
  | char {c : Nat} {b : List Nat} (h : c ≠ q ∧ c ≠ 92) (hb : LiteralText q b) : LiteralText q (c :: b)
  | escape (c : Nat) {b : List Nat} (hb : LiteralText q b) : LiteralText q (92 :: c :: b)

/-- `CodeTo z e`: the text `z` consists of pieces of C code followed by `e`.  Comments, literals and blocks in
braces are pieces; braces in comments and literals do not count. -/
inductive CodeTo : List Nat → List Nat → Prop
  | nil (e : List Nat) : CodeTo e e
  | char {c : Nat} {t e : List Nat} (hc : c ≠ 123 ∧ c ≠ 125 ∧ c ≠ 34 ∧ c ≠ 39)
      (hs : c = 47 → t.head? ≠ some 47 ∧ t.head? ≠ some 42) (ht : CodeTo t e) : CodeTo (c :: t) e
  | comment {b t e : List Nat} (hb : CommentRest b) (ht : CodeTo t e) : CodeTo (47 :: 42 :: (b ++ t)) e
  | line {b t e : List Nat} (hb : 10 ∉ b) (ht : CodeTo t e) : CodeTo (47 :: 47 :: (b ++ 10 :: t)) e
  | literal {q : Nat} {b t e : List Nat} (hq : q = 34 ∨ q = 39) (hb : LiteralText q b) (ht : CodeTo t e) : CodeTo (q :: (b ++ q :: t)) e
  | block {t u e : List Nat} (hb : CodeTo t (125 :: u)) (ht : CodeTo u e) : CodeTo (123 :: t) e

/-- `Skips w rest`: the text `w`, followed by `rest`, separates words: white space or a comment -/
inductive Skips : List Nat → List Nat → Prop
  | blank {c : Nat} (h : blank c) (rest : List Nat) : Skips [c] rest
  | line {b rest : List Nat} (h : 10 ∉ b) (hr : rest.head? = some 10 ∨ rest = []) : Skips (47 :: 47 :: b) rest
  | comment {b : List Nat} (h : CommentRest b) (rest : List Nat) : Skips (47 :: 42 :: b) rest
  /-- a comment that is not ended -/
  | openComment {b : List Nat} (h : ¬ [42, 47] <:+: b) : Skips (47 :: 42 :: b) []

/-- `IsWord w x rest`: the text `w`, followed by `rest`, is the word `x`.  The closing quote of a string
and the closing brace of code are not part of the word. -/
inductive IsWord : List Nat → List Nat → List Nat → Prop
  | string {b : List Nat} (h : 34 ∉ b) (rest : List Nat) : IsWord (34 :: (b ++ [34])) (34 :: b) rest
  | code {b rest : List Nat} (h : CodeTo (b ++ 125 :: rest) (125 :: rest)) : IsWord (123 :: (b ++ [125])) (123 :: b) rest
  | name {c : Nat} {b rest : List Nat} (hc : letter c ∨ digit c) (hb : ∀ d ∈ b, inName d) (hr : ∀ d, rest.head? = some d → ¬ inName d) :
      IsWord (c :: b) (c :: b) rest
  | arrow (rest : List Nat) : IsWord [58, 58, 61] [58, 58, 61] rest
  | alternative {c d : Nat} {b rest : List Nat} (hc : c = 47 ∨ c = 124) (hd : letter d) (hb : ∀ e ∈ b, inName e)
      (hr : ∀ e, rest.head? = some e → ¬ inName e) : IsWord (c :: d :: b) (c :: d :: b) rest
  | char {c : Nat} {rest : List Nat} (hc : ¬ blank c ∧ ¬ letter c ∧ ¬ digit c ∧ c ≠ 34 ∧ c ≠ 123)
      (ha : c = 58 → rest.take 2 ≠ [58, 61]) (hb : c = 47 ∨ c = 124 → ∀ d, rest.head? = some d → ¬ letter d)
      (hs : c = 47 → rest.head? ≠ some 47 ∧ rest.head? ≠ some 42) : IsWord [c] [c] rest

/-- `Reads line z ws rest`: the text `z`, which begins on the given line, is divided into the words `ws`, each with the
number of the line on which it begins, and a rest -/
inductive Reads : Nat → List Nat → List (Nat × List Nat) → List Nat → Prop
  | nil (line : Nat) (z : List Nat) : Reads line z [] z
  | skip {line : Nat} {w rest e : List Nat} {ws : List (Nat × List Nat)} (hw : Skips w rest)
      (h : Reads (line + w.count 10) rest ws e) : Reads line (w ++ rest) ws e
  | word {line : Nat} {w x rest e : List Nat} {ws : List (Nat × List Nat)} (hw : IsWord w x rest)
      (h : Reads (line + w.count 10) rest ws e) : Reads line (w ++ rest) ((line, x) :: ws) e

/-- the text is divided into words -/
def HasWords (z : List Nat) (ws : List (Nat × List Nat)) : Prop := Reads 1 z ws []

/-- code that is not ended: a closing brace is missing at the end of the text -/
inductive OpenCode : List Nat → Prop
  | text {z : List Nat} (h : CodeTo z []) : OpenCode z
  | block {z t : List Nat} (h : CodeTo z (123 :: t)) (ht : OpenCode t) : OpenCode z

/-- code with a comment or a literal that is not ended -/
inductive StuckCode : List Nat → Prop
  | comment {z b : List Nat} (h : CodeTo z (47 :: 42 :: b)) (hb : ¬ [42, 47] <:+: b) : StuckCode z
  | line {z b : List Nat} (h : CodeTo z (47 :: 47 :: b)) (hb : 10 ∉ b) : StuckCode z
  | literal {q : Nat} {z b : List Nat} (h : CodeTo z (q :: b)) (hq : q = 34 ∨ q = 39) (hb : ∀ a t, b = a ++ q :: t → ¬ LiteralText q a) : StuckCode z
  | block {z t : List Nat} (h : CodeTo z (123 :: t)) (ht : StuckCode t) : StuckCode z

end Verif.Spec.Words
