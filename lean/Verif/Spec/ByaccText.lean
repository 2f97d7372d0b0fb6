import Verif.Byacc.Front
import Mathlib.Data.List.Forall2
/-
Specification: the text of a grammar file for byacc.

A file is a list of bytes.  `XAt x t u` says: at the text `t` an `x` is written, and `u` is the text behind it.
-/
set_option autoImplicit false
namespace Verif.Spec.YText
open Byacc (Assoc)
open Byacc.Rd (Kw)

/-! Characters -/

def Space (c : Nat) : Prop := c = 32 ∨ (9 ≤ c ∧ c ≤ 13)
def Digit (c : Nat) : Prop := 48 ≤ c ∧ c ≤ 57
def Letter (c : Nat) : Prop := (65 ≤ c ∧ c ≤ 90) ∨ (97 ≤ c ∧ c ≤ 122)
/-- letters, digits, `_`, `.`, `$`: what names consist of -/
def NameChar (c : Nat) : Prop := Letter c ∨ Digit c ∨ c = 95 ∨ c = 46 ∨ c = 36
/-- letters, `_`, `.`, `$`: what names start with -/
def NameFirst (c : Nat) : Prop := Letter c ∨ c = 95 ∨ c = 46 ∨ c = 36

/-- the text does not go on with such a character -/
def NotNext (P : Nat → Prop) (t : List Nat) : Prop := ∀ c u, t = c :: u → ¬ P c

/-- "text" as bytes -/
def txt (s : String) : List Nat := s.toList.map Char.toNat

/-- the value of a decimal number -/
def value : List Nat → Nat
  | [] => 0
  | d :: ds => (d - 48) * 10 ^ ds.length + value ds

/-! Lines -/

/-- The line is a directive `#line n "file"` (anything may follow). -/
def LineDirective (l : List Nat) (n : Nat) (file : List Nat) : Prop :=
  ∃ a b c ds d rest, l = a ++ 35 :: (b ++ (txt "line" ++ (c ++ (ds ++ (d ++ 34 :: (file ++ 34 :: rest)))))) ∧
    (∀ x ∈ a, Space x) ∧ (∀ x ∈ b, Space x) ∧ (∀ x ∈ c, Space x) ∧ c ≠ [] ∧
    (∀ x ∈ ds, Digit x) ∧ ds ≠ [] ∧ (∀ x ∈ d, Space x) ∧ d ≠ [] ∧ 34 ∉ file ∧ file ≠ [] ∧ n = value ds

/-- The line is `#line n`, or `#line n "file` without the last quote. -/
def HalfDirective (l : List Nat) (n : Nat) : Prop :=
  ∃ a b c ds d rest, l = a ++ 35 :: (b ++ (txt "line" ++ (c ++ (ds ++ (d ++ rest))))) ∧
    (∀ x ∈ a, Space x) ∧ (∀ x ∈ b, Space x) ∧ (∀ x ∈ c, Space x) ∧ c ≠ [] ∧
    (∀ x ∈ ds, Digit x) ∧ ds ≠ [] ∧ (∀ x ∈ d, Space x) ∧ d ≠ [] ∧ n = value ds ∧
    (rest = [] ∨ ∃ f, rest = 34 :: f ∧ 34 ∉ f)

/-- A line of the file with the number and file name by which messages refer to it. -/
structure NLine where
  text : List Nat
  number : Int
  file : List Nat
deriving DecidableEq, Repr

/-- The lines `ls` of a file are read as `out`.  `n` and `f` are the number of the line before and the name of the file. -/
inductive ReadLines : Int → List Nat → List (List Nat) → List NLine → Prop
  | nil (n : Int) (f : List Nat) : ReadLines n f [] []
  /-- a directive sets the number of the next line and the file name, and is left out -/
  | directive (n : Int) (f : List Nat) (l : List Nat) (ls : List (List Nat)) (out : List NLine) (k : Nat) (g : List Nat) :
      LineDirective l k g → ReadLines (k - 1) g ls out → ReadLines n f (l :: ls) out
  /-- an unfinished directive sets its own number minus one, and is not left out -/
  | half (n : Int) (f : List Nat) (l : List Nat) (ls : List (List Nat)) (out : List NLine) (k : Nat) :
      HalfDirective l k → ReadLines (k - 1) f ls out → ReadLines n f (l :: ls) (⟨l, k - 1, f⟩ :: out)
  /-- any other line has the next number -/
  | line (n : Int) (f : List Nat) (l : List Nat) (ls : List (List Nat)) (out : List NLine) :
      (∀ k g, ¬ LineDirective l k g) → (∀ k, ¬ HalfDirective l k) → ReadLines (n + 1) f ls out →
      ReadLines n f (l :: ls) (⟨l, n + 1, f⟩ :: out)

/-- The lines of a text: each ends with its only newline; the last one gets one if it has none. -/
inductive Splits : List Nat → List (List Nat) → Prop
  | nil : Splits [] []
  | line (l : List Nat) (t : List Nat) (ls : List (List Nat)) : 10 ∉ l → Splits t ls → Splits (l ++ 10 :: t) ((l ++ [10]) :: ls)
  | last (l : List Nat) : 10 ∉ l → l ≠ [] → Splits l [l ++ [10]]

/-! White space and comments -/

/-- newline, blank, tab, form feed, return, vertical tab, comma, semicolon -/
def Blank (c : Nat) : Prop := c = 10 ∨ c = 32 ∨ c = 9 ∨ c = 12 ∨ c = 13 ∨ c = 11 ∨ c = 44 ∨ c = 59

/-- `t` starts neither with white space nor with a comment -/
def Stops (t : List Nat) : Prop := NotNext Blank t ∧ ¬ [47, 42] <+: t ∧ ¬ [47, 47] <+: t

/-- Between `t` and `u` there are only white space and comments, and `u` starts with neither. -/
inductive Skips : List Nat → List Nat → Prop
  | here (t : List Nat) : Stops t → Skips t t
  | blank (c : Nat) (t u : List Nat) : Blank c → Skips t u → Skips (c :: t) u
  /-- `/* s */`; the comment ends with the first `*/` -/
  | block (s t u : List Nat) : ¬ [42, 47] <:+: s ++ [42] → Skips t u → Skips (47 :: 42 :: (s ++ 42 :: 47 :: t)) u
  | line (s t u : List Nat) : 10 ∉ s → Skips t u → Skips (47 :: 47 :: (s ++ 10 :: t)) u
  | lineEnd (s : List Nat) : 10 ∉ s → Skips (47 :: 47 :: s) []

/-- The file ends at `t`.  (A byte 255 ends it as well.) -/
def AtEnd (t : List Nat) : Prop := t = [] ∨ ∃ u, t = 255 :: u

/-- `%`, or `\` instead -/
def Percent (c : Nat) : Prop := c = 37 ∨ c = 92

/-! Words -/

/-- The keywords of declarations. -/
def keywords : List (String × Kw) := [
  ("token", .TOKEN), ("term", .TOKEN), ("left", .LEFT), ("right", .RIGHT), ("nonassoc", .NONASSOC), ("binary", .NONASSOC),
  ("precedence", .PRECEDENCE), ("type", .TYPE), ("nterm", .TYPE), ("start", .START), ("union", .UNION),
  ("expect", .EXPECT), ("expect-rr", .EXPECT_RR), ("ident", .IDENT), ("code", .CODE), ("define", .DEFINE),
  ("destructor", .DESTRUCTOR), ("initial-action", .INITIAL_ACTION), ("lex-param", .LEX_PARAM), ("parse-param", .PARSE_PARAM),
  ("locations", .LOCATIONS), ("pure-parser", .PURE_PARSER), ("token-table", .TOKEN_TABLE), ("error-verbose", .ERROR_VERBOSE),
  ("debug", .DEBUG), ("yacc", .YACC)]

/-- Single characters behind `%`. -/
def marks : List (Nat × Kw) := [(123, .TEXT), (37, .MARK), (92, .MARK), (60, .LEFT), (62, .RIGHT), (48, .TOKEN), (50, .NONASSOC)]

/-- capital and small letters are the same, `_` and `-` too -/
def SameLetter (a b : Nat) : Prop := a = b ∨ (65 ≤ a ∧ a ≤ 90 ∧ b = a + 32) ∨ (a = 95 ∧ b = 45)

/-- what keywords may consist of -/
def KwChar (c : Nat) : Prop := Letter c ∨ Digit c ∨ c = 45 ∨ c = 95 ∨ c = 46 ∨ c = 36

/-- A keyword with its `%`. -/
def KwAt (k : Kw) (t u : List Nat) : Prop :=
  ∃ p w, Percent p ∧ t = p :: (w ++ u) ∧
    ((∃ name, (name, k) ∈ keywords ∧ List.Forall₂ SameLetter w (txt name) ∧ NotNext KwChar u) ∨ ∃ c, w = [c] ∧ (c, k) ∈ marks)

/-- Names that cannot be used. -/
def Reserved (name : List Nat) : Prop :=
  name = txt "." ∨ name = txt "$accept" ∨ name = txt "$end" ∨ ∃ ds, ds ≠ [] ∧ (∀ d ∈ ds, Digit d) ∧ name = 36 :: 36 :: ds

/-- A name is all characters that can belong to it. -/
def NameAt (name t u : List Nat) : Prop :=
  t = name ++ u ∧ (∀ c ∈ name, NameChar c) ∧ (∃ c r, name = c :: r ∧ NameFirst c) ∧ NotNext NameChar u

def NumberAt (n : Nat) (t u : List Nat) : Prop :=
  ∃ ds, ds ≠ [] ∧ (∀ d ∈ ds, Digit d) ∧ t = ds ++ u ∧ NotNext Digit u ∧ n = value ds

def Octal (c : Nat) : Prop := 48 ≤ c ∧ c ≤ 55

/-- the value of a hexadecimal digit -/
def HexDigit (c n : Nat) : Prop :=
  (Digit c ∧ n = c - 48) ∨ (65 ≤ c ∧ c ≤ 70 ∧ n = c - 55) ∨ (97 ≤ c ∧ c ≤ 102 ∧ n = c - 87)

/-- the value of a hexadecimal number -/
inductive Hex : List Nat → Nat → Prop
  | nil : Hex [] 0
  | snoc (ds : List Nat) (n c d : Nat) : Hex ds n → HexDigit c d → Hex (ds ++ [c]) (16 * n + d)

/-- escapes with a letter: `\a \b \f \n \r \t \v` -/
def escapes : List (Nat × Nat) := [(97, 7), (98, 8), (102, 12), (110, 10), (114, 13), (116, 9), (118, 11)]

/-- The characters `s` of a literal whose quote is `q`, from behind the first quote to behind the last one. -/
inductive LitBody (q : Nat) : List Nat → List Nat → List Nat → Prop
  | close (u : List Nat) : LitBody q [] (q :: u) u
  | plain (c : Nat) (s t u : List Nat) : c ≠ q → c ≠ 10 → c ≠ 92 → LitBody q s t u → LitBody q (c :: s) (c :: t) u
  /-- a backslash in front of a newline: both are ignored -/
  | join (s t u : List Nat) : LitBody q s t u → LitBody q s (92 :: 10 :: t) u
  /-- one to three octal digits, as many as there are -/
  | octal (ds : List Nat) (n : Nat) (s t u : List Nat) : ds ≠ [] → (∀ d ∈ ds, Octal d) →
      (ds.length = 3 ∨ (ds.length < 3 ∧ NotNext Octal t)) → n = ds.foldl (fun n d => 8 * n + (d - 48)) 0 → n ≤ 255 →
      LitBody q s t u → LitBody q (n :: s) (92 :: (ds ++ t)) u
  /-- `x` and hexadecimal digits, as many as there are -/
  | hex (ds : List Nat) (n : Nat) (s t u : List Nat) : ds ≠ [] → Hex ds n → NotNext (fun c => ∃ d, HexDigit c d) t → n ≤ 255 →
      LitBody q s t u → LitBody q (n :: s) (92 :: 120 :: (ds ++ t)) u
  | letter (c n : Nat) (s t u : List Nat) : (c, n) ∈ escapes → LitBody q s t u → LitBody q (n :: s) (92 :: c :: t) u
  /-- any other character after a backslash stands for itself -/
  | other (c : Nat) (s t u : List Nat) : c ≠ 10 → ¬ Octal c → c ≠ 120 → (∀ n, (c, n) ∉ escapes) → LitBody q s t u →
      LitBody q (c :: s) (92 :: c :: t) u

/-- A literal with the characters `s`, in single or double quotes. -/
def LiteralAt (s t u : List Nat) : Prop := ∃ q r, (q = 39 ∨ q = 34) ∧ t = q :: r ∧ LitBody q s r u

/-- A symbol as it is written: a name, or a literal with these characters (in quotes of either kind). -/
inductive Sym
  | name (n : List Nat)
  | lit (s : List Nat)
deriving DecidableEq, Repr

def SymAt : Sym → List Nat → List Nat → Prop
  | .name n, t, u => NameAt n t u ∧ ¬ Reserved n
  | .lit s, t, u => LiteralAt s t u

/-- Something that looks like a symbol starts here. -/
def SymStart (t : List Nat) : Prop := ∃ c u, t = c :: u ∧ (NameFirst c ∨ c = 39 ∨ c = 34)

/-- A tag in angle brackets.  (Tags start with a letter, `_` or `$`.) -/
def TagAt (tag t u : List Nat) : Prop :=
  ∃ t1 t2 t3, t = 60 :: t1 ∧ Skips t1 t2 ∧ NameAt tag t2 t3 ∧ NotNext (· = 46) t2 ∧ Skips t3 (62 :: u)

end Verif.Spec.YText
