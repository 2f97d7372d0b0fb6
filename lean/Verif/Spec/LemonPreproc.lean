/-
What the conditional compilation of lemon should do: conditions and their values, and texts made of
properly nested conditionals.  Bytes are numbers.
-/
set_option autoImplicit false
namespace Verif.Lemon

/-- white space -/
def Blank (w : List Nat) : Prop := ∀ c ∈ w, c = 32 ∨ (9 ≤ c ∧ c ≤ 13)

/-- a letter -/
def Letter (c : Nat) : Prop := (65 ≤ c ∧ c ≤ 90) ∨ (97 ≤ c ∧ c ≤ 122)

/-- a letter, a digit or `_` -/
def WordChar (c : Nat) : Prop := Letter c ∨ (48 ≤ c ∧ c ≤ 57) ∨ c = 95

/-- the name of a macro: a letter, then letters, digits and `_` -/
def IsName (n : List Nat) : Prop := ∃ c t, n = c :: t ∧ Letter c ∧ ∀ d ∈ t, WordChar d

/-- a condition, or an operand of one -/
inductive Part where
  | operand
  | condition

/-- `Means defs part s b us`: the text `s` is a well-formed condition (or operand), its value is `b`
when exactly the macros `defs` are defined, and `us` are the names that must be looked up when
operators group to the right and an operand that cannot matter is skipped.

    operand   ::= name | "!" operand | "(" condition ")"
    condition ::= operand | operand "&&" condition | operand "||" condition
-/
inductive Means (defs : List (List Nat)) : Part → List Nat → Bool → List (List Nat) → Prop
  | name (n : List Nat) : IsName n → Means defs .operand n (decide (n ∈ defs)) [n]
  | not (w s : List Nat) (b : Bool) (us : List (List Nat)) : Blank w → Means defs .operand s b us →
      Means defs .operand (33 :: (w ++ s)) (!b) us
  | paren (s : List Nat) (b : Bool) (us : List (List Nat)) : Means defs .condition s b us →
      Means defs .operand (40 :: (s ++ [41])) b us
  | only (w s w' : List Nat) (b : Bool) (us : List (List Nat)) : Blank w → Means defs .operand s b us →
      Blank w' → Means defs .condition (w ++ s ++ w') b us
  | and (w s w' r : List Nat) (a b : Bool) (us us' : List (List Nat)) : Blank w →
      Means defs .operand s a us → Blank w' → Means defs .condition r b us' →
      Means defs .condition (w ++ s ++ w' ++ [38, 38] ++ r) (a && b) (us ++ if a then us' else [])
  | or (w s w' r : List Nat) (a b : Bool) (us us' : List (List Nat)) : Blank w →
      Means defs .operand s a us → Blank w' → Means defs .condition r b us' →
      Means defs .condition (w ++ s ++ w' ++ [124, 124] ++ r) (a || b) (us ++ if a then [] else us')

/-- parentheses match -/
inductive Nested : List Nat → Prop
  | nil : Nested []
  | char (c : Nat) (s : List Nat) : c ≠ 40 → c ≠ 41 → Nested s → Nested (c :: s)
  | pair (q s : List Nat) : Nested q → Nested s → Nested (40 :: (q ++ 41 :: s))

/-- white space and `!` -/
def Signs (w : List Nat) : Prop := ∀ c ∈ w, c = 33 ∨ c = 32 ∨ (9 ≤ c ∧ c ≤ 13)

/-- is the number of `!` odd? -/
def Flips (w : List Nat) : Bool := decide (w.count 33 % 2 = 1)

mutual

/-- `Operand defs p o r b us`: in front of the text `r`, `o` is taken for an operand with the value
`b`.  `p` is the value so far.  The third case is an opening parenthesis that is never closed. -/
inductive Operand (defs : List (List Nat)) : Bool → List Nat → List Nat → Bool → List (List Nat) → Prop
  | name (p : Bool) (w n r : List Nat) : Signs w → IsName n → (∀ c ∈ r.head?, ¬ WordChar c) →
      Operand defs p (w ++ n) r (decide (n ∈ defs) ^^ Flips w) [n]
  | paren (p : Bool) (w q r : List Nat) (b : Bool) (us : List (List Nat)) : Signs w → Nested q →
      Taken defs false q b us → Operand defs p (w ++ 40 :: (q ++ [41])) r (b ^^ Flips w) us
  | opened (p : Bool) (w r : List Nat) : Signs w → (∀ q r', Nested q → r ≠ q ++ 41 :: r') →
      Operand defs p (w ++ [40]) r (p ^^ Flips w) []

/-- `Taken defs p s b us`: the texts lemon really accepts as conditions; `p` is the value so far
(false, or true behind `&&`).  Besides the well-formed conditions these are texts that end too early
(first case), arbitrary text behind an operator whose left operand decides, and parentheses that are
never closed. -/
inductive Taken (defs : List (List Nat)) : Bool → List Nat → Bool → List (List Nat) → Prop
  | stop (p : Bool) (s : List Nat) : Signs s → Taken defs p s p []
  | last (p : Bool) (o w : List Nat) (b : Bool) (us : List (List Nat)) : Operand defs p o w b us → Blank w →
      Taken defs p (o ++ w) b us
  | andNo (p : Bool) (o w r : List Nat) (us : List (List Nat)) : Blank w →
      Operand defs p o (w ++ [38, 38] ++ r) false us → Taken defs p (o ++ (w ++ [38, 38] ++ r)) false us
  | andGo (p : Bool) (o w r : List Nat) (b : Bool) (us us' : List (List Nat)) : Blank w →
      Operand defs p o (w ++ [38, 38] ++ r) true us → Taken defs true r b us' →
      Taken defs p (o ++ (w ++ [38, 38] ++ r)) b (us ++ us')
  | orYes (p : Bool) (o w r : List Nat) (us : List (List Nat)) : Blank w →
      Operand defs p o (w ++ [124, 124] ++ r) true us → Taken defs p (o ++ (w ++ [124, 124] ++ r)) true us
  | orGo (p : Bool) (o w r : List Nat) (b : Bool) (us us' : List (List Nat)) : Blank w →
      Operand defs p o (w ++ [124, 124] ++ r) false us → Taken defs false r b us' →
      Taken defs p (o ++ (w ++ [124, 124] ++ r)) b (us ++ us')

end

/-! ### conditional compilation -/

/-- every byte but the line breaks replaced by a space -/
def blanked (s : List Nat) : List Nat := s.map fun c => if c = 10 then 10 else 32

/-- a line `%endif`: white space (or the line break) must follow the keyword -/
def EndLine (l : List Nat) : Prop :=
  ∃ c t, l = [37, 101, 110, 100, 105, 102] ++ c :: t ∧ Blank [c]

/-- a line `%else` -/
def ElseLine (l : List Nat) : Prop :=
  ∃ c t, l = [37, 101, 108, 115, 101] ++ c :: t ∧ Blank [c]

/-- a line `%if`, `%ifdef` or `%ifndef` (`neg`) with the condition `cond`; a space must follow the
keyword -/
def IfLine (neg : Bool) (cond l : List Nat) : Prop :=
  ∃ kw e, ((kw = [37, 105, 102] ∧ neg = false) ∨ (kw = [37, 105, 102, 100, 101, 102] ∧ neg = false) ∨
      (kw = [37, 105, 102, 110, 100, 101, 102] ∧ neg = true)) ∧
    l = kw ++ 32 :: (cond ++ e) ∧ 10 ∉ cond ∧ (e = [] ∨ e = [10])

/-- any other line -/
def PlainLine (l : List Nat) : Prop := ¬ EndLine l ∧ ¬ ElseLine l ∧ ¬ ∃ neg cond, IfLine neg cond l

/-- properly nested conditionals: plain lines, conditionals without and with `%else` -/
inductive Body where
  | nil
  | text (l : List Nat) (rest : Body)
  | ifEnd (o : List Nat) (b : Body) (e : List Nat) (rest : Body)
  | ifElse (o : List Nat) (b : Body) (m : List Nat) (b' : Body) (e : List Nat) (rest : Body)

/-- the lines of a body in order -/
def Body.lines : Body → List (List Nat)
  | .nil => []
  | .text l rest => l :: rest.lines
  | .ifEnd o b e rest => o :: (b.lines ++ e :: rest.lines)
  | .ifElse o b m b' e rest => o :: (b.lines ++ m :: (b'.lines ++ e :: rest.lines))

/-- the text of a body -/
def Body.raw (b : Body) : List Nat := b.lines.flatten

/-- the lines of a body are what they are meant to be -/
def Body.Proper : Body → Prop
  | .nil => True
  | .text l rest => PlainLine l ∧ rest.Proper
  | .ifEnd o b e rest => (∃ neg cond, IfLine neg cond o) ∧ b.Proper ∧ EndLine e ∧ rest.Proper
  | .ifElse o b m b' e rest =>
    (∃ neg cond, IfLine neg cond o) ∧ b.Proper ∧ ElseLine m ∧ b'.Proper ∧ EndLine e ∧ rest.Proper

/-- every line has one line break, at its end; only the last one may lack it -/
def Broken : List (List Nat) → Prop
  | [] => True
  | l :: ls => ((∃ b, l = b ++ [10] ∧ 10 ∉ b) ∨ (10 ∉ l ∧ ls = [])) ∧ Broken ls

/-- `Keeps defs b out us`: with exactly the macros `defs` defined, `out` is the text `b` with the lines
of its conditionals and the branches not taken blanked; `us` are the names looked up on the way.
Conditions inside of branches not taken need not be well-formed. -/
inductive Keeps (defs : List (List Nat)) : Body → List Nat → List (List Nat) → Prop
  | nil : Keeps defs .nil [] []
  | text (l : List Nat) (rest : Body) (out : List Nat) (us : List (List Nat)) : Keeps defs rest out us →
      Keeps defs (.text l rest) (l ++ out) us
  | ifEndYes (o : List Nat) (b : Body) (e : List Nat) (rest : Body) (neg v : Bool) (cond out out' : List Nat)
      (us us' us'' : List (List Nat)) :
      IfLine neg cond o → Means defs .condition cond v us → (v ^^ neg) = true →
      Keeps defs b out us' → Keeps defs rest out' us'' →
      Keeps defs (.ifEnd o b e rest) (blanked o ++ out ++ blanked e ++ out') (us ++ us' ++ us'')
  | ifEndNo (o : List Nat) (b : Body) (e : List Nat) (rest : Body) (neg v : Bool) (cond out' : List Nat)
      (us us'' : List (List Nat)) :
      IfLine neg cond o → Means defs .condition cond v us → (v ^^ neg) = false →
      Keeps defs rest out' us'' →
      Keeps defs (.ifEnd o b e rest) (blanked o ++ blanked b.raw ++ blanked e ++ out') (us ++ us'')
  | ifElseYes (o : List Nat) (b : Body) (m : List Nat) (b' : Body) (e : List Nat) (rest : Body) (neg v : Bool)
      (cond out out' : List Nat) (us us' us'' : List (List Nat)) :
      IfLine neg cond o → Means defs .condition cond v us → (v ^^ neg) = true →
      Keeps defs b out us' → Keeps defs rest out' us'' →
      Keeps defs (.ifElse o b m b' e rest)
        (blanked o ++ out ++ blanked m ++ blanked b'.raw ++ blanked e ++ out') (us ++ us' ++ us'')
  | ifElseNo (o : List Nat) (b : Body) (m : List Nat) (b' : Body) (e : List Nat) (rest : Body) (neg v : Bool)
      (cond out out' : List Nat) (us us' us'' : List (List Nat)) :
      IfLine neg cond o → Means defs .condition cond v us → (v ^^ neg) = false →
      Keeps defs b' out us' → Keeps defs rest out' us'' →
      Keeps defs (.ifElse o b m b' e rest)
        (blanked o ++ blanked b.raw ++ blanked m ++ out ++ blanked e ++ out') (us ++ us' ++ us'')

/-- `n` is the name at position `j` and at no earlier one -/
def FirstAt (names : List (List Nat)) (n : List Nat) (j : Nat) : Prop :=
  names[j]? = some n ∧ ∀ k < j, names[k]? ≠ some n

/-- the marks of options after the names `us` were looked up: besides the options marked before, the
first option with each of these names -/
def MarkedBy (names us : List (List Nat)) (before after : List Bool) : Prop :=
  after.length = before.length ∧
  ∀ j < before.length, (after[j]? = some true ↔ before[j]? = some true ∨ ∃ n ∈ us, FirstAt names n j)

end Verif.Lemon
