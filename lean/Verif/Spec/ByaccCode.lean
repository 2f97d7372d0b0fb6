import Verif.Spec.ByaccText
/-
Specification: code in a grammar file for byacc, and what it is translated to.
-/
set_option autoImplicit false
namespace Verif.Spec.YText

/-! Code that is copied -/

/-- The inside of a string or character constant: no newline, no quote, but anything after a backslash. -/
inductive StrBody (q : Nat) : List Nat → Prop
  | nil : StrBody q []
  | plain (c : Nat) (s : List Nat) : c ≠ q → c ≠ 10 → c ≠ 92 → StrBody q s → StrBody q (c :: s)
  | esc (c : Nat) (s : List Nat) : StrBody q s → StrBody q (92 :: c :: s)

/-- a blank in each `*/` -/
inductive Spaced : List Nat → List Nat → Prop
  | nil : Spaced [] []
  | close (s s' : List Nat) : Spaced s s' → Spaced (42 :: 47 :: s) (42 :: 32 :: 47 :: s')
  | other (c : Nat) (s s' : List Nat) : ¬ [42, 47] <+: c :: s → Spaced s s' → Spaced (c :: s) (c :: s')

/-- A piece of C code and what it is copied as: strings and comments as a whole, anything else character by
character.  Comments with `//` are copied as comments with `/*`. -/
inductive PieceAt : List Nat → List Nat → List Nat → Prop
  | string (q : Nat) (s u : List Nat) : q = 39 ∨ q = 34 → StrBody q s → PieceAt (q :: (s ++ [q])) (q :: (s ++ q :: u)) u
  | block (s u : List Nat) : ¬ [42, 47] <:+: s ++ [42] → PieceAt (47 :: 42 :: (s ++ [42, 47])) (47 :: 42 :: (s ++ 42 :: 47 :: u)) u
  | line (s s' u : List Nat) : 10 ∉ s → NotNext (· ≠ 10) u → Spaced s s' → PieceAt (47 :: 42 :: (s' ++ [42, 47])) (47 :: 47 :: (s ++ u)) u
  | char (c : Nat) (u : List Nat) : c ≠ 39 → c ≠ 34 → ¬ [47, 42] <+: c :: u → ¬ [47, 47] <+: c :: u → PieceAt [c] (c :: u) u

/-- The end of code in `%{ %}`. -/
def TextEnd (t u : List Nat) : Prop := ∃ p, Percent p ∧ t = p :: 125 :: u

/-- The code up to `%}` and how it is copied. -/
inductive TextAt : List Nat → List Nat → List Nat → Prop
  | done (t u : List Nat) : TextEnd t u → TextAt [] t u
  | piece (o os t u v : List Nat) : (∀ w, ¬ TextEnd t w) → PieceAt o t u → TextAt os u v → TextAt (o ++ os) t v

/-- The rest of a union, at nesting depth `d`: up to the brace that brings it to 0. -/
inductive UnionAt : Int → List Nat → List Nat → Prop
  | last (u : List Nat) : UnionAt 1 (125 :: u) u
  | opening (d : Int) (t u : List Nat) : UnionAt (d + 1) t u → UnionAt d (123 :: t) u
  | closing (d : Int) (t u : List Nat) : d ≠ 1 → UnionAt (d - 1) t u → UnionAt d (125 :: t) u
  | piece (d : Int) (o t u v : List Nat) : NotNext (fun c => c = 123 ∨ c = 125) t → PieceAt o t u → UnionAt d u v → UnionAt d t v

/-! Actions -/

/-- What a reference means: the left-hand side, a symbol by its number (also one before the rule), or a name. -/
inductive RefTo
  | lhs
  | pos (n : Nat)
  | neg (n : Nat)
  | name
deriving DecidableEq, Repr

/-- A part of an action: copied code, a value (`$`), or a position in the source (`@`). -/
inductive Part
  | code (o : List Nat)
  | value (tag : Option (List Nat)) (r : RefTo)
  | place (r : RefTo)
deriving DecidableEq, Repr

/-- letters, digits, `_`, `$`: what identifiers in code consist of -/
def IdChar (c : Nat) : Prop := Letter c ∨ Digit c ∨ c = 95 ∨ c = 36

/-- digits, or none: 0 -/
def Number0At (n : Nat) (t u : List Nat) : Prop :=
  NumberAt n t u ∨ (n = 0 ∧ t = u ∧ NotNext Digit t)

/-- What follows `$` or `@` in a reference without tag; `named`: names are allowed. -/
inductive RefAt (named : Bool) : RefTo → List Nat → List Nat → Prop
  | lhs (u : List Nat) : RefAt named .lhs (36 :: u) u
  | pos (n : Nat) (t u : List Nat) : NumberAt n t u → n ≤ 2147483647 → RefAt named (.pos n) t u
  /-- (a minus sign without a number is taken as `-0`) -/
  | neg (n : Nat) (t u : List Nat) : Number0At n t u → n ≤ 2147483647 → RefAt named (.neg n) (45 :: t) u
  | name (s t u : List Nat) : named = true → t = s ++ u → (∃ c r, s = c :: r ∧ (Letter c ∨ c = 95)) → (∀ c ∈ s, IdChar c) → NotNext IdChar u →
      RefAt named .name t u

/-- What follows the tag in a reference with tag. -/
inductive TagRefAt : RefTo → List Nat → List Nat → Prop
  | lhs (u : List Nat) : TagRefAt .lhs (36 :: u) u
  | pos (n : Nat) (t u : List Nat) : NumberAt n t u → n ≤ 2147483647 → TagRefAt (.pos n) t u
  | neg (n : Nat) (t u : List Nat) : NumberAt n t u → n ≤ 2147483647 → TagRefAt (.neg n) (45 :: t) u
  | name (s t u : List Nat) : t = s ++ u → (∃ c r, s = c :: r ∧ (Letter c ∨ c = 95)) → (∀ c ∈ s, IdChar c) → NotNext IdChar u →
      TagRefAt .name t u

/-- A reference seems to start after `$`: such a place is not copied.  -/
def DollarStart (t : List Nat) : Prop := ∃ c u, t = c :: u ∧ (c = 60 ∨ c = 36 ∨ Digit c ∨ c = 45 ∨ Letter c ∨ c = 95)
/-- The same after `@`. -/
def AtStart (t : List Nat) : Prop := ∃ c u, t = c :: u ∧ (c = 36 ∨ Digit c ∨ c = 45)

/-- The part of an action at a place. -/
inductive PartAt : Part → List Nat → List Nat → Prop
  | value (r : RefTo) (t u : List Nat) : RefAt true r t u → PartAt (.value none r) (36 :: t) u
  | tagged (tag : List Nat) (r : RefTo) (t u v : List Nat) : TagAt tag t u → TagRefAt r u v → PartAt (.value (some tag) r) (36 :: t) v
  | place (r : RefTo) (t u : List Nat) : RefAt false r t u → PartAt (.place r) (64 :: t) u
  /-- an identifier is copied as a whole, even if it contains a `$` -/
  | ident (c : Nat) (s u : List Nat) : Letter c ∨ c = 95 ∨ (c = 36 ∧ ¬ DollarStart (s ++ u)) → (∀ d ∈ s, IdChar d) → NotNext IdChar u →
      PartAt (.code (c :: s)) (c :: (s ++ u)) u
  | copied (o t u : List Nat) : NotNext (fun c => Letter c ∨ c = 95 ∨ c = 36 ∨ c = 123 ∨ c = 125 ∨ c = 59) t →
      (∀ v, t = 64 :: v → ¬ AtStart v) → PieceAt o t u → PartAt (.code o) t u

/-- The parts of an action at nesting depth `d`: it ends with the brace that closes it, or with a semicolon outside of braces. -/
inductive PartsAt : Int → List Part → List Nat → List Nat → Prop
  | semicolon (d : Int) (u : List Nat) : d ≤ 0 → PartsAt d [.code [59]] (59 :: u) u
  | last (d : Int) (u : List Nat) : d ≤ 1 → PartsAt d [.code [125]] (125 :: u) u
  | semi (d : Int) (ps : List Part) (t u : List Nat) : 0 < d → PartsAt d ps t u → PartsAt d (.code [59] :: ps) (59 :: t) u
  | opening (d : Int) (ps : List Part) (t u : List Nat) : PartsAt (d + 1) ps t u → PartsAt d (.code [123] :: ps) (123 :: t) u
  | closing (d : Int) (ps : List Part) (t u : List Nat) : 1 < d → PartsAt (d - 1) ps t u → PartsAt d (.code [125] :: ps) (125 :: t) u
  | part (d : Int) (p : Part) (ps : List Part) (t u v : List Nat) : PartAt p t u → PartsAt d ps u v → PartsAt d (p :: ps) t v

/-- white space within a line -/
def LineSpace (c : Nat) : Prop := Space c ∧ c ≠ 10

/-- An action: `{ .. }`, or `=` and either that or code up to a semicolon.  `tabbed`: it is written behind a tab. -/
def ActionAt (tabbed : Bool) (ps : List Part) (t u : List Nat) : Prop :=
  ∃ t1, ((t = t1 ∧ ∃ r, t = 123 :: r) ∨ t = 61 :: t1) ∧
    ((tabbed = true ∧ ∃ sp r, t1 = sp ++ 123 :: r ∧ (∀ c ∈ sp, LineSpace c) ∧ PartsAt 0 ps (123 :: r) u) ∨
     (tabbed = false ∧ (¬ ∃ sp r, t1 = sp ++ 123 :: r ∧ ∀ c ∈ sp, LineSpace c) ∧ PartsAt 0 ps t1 u))

/-! What actions are translated to -/

/-- A number in decimal. -/
def Decimal (i : Int) (s : List Nat) : Prop :=
  ∃ ds, ds ≠ [] ∧ (∀ d ∈ ds, Digit d) ∧ (ds.head? = some 48 → ds = [48]) ∧ value ds = i.natAbs ∧ s = if i < 0 then 45 :: ds else ds

/-- `base[i]` -/
def Indexed (base : String) (i : Int) (s : List Nat) : Prop := ∃ d, Decimal i d ∧ s = txt base ++ 91 :: (d ++ [93])

/-- The types known where an action stands: that of the left-hand side, those of the symbols to the left of the action. -/
structure Types where
  lhs : Option (List Nat)
  rhs : List (Option (List Nat))
deriving DecidableEq, Repr

/-- The place on the stack a reference means, counted from the top (0, -1, ..), if the action follows `n` symbols: the first of
them is `1 - n`. -/
def offset (n : Nat) : RefTo → Option Int
  | .lhs => none
  | .pos i => some ((i : Int) - n)
  | .neg i => some (-(i : Int) - n)
  | .name => some (-(n : Int))

/-- A reference to a value, without its type. -/
def ValueRef (n : Nat) (r : RefTo) (s : List Nat) : Prop :=
  match offset n r with
  | none => s = txt "yyval"
  | some i => Indexed "yystack.l_mark" i s

/-- The type of a reference without tag: `some none` if it has none; `none` if it needs one and has none.  `tags`: there was
a tag in the file before. -/
def typeOf (x : Types) (tags : Bool) (r : RefTo) : Option (Option (List Nat)) :=
  if tags = false then some none
  else
    match r with
    | .lhs => x.lhs.map some
    | .pos i => if x.rhs = [] then some none else if i = 0 then none else (x.rhs[i - 1]?).bind fun y => y.map some
    | .neg _ => none
    | .name => some none

/-- One part of an action is translated to `s`; `tags`: there was a tag in the file before, `tags'`: also afterwards. -/
inductive PartOut (x : Types) : Bool → Part → List Nat → Bool → Prop
  | code (tags : Bool) (o : List Nat) : PartOut x tags (.code o) o tags
  | plain (tags : Bool) (r : RefTo) (s : List Nat) : typeOf x tags r = some none → ValueRef x.rhs.length r s → PartOut x tags (.value none r) s tags
  | typed (tags : Bool) (r : RefTo) (s ty : List Nat) : typeOf x tags r = some (some ty) → ValueRef x.rhs.length r s →
      PartOut x tags (.value none r) (s ++ 46 :: ty) tags
  | tagged (tags : Bool) (r : RefTo) (s tag : List Nat) : ValueRef x.rhs.length r s → PartOut x tags (.value (some tag) r) (s ++ 46 :: tag) true
  | here (tags : Bool) : PartOut x tags (.place .lhs) (txt "yyloc") tags
  | place (tags : Bool) (r : RefTo) (i : Int) (s : List Nat) : offset x.rhs.length r = some i → Indexed "yystack.p_mark" i s →
      PartOut x tags (.place r) s tags

inductive PartsOut (x : Types) : Bool → List Part → List Nat → Bool → Prop
  | nil (tags : Bool) : PartsOut x tags [] [] tags
  | cons (tags tags' tags'' : Bool) (p : Part) (ps : List Part) (o os : List Nat) : PartOut x tags p o tags' → PartsOut x tags' ps os tags'' →
      PartsOut x tags (p :: ps) (o ++ os) tags''

end Verif.Spec.YText
