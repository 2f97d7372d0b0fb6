import Verif.Spec.ByaccCode
/-
Specification: the parts of a grammar file for byacc.
-/
set_option autoImplicit false
namespace Verif.Spec.YText
open Byacc (Assoc)
open Byacc.Rd (Kw)

/-! Declarations -/

/-- A declaration. -/
inductive Decl
  /-- `%token`, `%left`, .. with the symbols and their codes -/
  | tokens (a : Assoc) (tag : Option (List Nat)) (items : List (Sym × Option Nat))
  /-- `%type` -/
  | types (tag : Option (List Nat)) (items : List Sym)
  | start (name : List Nat)
  | expect (n : Nat)
  | expectRR (n : Nat)
  /-- `%{ .. %}` and how it is copied -/
  | text (out : List Nat)
  | union
  /-- `%ident`, and keywords without effect here: `%pure-parser`, `%locations`, .. -/
  | other
deriving DecidableEq, Repr

/-- The symbols of a declaration of tokens, each with a number if one follows. -/
inductive ItemsAt : List (Sym × Option Nat) → List Nat → List Nat → Prop
  | nil (t u : List Nat) : Skips t u → ¬ AtEnd u → ¬ SymStart u → ItemsAt [] t u
  | sym (x : Sym) (xs : List (Sym × Option Nat)) (t u v w z : List Nat) : Skips t u → SymAt x u v → Skips v w → NotNext Digit w →
      ItemsAt xs w z → ItemsAt ((x, none) :: xs) t z
  | num (x : Sym) (n : Nat) (xs : List (Sym × Option Nat)) (t u v w y z : List Nat) : Skips t u → SymAt x u v → Skips v w → NumberAt n w y →
      n ≤ 2147483647 → ItemsAt xs y z → ItemsAt ((x, some n) :: xs) t z

/-- The symbols of a declaration of types. -/
inductive NamesAt : List Sym → List Nat → List Nat → Prop
  | nil (t u : List Nat) : Skips t u → ¬ AtEnd u → ¬ SymStart u → NamesAt [] t u
  /-- (arguments in parentheses are not treated here) -/
  | cons (x : Sym) (xs : List Sym) (t u v w z : List Nat) : Skips t u → SymAt x u v → Skips v w → ((∃ n, x = .name n) → NotNext (· = 40) w) →
      NamesAt xs w z → NamesAt (x :: xs) t z

/-- A tag, if there is one, and what follows. -/
def TaggedAt {α : Type} (at_ : α → List Nat → List Nat → Prop) (tag : Option (List Nat)) (x : α) (t u : List Nat) : Prop :=
  ∃ t1, Skips t t1 ∧ ¬ AtEnd t1 ∧ ((tag = none ∧ NotNext (· = 60) t1 ∧ at_ x t1 u) ∨ ∃ g t2, tag = some g ∧ TagAt g t1 t2 ∧ at_ x t2 u)

/-- What a keyword declares. -/
def declares : List (Kw × Assoc) :=
  [(.TOKEN, .TOKEN), (.LEFT, .LEFT), (.RIGHT, .RIGHT), (.NONASSOC, .NONASSOC), (.PRECEDENCE, .PRECEDENCE)]

/-- keywords without effect here -/
def flags : List Kw := [.PURE_PARSER, .TOKEN_TABLE, .ERROR_VERBOSE, .LOCATIONS, .DEBUG, .YACC]

/-- The number behind `%expect`, on the same line; one character is skipped first. -/
def ExpectAt (n : Nat) (t u : List Nat) : Prop :=
  ∃ c sp r, t = c :: (sp ++ r) ∧ c ≠ 10 ∧ (∀ d ∈ sp, LineSpace d) ∧ NumberAt n r u ∧ n ≤ 2147483647

/-- The string behind `%ident`; the end of the line ends it too. -/
def IdentAt (t u : List Nat) : Prop :=
  ∃ s r, Skips t (34 :: (s ++ r)) ∧ 10 ∉ s ∧ 34 ∉ s ∧ (r = 34 :: u ∨ (r = u ∧ NotNext (· ≠ 10) u))

/-- A declaration and the text behind it. -/
inductive DeclAt : Decl → List Nat → List Nat → Prop
  | tokens (k : Kw) (a : Assoc) (tag : Option (List Nat)) (items : List (Sym × Option Nat)) (t v u : List Nat) :
      KwAt k t v → (k, a) ∈ declares → TaggedAt ItemsAt tag items v u → DeclAt (.tokens a tag items) t u
  | types (tag : Option (List Nat)) (items : List Sym) (t v u : List Nat) : KwAt .TYPE t v → TaggedAt NamesAt tag items v u → DeclAt (.types tag items) t u
  | start (name t v w u : List Nat) : KwAt .START t v → Skips v w → SymAt (.name name) w u → DeclAt (.start name) t u
  | expect (n : Nat) (t v u : List Nat) : KwAt .EXPECT t v → ExpectAt n v u → DeclAt (.expect n) t u
  | expectRR (n : Nat) (t v u : List Nat) : KwAt .EXPECT_RR t v → ExpectAt n v u → DeclAt (.expectRR n) t u
  /-- a newline directly behind `%{` is left out, and one is added at the end if needed -/
  | text (o t v w u : List Nat) : KwAt .TEXT t v → (v = 10 :: w ∨ (v = w ∧ NotNext (· = 10) v)) → TextAt o w u →
      DeclAt (.text (if o = [] ∨ o.getLast? = some 10 then o else o ++ [10])) t u
  | union (t v u : List Nat) : KwAt .UNION t v → UnionAt 0 v u → DeclAt .union t u
  | ident (t v u : List Nat) : KwAt .IDENT t v → IdentAt v u → DeclAt .other t u
  | flag (k : Kw) (t u : List Nat) : KwAt k t u → k ∈ flags → DeclAt .other t u

/-- The declarations and the text behind `%%`. -/
inductive DeclsAt : List Decl → List Nat → List Nat → Prop
  | done (t v u : List Nat) : Skips t v → KwAt .MARK v u → DeclsAt [] t u
  | cons (d : Decl) (ds : List Decl) (t v w u : List Nat) : Skips t v → DeclAt d v w → DeclsAt ds w u → DeclsAt (d :: ds) t u

/-- Declarations allowed in front of the first rule. -/
def Decl.early : Decl → Prop
  | .start _ | .text _ => True
  | _ => False

inductive EarlyAt : List Decl → List Nat → List Nat → Prop
  | done (t u : List Nat) : Skips t u → NotNext Percent u → EarlyAt [] t u
  | cons (d : Decl) (ds : List Decl) (t v w u : List Nat) : Skips t v → DeclAt d v w → d.early → EarlyAt ds w u → EarlyAt (d :: ds) t u

/-! Rules -/

/-- What the rules consist of. -/
inductive RTok
  | sym (x : Sym)
  /-- a symbol followed by a colon -/
  | lhs (x : Sym)
  | bar
  | action (tabbed : Bool) (ps : List Part)
  | prec (x : Sym)
deriving DecidableEq, Repr

/-- A word in small or capital letters. -/
def WordAt (w : String) (t u : List Nat) : Prop :=
  ∃ s, t = s ++ u ∧ List.Forall₂ (fun a b => a = b ∨ (65 ≤ a ∧ a ≤ 90 ∧ b = a + 32)) s (txt w) ∧ NotNext NameChar u

/-- The rules end: end of the file, `%%`, or (see C54) `%empty`. -/
def RulesEnd (t : List Nat) : Prop :=
  AtEnd t ∨ ∃ p u, Percent p ∧ t = p :: u ∧ ((∃ c v, Percent c ∧ u = c :: v) ∨ ∃ v, WordAt "empty" u v)

/-- `%prec` or `%=` -/
def PrecAt (t u : List Nat) : Prop := ∃ p v, Percent p ∧ t = p :: v ∧ (v = 61 :: u ∨ WordAt "prec" v u)

inductive RTokAt : RTok → List Nat → List Nat → Prop
  /-- (arguments in parentheses are not treated here) -/
  | sym (x : Sym) (t v w : List Nat) : SymAt x t v → Skips v w → NotNext (fun c => c = 58 ∨ c = 40) w → RTokAt (.sym x) t w
  | lhs (x : Sym) (t v u : List Nat) : SymAt x t v → Skips v (58 :: u) → RTokAt (.lhs x) t u
  | bar (u : List Nat) : RTokAt .bar (124 :: u) u
  | action (tabbed : Bool) (ps : List Part) (t u : List Nat) : ActionAt tabbed ps t u → RTokAt (.action tabbed ps) t u
  | prec (x : Sym) (t v w u : List Nat) : PrecAt t v → Skips v w → SymAt x w u → RTokAt (.prec x) t u

/-- The rest of the rules.  What follows them (`%%` and code) is not treated here. -/
inductive RTokensAt : List RTok → List Nat → Prop
  | done (t u : List Nat) : Skips t u → RulesEnd u → RTokensAt [] t
  | cons (x : RTok) (xs : List RTok) (t u v : List Nat) : Skips t u → RTokAt x u v → RTokensAt xs v → RTokensAt (x :: xs) t

/-- A grammar file: declarations, declarations in front of the first rule, the left-hand side of the first rule, and the rest
of the rules. -/
structure File where
  decls : List Decl
  early : List Decl
  first : List Nat
  toks : List RTok
deriving DecidableEq, Repr

/-- The left-hand side of the first rule with its colon.  (A name starting with `$` is not accepted here.) -/
def FirstAt (name t u : List Nat) : Prop :=
  ∃ v, SymAt (.name name) t v ∧ NotNext (· = 36) t ∧ Skips v (58 :: u)

def FileAt (F : File) (t : List Nat) : Prop :=
  ∃ u v w, DeclsAt F.decls t u ∧ EarlyAt F.early u v ∧ FirstAt F.first v w ∧ RTokensAt F.toks w

end Verif.Spec.YText
