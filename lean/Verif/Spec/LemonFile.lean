import Verif.Lemon.Grammar
import Mathlib.Data.List.Forall2
/-
Specification: grammar files for lemon, and what they say.

A file is a list of rules and declarations (`Item`).  `IsFile` tells which words make up a file, `Valid` which files
are allowed, and the functions at the end what a file says.
-/
set_option autoImplicit false
namespace Verif.Spec.GFile
open Verif.Lemon (Assoc)

/-- words are lists of bytes -/
abbrev Word := List Nat

def text (s : String) : Word := s.toList.map Char.toNat

/-- the name of a token -/
def Upper (x : Word) : Prop := ∃ c t, x = c :: t ∧ 65 ≤ c ∧ c ≤ 90
/-- the name of a nonterminal or of a token class -/
def Lower (x : Word) : Prop := ∃ c t, x = c :: t ∧ 97 ≤ c ∧ c ≤ 122
def Letter (x : Word) : Prop := Upper x ∨ Lower x
/-- the argument of a declaration: code, a string, a name or a number -/
def Argument (x : Word) : Prop := Letter x ∨ ∃ c t, x = c :: t ∧ (c = 123 ∨ c = 34 ∨ (48 ≤ c ∧ c ≤ 57))

instance (x : Word) : Decidable (Upper x) :=
  match x with
  | [] => .isFalse (by rintro ⟨c, t, h, _⟩; simp at h)
  | c :: t => if h : 65 ≤ c ∧ c ≤ 90 then .isTrue ⟨c, t, rfl, h⟩ else .isFalse (by rintro ⟨c', t', h', h''⟩; simp at h'; obtain ⟨rfl, rfl⟩ := h'; exact h h'')

/-- what may follow a symbol on the right side of a rule: `|X` or `/X`, or an alias `(a)` -/
inductive Post
  | alt (sep : Nat) (X : Word)
  | label (a : Word)
  deriving DecidableEq, Repr

/-- a symbol on the right side of a rule with what follows it -/
structure Elem where
  name : Word
  posts : List Post
  deriving DecidableEq, Repr

/-- the tokens given as alternatives -/
def Elem.alts (e : Elem) : List Word := e.posts.filterMap fun | .alt _ X => some X | .label _ => none
/-- the alias; if there are more, the last counts -/
def Elem.label (e : Elem) : Option Word := (e.posts.filterMap fun | .label a => some a | .alt _ _ => none).getLast?

/-- A rule or declaration.  `line` is the number of the line of the full stop of a rule, of the code, or of the
argument. -/
inductive Item
  | rule (lhs : Word) (label : Option Word) (rhs : List Elem) (line : Nat)
  | code (text : Word) (line : Nat)
  | mark (X : Word)
  | arg (keyword : String) (a : Word) (line : Nat)
  | prec (assoc : Assoc) (Xs : List Word)
  | destructor (X a : Word) (line : Nat)
  | type (X a : Word) (line : Nat)
  | fallback (Xs : List Word)
  | token (Xs : List Word)
  | wildcard (Xs : List Word)
  /-- each token may have a separator in front -/
  | tokenClass (c : Word) (Xs : List (Option Nat × Word))
  | yaccPrec
  deriving DecidableEq, Repr

/-- the declarations with one argument; the second part tells whether the argument is C code, which gets a `#line`
directive -/
def argKeywords : List (String × Bool) := [("name", false), ("include", true), ("code", true), ("token_destructor", true),
  ("default_destructor", true), ("token_prefix", false), ("syntax_error", true), ("parse_accept", true), ("parse_failure", true),
  ("stack_overflow", true), ("extra_argument", false), ("extra_context", false), ("token_type", false), ("default_type", false),
  ("stack_size", false), ("expect", false), ("start_symbol", false)]

def precKeyword : Assoc → String
  | .LEFT => "left" | .RIGHT => "right" | .NONE => "nonassoc" | .PRECEDENCE => "precedence" | .UNK => ""

/-- a word on any line -/
def any (x : Word) : Option Nat × Word := (none, x)

def Post.words : Post → List (Option Nat × Word)
  | .alt sep X => [any (sep :: X)]
  | .label a => [any (text "("), any a, any (text ")")]

def Elem.words (e : Elem) : List (Option Nat × Word) := any e.name :: e.posts.flatMap Post.words

/-- the words of an item, some with line numbers -/
def Item.words : Item → List (Option Nat × Word)
  | .rule l a rhs line => [any l] ++ (match a with | none => [] | some a => [any (text "("), any a, any (text ")")])
      ++ [any (text "::=")] ++ rhs.flatMap Elem.words ++ [(some line, text ".")]
  | .code t line => [(some line, 123 :: t)]
  | .mark X => [any (text "["), any X, any (text "]")]
  | .arg k a line => [any (text "%"), any (text k), (some line, a)]
  | .prec a Xs => [any (text "%"), any (text (precKeyword a))] ++ Xs.map any ++ [any (text ".")]
  | .destructor X a line => [any (text "%"), any (text "destructor"), any X, (some line, a)]
  | .type X a line => [any (text "%"), any (text "type"), any X, (some line, a)]
  | .fallback Xs => [any (text "%"), any (text "fallback")] ++ Xs.map any ++ [any (text ".")]
  | .token Xs => [any (text "%"), any (text "token")] ++ Xs.map any ++ [any (text ".")]
  | .wildcard Xs => [any (text "%"), any (text "wildcard")] ++ Xs.map any ++ [any (text ".")]
  | .tokenClass c Xs => [any (text "%"), any (text "token_class"), any c] ++ (Xs.map fun x => any (x.1.toList ++ x.2)) ++ [any (text ".")]
  | .yaccPrec => [any (text "%"), any (text "yacc_prec")]

/-- a word with its line number is the given one -/
def Is (x : Option Nat × Word) (w : Nat × Word) : Prop := w.2 = x.2 ∧ ∀ l, x.1 = some l → w.1 = l

/-- the words `ws`, with line numbers, are those of the items -/
def IsFile (items : List Item) (ws : List (Nat × Word)) : Prop := List.Forall₂ Is (items.flatMap Item.words) ws

/-- options of lemon: `-u` (ignore precedences), `-l` (no `#line` directives), `-z` (precedences as in yacc); and the name of
the file -/
structure Opts where
  ignorePrec : Bool
  noLines : Bool
  yacc : Bool
  file : Word

/-- the symbols mentioned by an item, in order -/
def mentions (o : Opts) : Item → List Word
  | .rule l _ rhs _ => l :: rhs.flatMap fun e => e.name :: e.alts
  | .mark X => if o.ignorePrec then [] else [X]
  | .prec _ Xs => if o.ignorePrec then [] else Xs
  | .destructor X _ _ => [X]
  | .type X _ _ => [X]
  | .fallback Xs => Xs
  | .token Xs => Xs
  | .wildcard Xs => Xs
  | .tokenClass c Xs => c :: Xs.map Prod.snd
  | .code _ _ | .arg _ _ _ | .yaccPrec => []

/-- the symbols of a file in the order of their first mention; the symbol `$` is the first -/
def names (o : Opts) (items : List Item) : List Word := (text "$" :: items.flatMap (mentions o)).eraseDups

/-- `c` is declared as a token class -/
def isClass (items : List Item) (c : Word) : Bool := items.any fun | .tokenClass c' _ => c' == c | _ => false

def Item.isRule : Item → Bool
  | .rule .. => true
  | _ => false

/-- the text of the code that forbids to reduce by the rule -/
def neverReduce : Word := text "NEVER-REDUCE"

/-- every rule, with the items between it and the next rule: they may have code and a precedence for it -/
def parts : List Item → List (Item × List Item)
  | [] => []
  | it :: t => if it.isRule then (it, t.takeWhile fun i => !i.isRule) :: parts t else parts t

def Item.codeOf : Item → Option (Nat × Word)
  | .code t line => if t = neverReduce then none else some (line, t)
  | _ => none
def Item.markOf : Item → Option Word
  | .mark X => some X
  | _ => none

def Item.isMark : Item → Bool
  | .mark _ => true
  | _ => false

def Item.isNever : Item → Bool
  | .code t _ => t == neverReduce
  | _ => false

/-- the token `f` to which `x` falls back -/
def fallbackOf (items : List Item) (x : Word) : Option Word :=
  items.findSome? fun | .fallback (f :: Xs) => if x ∈ Xs then some f else none | _ => none

/-- the declarations of precedence, in order -/
def precs (items : List Item) : List (Assoc × List Word) := items.filterMap fun | .prec a Xs => some (a, Xs) | _ => none

/-- the precedence of a token: the number of the declaration with the token, counted from 1, and the
associativity -/
def precOf (o : Opts) (items : List Item) (x : Word) : Option (Nat × Assoc) :=
  if o.ignorePrec then none
  else (precs items).zipIdx.findSome? fun d => if x ∈ d.1.2 then some (d.2 + 1, d.1.1) else none

/-- the tokens of a class.  An alternative written behind the class in some rule becomes a member. -/
def membersOf (items : List Item) (c : Word) : List Word :=
  if isClass items c then
    items.flatMap fun
      | .tokenClass c' Xs => if c' = c then Xs.map Prod.snd else []
      | .rule _ _ rhs _ => rhs.flatMap fun e => if e.name = c then e.alts else []
      | _ => []
  else []

def wildcards (items : List Item) : List Word := items.flatMap fun | .wildcard Xs => Xs | _ => []

/-- the text of an argument without quotes or braces -/
def body (a : Word) : Word := if a.head? = some 34 ∨ a.head? = some 123 then a.tail else a

/-- `#line` directive -/
def directive (line : Nat) (file : Word) : Word :=
  text "#line " ++ text (toString line) ++ text " \"" ++ (file.flatMap fun c => if c = 92 then [92, 92] else [c]) ++ text "\"\n"

/-- The text `old`, and the argument of a further declaration.  With a directive, which begins on a new line, if the
argument is `code`; but not for code on the first line. -/
def addText (o : Opts) (code : Bool) (old : Word) (piece : Nat × Word) : Word :=
  old ++ (if code ∧ o.noLines = false ∧ 1 < piece.1 then (if old = [] ∨ old.getLast? = some 10 then [] else [10]) ++ directive piece.1 o.file else [])
    ++ body piece.2

/-- the declarations with keyword `k` -/
def argsOf (items : List Item) (k : String) : List (Nat × Word) :=
  items.filterMap fun | .arg k' a line => if k' = k then some (line, a) else none | _ => none

/-- The argument of keyword `k`.  If there are more declarations with the keyword, the arguments are joined. -/
def argOf (o : Opts) (items : List Item) (k : String × Bool) : Option Word :=
  if argsOf items k.1 = [] then none else some ((argsOf items k.1).foldl (addText o k.2) [])

def destructorsOf (items : List Item) (x : Word) : List (Nat × Word) :=
  items.filterMap fun | .destructor X a line => if X = x then some (line, a) else none | _ => none

/-- the code of the destructor, with the number of its first line: the first declaration gets no directive here -/
def destructorOf (o : Opts) (items : List Item) (x : Word) : Option (Nat × Word) :=
  match destructorsOf items x with
  | [] => none
  | p :: ps => some (p.1, ps.foldl (addText o true) (body p.2))

def typeOf (items : List Item) (x : Word) : Option Word :=
  items.findSome? fun | .type X a _ => if X = x then some (body a) else none | _ => none

/-- the items after the last rule -/
def sinceRule (items : List Item) : List Item := (items.reverse.takeWhile fun i => !i.isRule).reverse

/-- the item has the right form -/
def Item.Form : Item → Prop
  | .rule l a rhs _ => Lower l ∧ (∀ x, a = some x → Letter x) ∧ ∀ e ∈ rhs, Letter e.name ∧
      ∀ p ∈ e.posts, match p with | .alt sep X => (sep = 124 ∨ sep = 47) ∧ Upper X | .label a => Letter a
  | .code _ _ => True
  | .mark X => Upper X
  | .arg k a _ => k ∈ argKeywords.map Prod.fst ∧ Argument a
  | .prec a Xs => a ≠ .UNK ∧ ∀ X ∈ Xs, Upper X
  | .destructor X a _ => Letter X ∧ Argument a
  | .type X a _ => Letter X ∧ Argument a
  | .fallback Xs | .token Xs | .wildcard Xs => ∀ X ∈ Xs, Upper X
  | .tokenClass c Xs => Lower c ∧ ∀ X ∈ Xs, Upper X.2 ∧ ∀ sep, X.1 = some sep → sep = 124 ∨ sep = 47
  | .yaccPrec => True

/-- the item is allowed after the given ones -/
def Item.Allowed (o : Opts) (pre : List Item) : Item → Prop
  /- at most 1000 symbols; a nonterminal is no alternative -/
  | .rule _ _ rhs _ => rhs.length ≤ 1000 ∧ ∀ e ∈ rhs, e.alts ≠ [] → Upper e.name ∨ isClass pre e.name
  /- there is a rule, and it has no code yet -/
  | .code _ _ => (∃ i ∈ pre, i.isRule) ∧ (sinceRule pre).findSome? Item.codeOf = none
  /- there is a rule, and it has no precedence yet -/
  | .mark _ => (∃ i ∈ pre, i.isRule) ∧ (o.ignorePrec = false → (sinceRule pre).findSome? Item.markOf = none)
  /- no token gets a second precedence -/
  | .prec _ Xs => o.ignorePrec = false → Xs.Nodup ∧ ∀ X ∈ Xs, precOf o pre X = none
  /- only one type for a symbol -/
  | .type X _ _ => typeOf pre X = none
  /- only one fallback for a token -/
  | .fallback Xs => Xs.tail.Nodup ∧ ∀ X ∈ Xs.tail, fallbackOf pre X = none
  /- only one wildcard -/
  | .wildcard Xs => (wildcards pre).length + Xs.length ≤ 1
  /- the name of the class is new -/
  | .tokenClass c _ => c ∉ names o pre
  | _ => True

/-- the file is valid -/
def Valid (o : Opts) (items : List Item) : Prop := ∀ pre it post, items = pre ++ it :: post → it.Form ∧ it.Allowed o pre

end Verif.Spec.GFile
