import Verif.Lemon.Read
import Verif.Spec.LemonFile
/-
Specification: what lemon's data structures have to hold after a grammar file was read.
-/
set_option autoImplicit false
namespace Verif.Lemon
open Verif.Spec.GFile

/-- the options of the model -/
def ropts (o : Opts) : ROpts := ⟨o.ignorePrec, o.noLines, o.file⟩

/-- the keyword of a declaration, and whether its argument is code -/
def Kw.text : Kw → String × Bool
  | .name => ("name", false) | .incl => ("include", true) | .code => ("code", true) | .tokenDestructor => ("token_destructor", true)
  | .defaultDestructor => ("default_destructor", true) | .tokenPrefix => ("token_prefix", false) | .syntaxError => ("syntax_error", true)
  | .parseAccept => ("parse_accept", true) | .parseFailure => ("parse_failure", true) | .stackOverflow => ("stack_overflow", true)
  | .extraArgument => ("extra_argument", false) | .extraContext => ("extra_context", false) | .tokenType => ("token_type", false)
  | .defaultType => ("default_type", false) | .stackSize => ("stack_size", false) | .expect => ("expect", false)
  | .startSymbol => ("start_symbol", false)

/-- the symbol for an element of the right side of a rule: alternatives behind a token make a multi-terminal -/
def refOf (cls : Word → Bool) (e : Elem) : RhsRef := if cls e.name ∨ e.alts = [] then .sym e.name else .alts (e.name :: e.alts)

/-- the data of a rule, given with the items that follow it -/
def ruleOf (o : Opts) (cls : Word → Bool) (p : Item × List Item) : RRule :=
  match p.1 with
  | .rule l a rhs line =>
    { lhs := l, lhsalias := a, rhs := rhs.map fun e => (refOf cls e, e.label), ruleline := line
      line := ((p.2.findSome? Item.codeOf).map Prod.fst).getD 0
      code := (p.2.findSome? Item.codeOf).map Prod.snd
      precsym := if o.ignorePrec then none else p.2.findSome? Item.markOf
      precsymDecl := p.2.any Item.isMark
      neverReduce := p.2.any Item.isNever }
  | _ => { lhs := [], lhsalias := none, rhs := [], ruleline := 0 }

/-- the data of a symbol -/
def symOf (o : Opts) (items : List Item) (x : Word) : Sym :=
  { name := x
    type := if isClass items x then .MULTITERMINAL else if Upper x then .TERMINAL else .NONTERMINAL
    fallback := fallbackOf items x
    prec := match precOf o items x with | some p => p.1 | none => -1
    assoc := match precOf o items x with | some p => p.2 | none => .UNK
    destructor := (destructorOf o items x).map Prod.snd
    destLineno := ((destructorOf o items x).map Prod.fst).getD 0
    datatype := typeOf items x
    subsym := membersOf items x }

/-- the data are those which the file states -/
structure Holds (o : Opts) (items : List Item) (s : RState) : Prop where
  rules : s.rules = (parts items).map (ruleOf o (isClass items))
  syms : s.syms = (names o items).map (symOf o items)
  args : ∀ k, s.args k = argOf o items k.text
  wildcard : s.wildcard = (wildcards items).head?
  yaccPrec : s.yaccPrec = (o.yacc || items.contains .yaccPrec)

/-- the reader is at the end of a rule or declaration -/
def RState.between (s : RState) : Prop := s.state = .INITIALIZE ∨ s.state = .WAITING_FOR_DECL_OR_RULE

end Verif.Lemon
