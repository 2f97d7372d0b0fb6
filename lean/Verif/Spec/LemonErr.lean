import Verif.Spec.LemonRun
/-
Specification: errors, and what becomes of tokens and symbols, in terms of the events of a parser
made by lemon.  `E` is the error symbol if there is one.
-/
set_option autoImplicit false
namespace Verif.Lemon

/-- the events by which an error shows, reported or not: a token is thrown away, or the error symbol
is put on the stack -/
def Ev.disturbs (E : Option Nat) : Ev → Bool
  | .discard _ => true
  | .shift X => E == some X
  | _ => false

/-- number of tokens put on the stack -/
def tokensShifted (E : Option Nat) (evs : List Ev) : Nat := evs.countP fun | .shift X => !(E == some X) | _ => false

/-- `Calm E ends n evs`: since each error at least `n` tokens have been shifted, or one of the events
`ends` has occurred. -/
def Calm (E : Option Nat) (ends : Ev → Prop) (n : Nat) (evs : List Ev) : Prop :=
  ∀ a e b, evs = a ++ e :: b → e.disturbs E = true → (∃ x ∈ b, ends x) ∨ n ≤ tokensShifted E b

/-- the events by which the parser is done with the token it was given -/
def Ev.consumes (E : Option Nat) : Ev → Bool
  | .discard _ => true
  | .shift X => !(E == some X)
  | .accept => true
  | _ => false

/-- `Uses T s evs s'`: the events are those of a parser that treats symbols with care.  At first the
symbols `s` are on its stack, at last `s'` (the top first).  A symbol leaves the stack in one of
three ways: a rule uses it, its destructor is called, or it is the only symbol left and the parser
accepts.  When the parser fails or its stack overflows, no symbols are left. -/
inductive Uses (T : Tables) : List Nat → List Ev → List Nat → Prop
  | done (s : List Nat) : Uses T s [] s
  | shift {s s' : List Nat} {evs : List Ev} (X : Nat) (h : Uses T (X :: s) evs s') : Uses T s (.shift X :: evs) s'
  | pop {s s' : List Nat} {evs : List Ev} (X : Nat) (h : Uses T s evs s') : Uses T (X :: s) (.pop X :: evs) s'
  | reduce {s s' : List Nat} {evs : List Ev} (r A : Nat) (α : List Nat) (hA : T.ruleLhs[r]? = some A) (hα : T.ruleNRhs[r]? = some α.length)
      (h : Uses T (A :: s) evs s') : Uses T (α ++ s) (.reduce r :: evs) s'
  | syntaxError {s s' : List Nat} {evs : List Ev} (t : Nat) (h : Uses T s evs s') : Uses T s (.syntaxError t :: evs) s'
  | discard {s s' : List Nat} {evs : List Ev} (t : Nat) (h : Uses T s evs s') : Uses T s (.discard t :: evs) s'
  | failed {s' : List Nat} {evs : List Ev} (h : Uses T [] evs s') : Uses T [] (.failed :: evs) s'
  | overflow {s' : List Nat} {evs : List Ev} (h : Uses T [] evs s') : Uses T [] (.overflow :: evs) s'
  | accept {s' : List Nat} {evs : List Ev} (X : Nat) (h : Uses T [] evs s') : Uses T [X] (.accept :: evs) s'

/-- the symbols on the stack of the parser -/
def PState.symbols (p : PState) : List Nat := p.stack.dropLast.map Prod.snd

end Verif.Lemon
