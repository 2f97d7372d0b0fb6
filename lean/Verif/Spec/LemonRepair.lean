import Verif.Spec.LemonAccept
/-
Specification: what a parser made by lemon makes of an input with errors.
-/
set_option autoImplicit false
namespace Verif.Lemon

/-- The stack of a parser as seen from outside: for each symbol on the stack (the top first) the
tokens and error symbols that it was made of.  This is how an event changes it. -/
def keepStep (T : Tables) (k : List (List Nat)) : Ev → List (List Nat)
  | .shift X => [X] :: k
  | .reduce r => (k.take (T.ruleNRhs.getD r 0)).reverse.flatten :: k.drop (T.ruleNRhs.getD r 0)
  | .pop _ => k.tail
  | .failed => []
  | .overflow => []
  | .accept => []
  | .syntaxError _ => k
  | .discard _ => k

/-- what is on the stack after the events -/
def kept (T : Tables) (evs : List Ev) : List (List Nat) := evs.foldl (keepStep T) []

/-- `t`, a token or the error symbol as the parser sees it, stands for the symbol `y` of the grammar -/
def Stands (g : Gram) (fb : Nat → Option Nat) (t y : Nat) : Prop :=
  (t < g.nterm ∧ ReadAs fb g.wildcard t y) ∨ ∃ E, g.errsym = some E ∧ t = g.index E ∧ y = E

/-- The rows of the tables have an entry for the error symbol only if the state can shift it. -/
def ErrExact (g : Gram) (m : Mach) (cs : List CState) (T : Tables) : Prop :=
  ∀ E, g.errsym = some E → ∀ s < cs.length, (resortStates g cs).idxOf s < T.nx →
    T.gotoEntry ((resortStates g cs).idxOf s) (g.index E) ≠ none → ∃ q, (s, E, q) ∈ m.shifts

/-- the tokens and error symbols put on the stack -/
def pushed (evs : List Ev) : List Nat := evs.filterMap fun | .shift X => some X | _ => none

/-- `Visits T c n t eh p`: in some run of the parser, given tokens below `n`, there is a round of the loop
of `Parse` with token `t`, flag `eh` (an error has been handled before for this token), and state `p` -/
inductive Visits (T : Tables) (c : PConf) (n : Nat) : Nat → Bool → PState → Prop
  | first {t : Nat} (ht : t < n) : Visits T c n t false .init
  | next {t fuel : Nat} {eh eh' : Bool} {p p' : PState} {evs : List Ev} (h : Visits T c n t eh p)
      (hr : parseRound T c t fuel eh p = some (.next eh' p' evs)) : Visits T c n t eh' p'
  | token {t t' fuel : Nat} {eh : Bool} {p p' : PState} {evs : List Ev} (h : Visits T c n t eh p)
      (hr : parseRound T c t fuel eh p = some (.stop p' evs)) (ht : t' < n) : Visits T c n t' false p'

end Verif.Lemon
