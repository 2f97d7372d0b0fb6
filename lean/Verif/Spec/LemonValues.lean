import Verif.Lemon.Values
/-
Specification: values that follow their symbols.
-/
set_option autoImplicit false
namespace Verif.Lemon

variable {V : Type}

/-- the event without its values -/
def VEv.erase : VEv V → Ev
  | .shift X _ => .shift X
  | .reduce r _ _ => .reduce r
  | .syntaxError t _ => .syntaxError t
  | .discard t _ => .discard t
  | .pop X _ => .pop X
  | .failed => .failed
  | .accept _ => .accept
  | .overflow => .overflow

/-- the values that an event takes from outside of the stack -/
def VEv.given : VEv V → Option V
  | .shift _ v => some v
  | .syntaxError _ v => some v
  | .discard _ v => some v
  | _ => none

/-- the value that leaves the hands of the caller of the parser: it is put on the stack or destroyed -/
def VEv.takes : VEv V → Option V
  | .shift _ v => some v
  | .discard _ v => some v
  | _ => none

/-- `VUses lhs n code s evs s'`: the events are those of a parser that keeps each symbol together with
its value.  At first the symbols `s` with their values are on its stack, at last `s'` (the top
first).  A symbol put on the stack has its value until it is used by a rule (whose code gets
the values of its right-hand side from left to right), destroyed (with this value) or accepted.
`lhs r` is the left-hand side of the rule with number `r`, and `n r` the number of symbols on its
right-hand side.  If there are none, then `old` may be anything. -/
inductive VUses (lhs n : Nat → Option Nat) (code : Nat → List V → V → V) : List (Nat × V) → List (VEv V) → List (Nat × V) → Prop
  | done (s : List (Nat × V)) : VUses lhs n code s [] s
  | shift {s s' : List (Nat × V)} {evs : List (VEv V)} (X : Nat) (v : V) (h : VUses lhs n code ((X, v) :: s) evs s') :
      VUses lhs n code s (.shift X v :: evs) s'
  | pop {s s' : List (Nat × V)} {evs : List (VEv V)} (X : Nat) (v : V) (h : VUses lhs n code s evs s') :
      VUses lhs n code ((X, v) :: s) (.pop X v :: evs) s'
  | reduce {s s' : List (Nat × V)} {evs : List (VEv V)} (r A : Nat) (α : List (Nat × V)) (old : V) (hA : lhs r = some A) (hα : n r = some α.length)
      (ho : ∀ x ∈ α.getLast?, old = x.2) (h : VUses lhs n code ((A, code r (α.reverse.map Prod.snd) old) :: s) evs s') :
      VUses lhs n code (α ++ s) (.reduce r (α.reverse.map Prod.snd) (code r (α.reverse.map Prod.snd) old) :: evs) s'
  | syntaxError {s s' : List (Nat × V)} {evs : List (VEv V)} (t : Nat) (v : V) (h : VUses lhs n code s evs s') :
      VUses lhs n code s (.syntaxError t v :: evs) s'
  | discard {s s' : List (Nat × V)} {evs : List (VEv V)} (t : Nat) (v : V) (h : VUses lhs n code s evs s') :
      VUses lhs n code s (.discard t v :: evs) s'
  | failed {s' : List (Nat × V)} {evs : List (VEv V)} (h : VUses lhs n code [] evs s') : VUses lhs n code [] (.failed :: evs) s'
  | overflow {s' : List (Nat × V)} {evs : List (VEv V)} (h : VUses lhs n code [] evs s') : VUses lhs n code [] (.overflow :: evs) s'
  | accept {s' : List (Nat × V)} {evs : List (VEv V)} (X : Nat) (v : V) (h : VUses lhs n code [] evs s') :
      VUses lhs n code [(X, v)] (.accept v :: evs) s'

/-- the symbols on the stack of the parser with their values, the top first -/
def stackOf (p : PState) (m : Mem V) : List (Nat × V) :=
  (p.stack.dropLast.map Prod.snd).zip ((List.range m.top).map fun i => m.val (m.top - i))

/-- the value that the code of a rule computes from the values of the right-hand side; if it leaves the
value of the left-hand side alone, this is that of the first symbol -/
def ruleVal (g : Gram) (code : Nat → List V → V → V) (d : V) (r : Nat) (xs : List V) : V := code (g.iRule r) xs (xs.headD d)

/-- What a lemon grammar must be like for its values to be well defined: rules that have no code do
nothing to values, and rules with nothing on the right-hand side set the value of their left-hand
side. -/
structure CodeOK (g : Gram) (code : Nat → List V → V → V) : Prop where
  noCode : ∀ r < g.rules.length, (g.rule r).code = false → ∀ xs old, code (g.iRule r) xs old = old
  empty : ∀ r < g.rules.length, (g.rule r).rhs = [] → ∀ v w, code (g.iRule r) [] v = code (g.iRule r) [] w

end Verif.Lemon
