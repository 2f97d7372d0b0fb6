import Verif.Spec.Grammar
/-
Specification for the graph (`-g`) and the report (`-v`) of byacc: how items are written.
-/
set_option autoImplicit false
namespace Verif.Spec.YGraph

def txt (s : String) : List Nat := s.toList.map Char.toNat

def num (n : Nat) : List Nat := (Nat.toDigits 10 n).map Char.toNat

/-- The rule `A → α` with a dot after `d` symbols. -/
def item (name : Nat → List Nat) (arrow : String) (A : Nat) (α : List Nat) (d : Nat) : List Nat :=
  name A ++ txt arrow ++ (α.take d).flatMap (fun X => name X ++ txt " ") ++ txt "." ++ (α.drop d).flatMap (fun X => txt " " ++ name X)

/-- The lookaheads after a complete item. -/
def lookaheads (name : Nat → List Nat) (la : List Nat) : List Nat := txt " { " ++ la.flatMap (fun t => name t ++ txt " ") ++ txt "}"

/-- A line of a node: rule `r` with the dot after `d` symbols, and the lookaheads if the dot is at the end. -/
def line (G : CFG) (name : Nat → List Nat) (la : List Nat) (r d : Nat) : List Nat :=
  match G.rules[r]? with
  | none => []
  | some (A, α) => txt "  " ++ item name " -> " A α d ++ (if d = α.length then lookaheads name la else []) ++ txt "\\l"

/-- A node: its items in order, with their lookaheads. -/
def node (G : CFG) (name : Nat → List Nat) (q : Nat) (items : List (Nat × Nat × List Nat)) : List Nat :=
  txt "\n\tq" ++ num q ++ txt " [label=\"" ++ num q ++ txt ":\\l" ++ items.flatMap (fun i => line G name i.2.2 i.1 i.2.1) ++ txt "\"];"

/-- The edge from `q` to `s` for the symbol `X`. -/
def edge (name : Nat → List Nat) (q X s : Nat) : List Nat :=
  txt "\tq" ++ num q ++ txt " -> q" ++ num s ++ txt " [label=\"" ++ name X ++ txt "\"];\n"

/-- A line of a state in the report. -/
def core (G : CFG) (name : Nat → List Nat) (r d : Nat) : List Nat :=
  match G.rules[r]? with
  | none => []
  | some (A, α) => txt "\t" ++ item name " : " A α d ++ txt "  (" ++ num r ++ txt ")\n"

/-- What a line of the actions of a state says.  Rules are numbered from 1 as in the grammar. -/
inductive Entry
  /-- the input is accepted at its end -/
  | accept
  /-- on `t`, shift and go to state `s` -/
  | shift (t s : Nat)
  /-- on `t`, reduce by rule `k`, whose left side is `A` -/
  | reduce (t k A : Nat)
  /-- on every other token: an error -/
  | error
  /-- on every token: reduce by rule `k` -/
  | default (k : Nat)
  /-- (empty line before the gotos) -/
  | blank
  /-- after a reduction to `A`, go to state `s` -/
  | goto (A s : Nat)
deriving DecidableEq, Repr

/-- The line. -/
def entry (name : Nat → List Nat) : Entry → List Nat
  | .accept => txt "\t$end  accept\n"
  | .shift t s => txt "\t" ++ name t ++ txt "  shift " ++ num s ++ txt "\n"
  | .reduce t k A => txt "\t" ++ name t ++ txt "  reduce " ++ num k ++ txt " [" ++ name A ++ txt "]\n"
  | .error => txt "\t.  error\n"
  | .default k => txt "\t.  reduce " ++ num k ++ txt "\n"
  | .blank => txt "\n"
  | .goto A s => txt "\t" ++ name A ++ txt "  goto " ++ num s ++ txt "\n"

/-- A rule that is never reduced. -/
def unused (G : CFG) (name : Nat → List Nat) (r : Nat) : List Nat :=
  match G.rules[r]? with
  | none => []
  | some (A, α) => txt "\t" ++ name A ++ txt " :" ++ α.flatMap (fun X => txt " " ++ name X) ++ txt "  (" ++ num r ++ txt ")\n"

/-- `n` things. -/
def count (n : Nat) (what : String) : List Nat := num n ++ txt " " ++ txt what ++ txt (if n = 1 then "" else "s")

/-- The line about the conflicts of a state (`sr` shift/reduce, `rr` reduce/reduce). -/
def summary (q sr rr : Nat) : List Nat :=
  txt "State " ++ num q ++ txt " contains " ++
    (if sr = 0 then count rr "reduce/reduce conflict"
     else if rr = 0 then count sr "shift/reduce conflict"
     else count sr "shift/reduce conflict" ++ txt ", " ++ count rr "reduce/reduce conflict") ++ txt ".\n"

end Verif.Spec.YGraph
