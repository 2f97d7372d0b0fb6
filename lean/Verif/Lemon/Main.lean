import Verif.Lemon.Text
import Verif.Lemon.Number
/-
What `main` hands to `ReportTable` (lemon.c:1777-1851), and the values that `ReportTable` computes from the states before it prints
(lemon.c:5097-5116, 5143-5153).
-/
set_option autoImplicit false
namespace Verif.Lemon

/-- the options and names of files -/
structure FileConf where
  /-- option `-m` -/
  mhflag : Bool
  /-- option `-l` -/
  nolinenosflag : Bool
  filename : List Nat
  outname : List Nat
  incName : List Nat
  defs : Macros
  template : List Nat
  /-- see `LText` -/
  below : Nat

/-- `mxTknOfst`, lemon.c:5097, 5116 -/
def shiftMax (g : Gram) (cs : List CState) (order : List Nat) (nx : Nat) : Int :=
  let ax := axSets g cs order nx
  match insertAll g.nsymbol g.nterm (ax.map (axOp g cs order)) Acttab.empty with
  | some (_, os) => (((ax.zip os).filter fun e => e.1 % 2 == 0).map Prod.snd).foldl max 0
  | none => 0

/-- `rp->doesReduce` for the rule with index `r`, lemon.c:5143-5153 -/
def doesReduce (cs : List CState) (order : List Nat) (nx : Nat) (r : Nat) : Bool :=
  (List.range nx).any fun i => (stateAt cs order i).acts.any fun a => (a.type == .REDUCE || a.type == .SHIFTREDUCE) && a.x == r

/-- the rules after `Rule_sort`, lemon.c:1806, by their index in the grammar file -/
def RState.ruleOrder (s : RState) : List Nat := sortedRules (s.rules.map fun r => r.code.isSome)

/-- lemon.c:5442-5446: `translate_code` for all rules.  `none` if one of them leaves a buffer or a text. -/
def RState.translateAll (s : RState) (reduces : Nat → Bool) : List Nat → Option (List (RRule × Trans × Bool))
  | [] => some []
  | k :: l => s.rules[k]?.bind fun r => (translateCode s r).bind fun t => (s.translateAll reduces l).map ((r, t, reduces k) :: ·)

/-- What the text of the C file depends on, for a grammar `g` read from a file (`s`) and its states. -/
def LText.ofFile (E : FileConf) (s : RState) (g : Gram) (cs : List CState) (T : Tables) : Option LText :=
  (s.translateAll (doesReduce cs (resortStates g cs) (nxstate cs (resortStates g cs))) s.ruleOrder).map fun rules =>
    { mhflag := E.mhflag, nolinenosflag := E.nolinenosflag, filename := E.filename, outname := E.outname, incName := E.incName, defs := E.defs
      s := s, T := T, shiftMax := Lemon.shiftMax g cs (resortStates g cs) (nxstate cs (resortStates g cs))
      nAct := nruleWithAction (s.rules.map fun r => r.code.isSome), rules := rules, template := E.template, below := E.below }

end Verif.Lemon
