import Verif.Lemon.Report
import Verif.Lemon.Text
/-
The report of lemon (`file.out`): `RulePrint`, `ConfigPrint`, `PrintAction` and `ReportOutput` (lemon.c:3646-3877).
-/
set_option autoImplicit false
namespace Verif.Lemon

/-- What the report is written from. -/
structure OutIn where
  g : Gram
  /-- `lemp->symbols[i]->name`; the name of the symbol with the number `nsymbol` is `{default}` -/
  name : Nat → List Nat
  /-- `lemp->symbols[i]->bContent`, set for symbols with an alias in the right side of a rule, lemon.c:2489 -/
  content : Nat → Bool
  /-- `precsym` of the rule with a given index -/
  precsym : Nat → Option Nat
  fs : FirstSets
  m : Mach
  cs : List CState
  /-- option `-b` -/
  basisflag : Bool
  /-- option `-p` -/
  showPrecedenceConflict : Bool
  /-- `spOpt` of the action with a given position in the list of a state, as the number of a symbol.  (Which symbol this is is not modelled.) -/
  spOpt : Nat → Nat → Option Nat

/-- `lemp->sorted`: the states in the order after `ResortStates` -/
def OutIn.order (I : OutIn) : List Nat := resortStates I.g I.cs

/-- the name of a symbol as printed in rules, lemon.c:3655-3663 and 3374-3385 -/
def OutIn.sym (I : OutIn) (X : Nat) : List Nat :=
  if I.g.isMT X then List.intercalate [124] ((I.g.subsym X).map I.name) else I.name (I.g.index X)

/-- `RulePrint`, lemon.c:3646-3665, for the rule with index `r`; `none` for `iCursor` = −1.  Without a dot it prints the same as `rule_print` without
comments, lemon.c:3364-3389. -/
def OutIn.rulePrint (I : OutIn) (r : Nat) (iCursor : Option Nat) : List Nat :=
  I.sym (I.g.rule r).lhs ++ cstr " ::=" ++ (List.range ((I.g.rule r).rhs.length + 1)).flatMap fun i =>
    (if iCursor = some i then cstr " *" else []) ++ ((I.g.rule r).rhs[i]?.map fun X => 32 :: I.sym X).getD []

/-- the line of a configuration, lemon.c:3796-3805 and `ConfigPrint`, lemon.c:3667-3671 -/
def OutIn.configLine (I : OutIn) (c : Item) : List Nat :=
  (if c.2 = (I.g.rule c.1).rhs.length then cstr "    " ++ padLeft 5 (cstr "(" ++ decimal (I.g.iRule c.1) ++ cstr ")") ++ cstr " " else cstr "          ") ++
    I.rulePrint c.1 (some c.2) ++ [10]

/-- the configurations printed for a state, lemon.c:3792-3793, 3811-3812 -/
def OutIn.configs (I : OutIn) (s : Nat) : List Item :=
  if I.basisflag then (I.m.sts.getD s ⟨[], []⟩).basis else (I.m.sts.getD s ⟨[], []⟩).cfgs.map Config.item

/-- `PrintAction` without the comment at its end, lemon.c:3718-3770; `none` if nothing is printed.  The number of a state is its position in the new
order. -/
def OutIn.actionText (I : OutIn) (a : Act) : Option (List Nat) :=
  let sp := padLeft 30 (I.sym a.sp)
  let st := padRight 7 (decimal (I.order.idxOf a.x))
  let rl := padRight 7 (decimal (I.g.iRule a.x))
  let lhs := I.sym (I.g.rule a.x).lhs
  match a.type with
  | .SHIFT => some (sp ++ cstr " shift        " ++ st)
  | .REDUCE => some (sp ++ cstr " reduce       " ++ rl ++ I.rulePrint a.x none)
  | .SHIFTREDUCE => some (sp ++ cstr " shift-reduce " ++ rl ++ I.rulePrint a.x none)
  | .ACCEPT => some (sp ++ cstr " accept")
  | .ERROR => some (sp ++ cstr " error")
  | .SRCONFLICT | .RRCONFLICT => some (sp ++ cstr " reduce       " ++ rl ++ cstr "(" ++ lhs ++ cstr ") ** Parsing conflict **")
  | .SSCONFLICT => some (sp ++ cstr " shift        " ++ st ++ cstr " ** Parsing conflict **")
  | .SH_RESOLVED => if I.showPrecedenceConflict then some (sp ++ cstr " shift        " ++ st ++ cstr " -- dropped by precedence") else none
  | .RD_RESOLVED => if I.showPrecedenceConflict then some (sp ++ cstr " reduce " ++ rl ++ cstr " (" ++ lhs ++ cstr ") -- dropped by precedence") else none
  | .NOT_USED => none

/-- `PrintAction`, lemon.c:3709-3776, and the end of the line, lemon.c:3815-3817, for the action at position `k` of the state with the old number `s` -/
def OutIn.actionLine (I : OutIn) (s : Nat) (p : Act × Nat) : List Nat :=
  match I.actionText p.1 with
  | none => []
  | some t =>
    t ++ (match I.spOpt s p.2 with
      | some X => cstr "  /* because " ++ I.sym p.1.sp ++ cstr "==" ++ I.sym X ++ cstr " */"
      | none => []) ++ [10]

/-- the state with the new number `i`, lemon.c:3789-3818 -/
def OutIn.stateText (I : OutIn) (i : Nat) : List Nat :=
  cstr "State " ++ decimal i ++ cstr ":\n" ++ (I.configs (I.order.getD i 0)).flatMap I.configLine ++ [10] ++
    (stateAt I.cs I.order i).acts.zipIdx.flatMap (I.actionLine (I.order.getD i 0)) ++ [10]

/-- the symbol with the number `i`, lemon.c:3822-3841.  `$` counts as a nonterminal here, but it has no first set. -/
def OutIn.symbolLine (I : OutIn) (i : Nat) : List Nat :=
  let X := if i < I.g.nterm then i else i + I.g.mts.length
  cstr "  " ++ padLeft 3 (decimal i) ++ cstr ": " ++ I.name i ++
    (if i = 0 then cstr ":" else if i < I.g.nterm then [] else
      cstr ":" ++ (if I.fs.lambda.getD X false then cstr " <lambda>" else []) ++
        (List.range I.g.nterm).flatMap fun j => if setFind (I.fs.first.getD X []) j then 32 :: I.name j else []) ++
    (if I.g.prec X ≥ 0 then cstr " (precedence=" ++ decimalInt (I.g.prec X) ++ cstr ")" else []) ++ [10]

/-- the loop over the symbols without content, lemon.c:3845-3860: the text and the number of characters in the last line -/
def OutIn.syntaxOnly (I : OutIn) : List Nat → List Nat × Nat → List Nat × Nat
  | [], s => s
  | i :: l, (t, n) =>
    if I.content i then I.syntaxOnly l (t, n)
    else
      let w := (I.name i).length
      let (t, n) := if n > 0 ∧ n + w > 75 then (t ++ [10], 0) else (t, n)
      let (t, n) := if n > 0 then (t ++ [32], n + 1) else (t, n)
      I.syntaxOnly l (t ++ I.name i, n + w)

/-- the rule with index `r`, lemon.c:3865-3874 -/
def OutIn.ruleLine (I : OutIn) (r : Nat) : List Nat :=
  padLeft 4 (decimal (I.g.iRule r)) ++ cstr ": " ++ I.rulePrint r none ++ cstr "." ++
    (match I.precsym r with
      | some X => cstr " [" ++ I.sym X ++ cstr " precedence=" ++ decimalInt (I.g.prec X) ++ cstr "]"
      | none => []) ++ [10]

/-- a line between the parts, lemon.c:3819, 3842, 3862 -/
def dashes : List Nat := List.replicate 52 45 ++ [10]

/-- `ReportOutput`, lemon.c:3779-3877 -/
def OutIn.text (I : OutIn) : List Nat :=
  (List.range (nxstate I.cs I.order)).flatMap I.stateText ++ dashes ++
  cstr "Symbols:\nThe first-set of non-terminals is shown after the name.\n\n" ++ (List.range I.g.nsymbol).flatMap I.symbolLine ++ dashes ++
  cstr "Syntax-only Symbols:\nThe following symbols never carry semantic content.\n\n" ++
  (let r := I.syntaxOnly (List.range I.g.nsymbol) ([], 0); r.1 ++ if r.2 > 0 then [10] else []) ++ dashes ++
  cstr "Rules:\n" ++ (sortedRules (I.g.rules.map Rule.code)).flatMap I.ruleLine

end Verif.Lemon
