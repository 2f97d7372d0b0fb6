import Verif.Lemon.States
import Verif.Lemon.Count
/-
Parser actions: `Action_add`, `Action_sort`, `FindActions`, `resolve_conflict`
(lemon.c:530-606, 1200-1356).
-/
set_option autoImplicit false
namespace Verif.Lemon

/-- `enum e_action`, lemon.c:337-349 -/
inductive AType
  | SHIFT | ACCEPT | REDUCE | ERROR | SSCONFLICT | SRCONFLICT | RRCONFLICT | SH_RESOLVED | RD_RESOLVED
  | NOT_USED | SHIFTREDUCE
  deriving DecidableEq, Repr

/-- the number of an `enum e_action`, lemon.c:337-349 -/
def AType.code : AType → Nat
  | .SHIFT => 0 | .ACCEPT => 1 | .REDUCE => 2 | .ERROR => 3 | .SSCONFLICT => 4 | .SRCONFLICT => 5
  | .RRCONFLICT => 6 | .SH_RESOLVED => 7 | .RD_RESOLVED => 8 | .NOT_USED => 9 | .SHIFTREDUCE => 10

/-- `struct action`, lemon.c:352-361.  `sp` is a symbol of the grammar or, for `{default}`,
`g.nsym`.  `x` is the number of a state (`SHIFT`) or the index of a rule.  `id` stands for the
address: actions made later have greater addresses, as they do within the blocks of 100 that
`Action_new` (lemon.c:536-554) allocates.  `spOpt` (used for reports only) is left out. -/
structure Act where
  sp : Nat
  type : AType
  x : Nat
  id : Nat
  deriving DecidableEq, Repr

/-- `actioncmp`, lemon.c:560-576 -/
def actioncmp (g : Gram) (a b : Act) : Int :=
  let rc := (g.index a.sp : Int) - g.index b.sp
  let rc := if rc == 0 then (a.type.code : Int) - b.type.code else rc
  let rc := if rc == 0 && (a.type == .REDUCE || a.type == .SHIFTREDUCE) then (a.x : Int) - b.x else rc
  if rc == 0 then (b.id : Int) - a.id else rc

/-- `Action_sort`, lemon.c:579-585 -/
def actionSort (g : Gram) (l : List Act) : List Act := msort (actioncmp g) l

/-- the symbols on which `buildshifts` adds a shift for a transition on `X`, lemon.c:1117-1124 -/
def Gram.shiftSyms (g : Gram) (X : Nat) : List Nat := if g.isMT X then g.subsym X else [X]

/-- The calls of `Action_add` (lemon.c:587-606), in order, as state, symbol, type and argument:
the shifts made by `buildshifts` (lemon.c:1117-1124); then the reductions (lemon.c:1216-1229); then
the accepting action (lemon.c:1232-1249). -/
def rawActs (g : Gram) (m : Mach) (F : List TSet) : List (Nat × Nat × AType × Nat) :=
  (m.shifts.reverse.flatMap fun e => (g.shiftSyms e.2.1).map fun sp => (e.1, sp, AType.SHIFT, e.2.2)) ++
  ((List.range m.sts.length).flatMap fun s => (m.sts.getD s ⟨[], []⟩).cfgs.flatMap fun c =>
    if (g.rule c.item.1).rhs.length == c.item.2 then
      ((List.range g.nterm).filter fun j => setFind (m.fws F s c.item) j).map fun j => (s, j, AType.REDUCE, c.item.1)
    else []) ++
  [(0, g.start, AType.ACCEPT, 0)]

/-- `stp->ap` of state `s` before sorting: `Action_add` puts new actions at the head. -/
def stateActs (raw : List (Nat × Nat × AType × Nat)) (s : Nat) : List Act :=
  ((raw.zipIdx.filter fun e => e.1.1 == s).map fun e => (⟨e.1.2.1, e.1.2.2.1, e.1.2.2.2, e.2⟩ : Act)).reverse

/-- the types accepted by the assertion lemon.c:1339-1350 -/
def AType.settled : AType → Bool
  | .SH_RESOLVED | .RD_RESOLVED | .SSCONFLICT | .SRCONFLICT | .RRCONFLICT => true
  | _ => false

/-- precedence of an optional symbol; −1 stands for "no symbol or no precedence", the cases that
`resolve_conflict` treats alike -/
def Gram.optPrec (g : Gram) : Option Nat → Int
  | none => -1
  | some p => g.prec p

/-- `resolve_conflict`, lemon.c:1293-1356: both actions afterwards and what is counted.  `ps` is
the field `precsym` of the rules.  `none`: an assertion fails.  (`assert( apx->sp==apy->sp )` holds
for all calls.) -/
def resolveConflict (g : Gram) (ps : Nat → Option Nat) (x y : Act) : Option (Act × Act × Count) :=
  if x.type == .SHIFT && y.type == .SHIFT then
    some (x, { y with type := .SSCONFLICT }, ⟨1, 0, 0⟩)
  else if x.type == .SHIFT && y.type == .REDUCE then
    let px := g.prec x.sp
    let py := g.optPrec (ps y.x)
    if py < 0 || px < 0 then some (x, { y with type := .SRCONFLICT }, ⟨1, 1, 0⟩)
    else if px > py then some (x, { y with type := .RD_RESOLVED }, .zero)
    else if px < py then some ({ x with type := .SH_RESOLVED }, y, .zero)
    else if g.assoc x.sp == .RIGHT then some (x, { y with type := .RD_RESOLVED }, .zero)
    else if g.assoc x.sp == .LEFT then some ({ x with type := .SH_RESOLVED }, y, .zero)
    else if g.assoc x.sp == .NONE || g.assoc x.sp == .PRECEDENCE then some ({ x with type := .ERROR }, y, .zero)
    else none
  else if x.type == .REDUCE && y.type == .REDUCE then
    let px := g.optPrec (ps x.x)
    let py := g.optPrec (ps y.x)
    if px < 0 || py < 0 || px == py then some (x, { y with type := .RRCONFLICT }, ⟨1, 0, 1⟩)
    else if px > py then some (x, { y with type := .RD_RESOLVED }, .zero)
    else some ({ x with type := .RD_RESOLVED }, y, .zero)
  else if x.type.settled || y.type.settled then some (x, y, .zero)
  else none

/-- the inner loop over `nap`, lemon.c:1258-1262 -/
def resolveRow (g : Gram) (ps : Nat → Option Nat) (x : Act) : List Act → Option (Act × List Act × Count)
  | [] => some (x, [], .zero)
  | y :: l =>
    if y.sp == x.sp then
      (resolveConflict g ps x y).bind fun r =>
        (resolveRow g ps r.1 l).map fun r' => (r'.1, r.2.1 :: r'.2.1, r.2.2.add r'.2.2)
    else some (x, y :: l, .zero)

/-- the loop over `ap`, lemon.c:1257-1263; the first argument is the number of actions left -/
def resolveAll (g : Gram) (ps : Nat → Option Nat) : Nat → List Act → Option (List Act × Count)
  | 0, l => some (l, .zero)
  | _, [] => some ([], .zero)
  | n+1, x :: l =>
    (resolveRow g ps x l).bind fun r =>
      (resolveAll g ps n r.2.1).map fun r' => (r.1 :: r'.1, r.2.2.add r'.2)

/-- result of `FindActions` -/
structure Acts where
  acts : List (List Act)
  count : Count
  deriving DecidableEq, Repr

/-- `FindActions`, lemon.c:1204-1264.  `none`: an assertion fails. -/
def findActions (g : Gram) (ps : Nat → Option Nat) (m : Mach) (F : List TSet) : Option Acts :=
  let raw := rawActs g m F
  ((List.range m.sts.length).mapM fun s =>
    let l := actionSort g (stateActs raw s)
    resolveAll g ps l.length l).map fun rs => ⟨rs.map Prod.fst, (rs.map Prod.snd).foldl Count.add .zero⟩

/-- the rules reported by "This rule can not be reduced", lemon.c:1266-1277, by `index` -/
def cannotReduce (g : Gram) (acts : List (List Act)) : List Nat :=
  (List.range g.rules.length).filter fun r =>
    !(acts.any fun l => l.any fun a => a.type == .REDUCE && a.x == r)

end Verif.Lemon
