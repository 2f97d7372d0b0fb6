import Verif.Lemon.First
import Verif.Lemon.Msort
/-
Configurations, states and propagation links: `FindStates`, `getstate`, `buildshifts`,
`Configlist_*`, `Plink_*`, `FindLinks`, `FindFollowSets` (lemon.c:951-1198, 1357-1540, 3240-3286).
-/
set_option autoImplicit false
namespace Verif.Lemon

/-- What identifies a configuration in a list: `rp->index` and `dot` -/
abbrev Item := Nat × Nat

/-- `struct config`, lemon.c:325-335.  `fplp` holds the links made by `Configlist_closure`, newest
first; they lead to configurations of the same list.  The backward links `bplp` are in
`Mach.back`. -/
structure Config where
  item : Item
  fws : TSet
  fplp : List Item
  deriving DecidableEq, Repr

/-- The symbol after the dot, `rp->rhs[dot]`; `none` if `dot>=rp->nrhs` -/
def Gram.next (g : Gram) (it : Item) : Option Nat := (g.rule it.1).rhs[it.2]?

/-- The symbols after the symbol after the dot -/
def Gram.rest (g : Gram) (it : Item) : List Nat := (g.rule it.1).rhs.drop (it.2 + 1)

/-- A configuration as made by `Configlist_add` and `Configlist_addbasis`, lemon.c:1409-1416 -/
def newConfig (g : Gram) (it : Item) : Config := ⟨it, setNew g.setSize, []⟩

/-- `Configlist_add`, lemon.c:1395-1421: add a configuration unless the list has it.  The table of
configurations (lemon.c:6303-6440) is represented by the list itself. -/
def configAdd (g : Gram) (cs : List Config) (it : Item) : List Config :=
  if cs.any (fun c => c.item == it) then cs else cs ++ [newConfig g it]

/-- The loop over the rest of the right-hand side, lemon.c:1464-1479: the follow set of the new
configuration and whether the end was reached (`i==rp->nrhs`). -/
def followScan (g : Gram) (fs : FirstSets) : List Nat → TSet → TSet × Bool
  | [], s => (s, true)
  | xsp :: rest, s =>
    if g.isTerm xsp then ((setAdd s xsp).1, false)
    else if g.isMT xsp then ((g.subsym xsp).foldl (fun s t => (setAdd s t).1) s, false)
    else
      let s := (setUnion s (fs.first.getD xsp [])).1
      if fs.lambda.getD xsp false == false then (s, false) else followScan g fs rest s

/-- One round of the loop over the rules of the nonterminal after the dot of configuration `it`,
lemon.c:1462-1480 -/
def closAdd (g : Gram) (fs : FirstSets) (it : Item) (cs : List Config) (r : Nat) : List Config :=
  let cs := configAdd g cs (r, 0)
  let cs := cs.map fun c =>
    if c.item = (r, 0) then { c with fws := (followScan g fs (g.rest it) c.fws).1 } else c
  if (followScan g fs (g.rest it) []).2 then
    cs.map fun c => if c.item = it then { c with fplp := (r, 0) :: c.fplp } else c
  else cs

/-- Body of the loop of `Configlist_closure` for configuration `it`, lemon.c:1452-1482.  The error
"has no rules" (lemon.c:1457-1461) is in `noRuleErrors`. -/
def closStep (g : Gram) (fs : FirstSets) (cs : List Config) (it : Item) : List Config :=
  match g.next it with
  | none => cs
  | some sp => if g.isNT sp then (g.rulesOf sp).foldl (closAdd g fs it) cs else cs

/-- `Configlist_closure`, lemon.c:1443-1484: the loop over a list that grows while it runs; `i` is
the position in the list. -/
def closLoop (g : Gram) (fs : FirstSets) : Nat → Nat → List Config → Option (List Config)
  | 0, _, _ => none
  | n+1, i, cs =>
    match cs[i]? with
    | none => some cs
    | some c => closLoop g fs n (i+1) (closStep g fs cs c.item)

/-- `Configlist_closure`; `closure_spec` shows that this number of rounds suffices. -/
def closure (g : Gram) (fs : FirstSets) (cs : List Config) : Option (List Config) :=
  closLoop g fs (cs.length + g.rules.length + 1) 0 cs

/-- `Configcmp`, lemon.c:6168-6177 -/
def configcmp (a b : Item) : Int :=
  if (a.1 : Int) - b.1 == 0 then (a.2 : Int) - b.2 else (a.1 : Int) - b.1

/-- `struct state`, lemon.c:365-374: `bp` and `cfp` -/
structure St where
  basis : List Item
  cfgs : List Config
  deriving DecidableEq, Repr

/-- A configuration in a state -/
abbrev Ref := Nat × Item

/-- What `FindStates` builds.  `sts`: the states by `statenum`; this is also the state table of
lemon.c:6220-6330 (`C27_table` shows that such a table is a map).  `back`: the backward links,
newest first, as pairs (configuration carrying the link, configuration it points to).  `shifts`:
`(s, X, t)` for each successor found by `buildshifts`, newest first. -/
structure Mach where
  sts : List St
  back : List (Ref × Ref)
  shifts : List (Nat × Nat × Nat)
  deriving DecidableEq, Repr

/-- The inner loop of `buildshifts`, lemon.c:1103-1111: what is taken from the rest of the list,
and the rest with the status (`true`: COMPLETE) updated. -/
def takeGroup (g : Gram) (sp : Nat) : List (Item × Bool) → List Item × List (Item × Bool)
  | [] => ([], [])
  | (b, done) :: l =>
    let r := takeGroup g sp l
    if done then (r.1, (b, done) :: r.2)
    else if g.next b == some sp then (b :: r.1, (b, true) :: r.2)
    else (r.1, (b, done) :: r.2)

/-- The outer loop of `buildshifts`, lemon.c:1093-1111: the successors, each with the symbol and
the configurations in which the dot is moved.  The first argument is the number of
configurations left. -/
def groups (g : Gram) : Nat → List (Item × Bool) → List (Nat × List Item)
  | 0, _ => []
  | _, [] => []
  | n+1, (c, done) :: l =>
    if done then groups g n l
    else match g.next c with
      | none => groups g n l
      | some sp =>
        let r := takeGroup g sp l
        (sp, c :: r.1) :: groups g n r.2

/-- All successors of a state, lemon.c:1088-1111 -/
def shiftGroups (g : Gram) (cfgs : List Config) : List (Nat × List Item) :=
  groups g cfgs.length (cfgs.map fun c => (c.item, false))

/-- `getstate` (lemon.c:1018-1057) and `buildshifts` (lemon.c:1078-1126).  `b` is the list of basis
configurations in the order of their creation, `bl` their backward links.  The first argument
bounds the depth of recursion. -/
def getState (g : Gram) (fs : FirstSets) : Nat → Mach → List Config → List (Item × Ref) → Option (Mach × Nat)
  | 0, _, _, _ => none
  | n+1, m, b, bl =>
    let basis := msort configcmp (b.map Config.item)
    match m.sts.findIdx? (fun st => st.basis == basis) with
    | some t => some ({ m with back := (bl.map fun l => ((t, l.1), l.2)).reverse ++ m.back }, t)
    | none =>
      (closure g fs b).bind fun cs =>
        let cfgs := msort (fun c c' => configcmp c.item c'.item) cs
        let s := m.sts.length
        let m := { m with sts := m.sts ++ [⟨basis, cfgs⟩],
                          back := (bl.map fun l => ((s, l.1), l.2)).reverse ++ m.back }
        ((shiftGroups g cfgs).foldlM (fun m (grp : Nat × List Item) =>
          (getState g fs n m (grp.2.map fun it => newConfig g (it.1, it.2 + 1))
            (grp.2.map fun it => ((it.1, it.2 + 1), (s, it)))).map fun r =>
              { r.1 with shifts := (s, grp.1, r.2) :: r.1.shifts }) m).map fun m => (m, s)

/-- The configurations of the first state, lemon.c:997-1005 -/
def startConfigs (g : Gram) : List Config :=
  (g.rulesOf g.start).map fun r => ⟨(r, 0), (setAdd (setNew g.setSize) 0).1, []⟩

/-- `FindStates`, lemon.c:956-1012, with recursion depth at most `fuel`.  The choice of the start
symbol (lemon.c:963-981) is in `Gram.start`. -/
def statesWith (g : Gram) (fs : FirstSets) (fuel : Nat) : Option Mach :=
  (getState g fs fuel ⟨[], [], []⟩ (startConfigs g) []).map Prod.fst

/-- number of items of the grammar -/
def Gram.nitems (g : Gram) : Nat := (g.rules.map fun r => r.rhs.length + 1).sum

/-- `FindStates`; `C32` shows that this depth suffices. -/
def findStates (g : Gram) (fs : FirstSets) : Option Mach := statesWith g fs (2 ^ g.nitems + 1)

/-- The number of errors "Nonterminal has no rules", lemon.c:1457-1461: `Configlist_closure` looks
at every configuration of every state once. -/
def noRuleErrors (g : Gram) (m : Mach) : Nat :=
  (m.sts.map fun st => (st.cfgs.filter fun c => match g.next c.item with
    | some sp => g.isNT sp && (g.rulesOf sp).isEmpty && some sp != g.errsym
    | none => false).length).sum

/-- All configurations, in the order of the loops of `FindLinks` and `FindFollowSets`: by state
and by position in its list -/
def Mach.cells (m : Mach) : List Ref :=
  (List.range m.sts.length).flatMap fun s => ((m.sts.getD s ⟨[], []⟩).cfgs.map fun c => (s, c.item))

/-- The links made by `Configlist_closure` -/
def Mach.localLinks (m : Mach) : List (List Ref) :=
  (List.range m.sts.length).flatMap fun s =>
    ((m.sts.getD s ⟨[], []⟩).cfgs.map fun c => c.fplp.map fun it => (s, it))

/-- The follow sets before propagation -/
def Mach.initSets (m : Mach) : List TSet :=
  m.sts.flatMap fun st => st.cfgs.map Config.fws

/-- `FindLinks`, lemon.c:1131-1159: the forward links added to configuration `ref`, newest first:
for all configurations in order and all their backward links that point to `ref` -/
def Mach.newLinks (m : Mach) (ref : Ref) : List Ref :=
  (m.cells.flatMap fun c => (m.back.filter fun l => l.1 == c && l.2 == ref).map fun l => l.1).reverse

/-- The forward links of all configurations after `FindLinks`, by position in `cells` -/
def Mach.links (m : Mach) : List (List Nat) :=
  (m.cells.zip m.localLinks).map fun p => ((m.newLinks p.1) ++ p.2).map fun x => m.cells.idxOf x

/-- State of `FindFollowSets`: the sets, the status (`true`: COMPLETE) and `progress` -/
structure Flow where
  sets : List TSet
  done : List Bool
  progress : Bool
  deriving DecidableEq, Repr

/-- One link, lemon.c:1187-1192: propagate from `i` to `j` -/
def flowLink (i : Nat) (st : Flow) (j : Nat) : Flow :=
  let r := setUnion (st.sets.getD j []) (st.sets.getD i [])
  if r.2 then ⟨st.sets.set j r.1, st.done.set j false, true⟩
  else { st with sets := st.sets.set j r.1 }

/-- One configuration, lemon.c:1185-1193 -/
def flowCell (links : List (List Nat)) (st : Flow) (i : Nat) : Flow :=
  if st.done.getD i false then st
  else
    let st := (links.getD i []).foldl (flowLink i) st
    { st with done := st.done.set i true }

/-- One pass over all configurations, lemon.c:1181-1196 -/
def flowPass (links : List (List Nat)) (s : List TSet × List Bool) : (List TSet × List Bool) × Bool :=
  let st := (List.range s.1.length).foldl (flowCell links) ⟨s.1, s.2, false⟩
  ((st.sets, st.done), st.progress)

/-- `FindFollowSets`, lemon.c:1166-1198, on sets and links by position; at most `fuel` passes -/
def propagateWith (links : List (List Nat)) (sets : List TSet) (fuel : Nat) : Option (List TSet) :=
  (doWhile (flowPass links) fuel (sets, List.replicate sets.length false)).map Prod.fst

/-- `FindFollowSets`; `C31` shows that the number of passes suffices. -/
def propagate (links : List (List Nat)) (sets : List TSet) : Option (List TSet) :=
  propagateWith links sets ((sets.map List.length).sum + 1)

/-- `FindLinks` and `FindFollowSets`: the follow sets of all configurations -/
def followSets (m : Mach) : Option (List TSet) := propagate m.links m.initSets

/-- The follow set of configuration `it` of state `s` -/
def Mach.fws (m : Mach) (F : List TSet) (s : Nat) (it : Item) : TSet := F.getD (m.cells.idxOf (s, it)) []

end Verif.Lemon
