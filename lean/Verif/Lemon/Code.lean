import Verif.Lemon.Union
/-
The code of rules: `has_destructor`, `append_str`, `translate_code`, `emit_code` (lemon.c:4134-4454) and the part of
`ReportTable` that prints the actions (lemon.c:5437-5494).

Texts are lists of bytes.  `append_str` is a buffer to which text is appended; its size is not modelled: it is enlarged when needed.
Strings made by `Strsafe` are equal if they have the same text (C27).
-/
set_option autoImplicit false
namespace Verif.Lemon

/-- `%d` -/
def decimalInt (i : Int) : List Nat := if i < 0 then 45 :: decimal i.natAbs else decimal i.natAbs

/-- `sp->type` of a symbol on the right side of a rule -/
def RState.refType (s : RState) : RhsRef → SymType
  | .sym x => (s.sym x).type
  | .alts _ => .MULTITERMINAL

/-- `has_destructor`, lemon.c:4134-4143 -/
def RState.hasDestructor (s : RState) : RhsRef → Bool
  | .sym x => if (s.sym x).type = .TERMINAL then (s.args .tokenDestructor).isSome else (s.args .defaultDestructor).isSome || (s.sym x).destructor.isSome
  | .alts _ => (s.args .defaultDestructor).isSome

/-- `sp->index` of a symbol on the right side.  A multi-terminal made for `A|B` gets no index (lemon.c:2527-2533); it is 0 then. -/
def RState.refIndex (s : RState) : RhsRef → Nat
  | .sym x => s.index x
  | .alts _ => 0

/-- `sp->dtnum`, lemon.c:4267 -/
def RState.refField (s : RState) : RhsRef → Nat
  | .sym x => s.dtnum x
  | .alts _ => 0

/-- `dtnum` of lemon.c:4322-4327.  `none`: `sp->subsym` is NULL. -/
def RState.refDtnum (s : RState) : RhsRef → Option Nat
  | .sym x => if (s.sym x).type = .MULTITERMINAL then (s.sym x).subsym.head?.map s.dtnum else some (s.dtnum x)
  | .alts l => l.head?.map s.dtnum

/-- the messages of `translate_code` -/
inductive CodeErr
  | differentTypes                -- lemon.c:4262
  | usedAfter (label : List Nat)  -- lemon.c:4311
  | lhsUnused (label : List Nat)  -- lemon.c:4347
  | notLeftmost (label : List Nat) -- lemon.c:4361
  | multiple (label : List Nat)   -- lemon.c:4369
  | unused (label : List Nat)     -- lemon.c:4378
  deriving DecidableEq, Repr

/-- `yymsp[i]` -/
def yymsp (i : Int) : List Nat := [121, 121, 109, 115, 112, 91] ++ decimalInt i ++ [93]

/-- `.minor` -/
def dotMinor : List Nat := [46, 109, 105, 110, 111, 114]

/-- `.yy%d` -/
def dotYY (d : Nat) : List Nat := [46, 121, 121] ++ decimal d

/-- `.major` -/
def dotMajor : List Nat := [46, 109, 97, 106, 111, 114]

/-- `yylhsminor` -/
def yylhsminor : List Nat := [121, 121, 108, 104, 115, 109, 105, 110, 111, 114]

/-- `  yy_destructor(yypParser,%d,&yymsp[%d].minor);` and a line end, lemon.c:4248, 4384 -/
def destructorCall (index : Nat) (i : Int) : List Nat :=
  [32, 32, 121, 121, 95, 100, 101, 115, 116, 114, 117, 99, 116, 111, 114, 40, 121, 121, 112, 80, 97, 114, 115, 101, 114, 44] ++ decimal index ++
    [44, 38] ++ yymsp i ++ dotMinor ++ [41, 59, 10]

/-- `zOvwrt`: the comment `/*%s-overwrites-%s*/`, lemon.c:4271 -/
def overwrites (l r : List Nat) : List Nat :=
  [47, 42] ++ l ++ [45, 111, 118, 101, 114, 119, 114, 105, 116, 101, 115, 45] ++ r ++ [42, 47]

/-- the state of the loop of lemon.c:4292-4339.  `out` is the text in the buffer. -/
structure CodeSt where
  out : List Nat
  dontUseRhs0 : Bool
  lhsused : Bool
  used : List Bool
  errs : List CodeErr
  deriving DecidableEq, Repr

/-- the variables that are not changed by the loop.  `rhs` are the symbols of the right side with their labels; `skip` is the length of the
text from `zSkip` on. -/
structure CodeEnv where
  s : RState
  lhsalias : Option (List Nat)
  rhs : List (RhsRef × Option (List Nat))
  zLhs : List Nat
  zOvwrt : List Nat
  skip : Option Nat

/-- `i-rp->nrhs+1` -/
def CodeEnv.place (E : CodeEnv) (i : Nat) : Int := (i : Int) - E.rhs.length + 1

/-- the label with number `i` of the right side is found in the code, lemon.c:4309-4332.  `prev` is `cp[-1]`.  `none`: see `refDtnum`. -/
def CodeEnv.rhsLabel (E : CodeEnv) (st : CodeSt) (prev : Option Nat) (i : Nat) (x : List Nat) : Option CodeSt :=
  if i = 0 ∧ st.dontUseRhs0 then some { st with errs := st.errs ++ [.usedAfter x], used := st.used.set i true }
  else if prev = some 64 then some { st with out := st.out.dropLast ++ yymsp (E.place i) ++ dotMajor, used := st.used.set i true }
  else
    match E.rhs[i]? with
    | none => none
    | some p => (E.s.refDtnum p.1).map fun d => { st with out := st.out ++ yymsp (E.place i) ++ dotMinor ++ dotYY d, used := st.used.set i true }

/-- the loop of lemon.c:4292-4339 from `cp` on; `prev` is `cp[-1]`.  The first argument is fuel, the length of the text is enough.
`none`: NULL is used (see `refDtnum`); or a label ends the text.  Then `cp` is at the NUL behind the text after line 4331 or 4304, and the next step of
the loop goes on behind it. -/
def codeLoop (E : CodeEnv) : Nat → Option Nat → List Nat → CodeSt → Option CodeSt
  | _, _, [], st => some st
  | 0, _, _ :: _, _ => none
  | f + 1, prev, c :: t, st =>
    if E.skip = some (t.length + 1) then
      codeLoop E f (some 47) ((c :: t).drop E.zOvwrt.length) { st with out := st.out ++ E.zOvwrt, dontUseRhs0 := true }
    else
      let found : Option (Option CodeSt) :=
        if isAlpha c ∧ !(prev.any nameChar) then
          let x := c :: t.takeWhile nameChar
          if E.lhsalias = some x then some (some { st with out := st.out ++ E.zLhs, lhsused := true })
          else
            let i := E.rhs.findIdx fun p => p.2 == some x
            if i < E.rhs.length then some (E.rhsLabel st prev i x) else none
        else none
      match found with
      | none => codeLoop E f (some c) t { st with out := st.out ++ [c] }
      | some none => none
      | some (some st') =>
        match t.dropWhile nameChar with
        | [] => none
        | d :: u => codeLoop E f (some d) u { st' with out := st'.out ++ [d] }

/-- `strstr`: the length of the text from the first place on where `pat` is found -/
def strstr (pat : List Nat) : List Nat → Option Nat
  | [] => if pat = [] then some 0 else none
  | c :: t => if pat.isPrefixOf (c :: t) then some (t.length + 1) else strstr pat t

/-- what `translate_code` leaves.  `lhsLocal` is what it returns, `pre` and `suffix` are `codePrefix` and `codeSuffix`, empty if there are none. -/
structure Trans where
  code : List Nat
  line : Nat
  noCode : Bool
  pre : List Nat
  suffix : List Nat
  lhsLocal : Bool
  errs : List CodeErr
  deriving DecidableEq, Repr

/-- the messages and the destructors for the symbol with number `i` of the right side, lemon.c:4356-4386 -/
def codeTail (s : RState) (r : RRule) (used : List Bool) (i : Nat) (p : RhsRef × Option (List Nat)) : List CodeErr × List Nat :=
  match p.2 with
  | some a =>
    ((if 0 < i then
        (if r.lhsalias = some a then [.notLeftmost a] else []) ++
        (if (r.rhs.take i).any fun q => q.2 == some a then [.multiple a] else [])
      else []) ++
      (if used.getD i false then [] else [.unused a]), [])
  | none => ([], if 0 < i ∧ s.hasDestructor p.1 then destructorCall (s.refIndex p.1) ((i : Int) - r.rhs.length + 1) else [])

/-- how the value of the left side is written: the first part is `lhsdirect`, the second `zSkip`, lemon.c:4240-4281.  `none`: the
text `zOvwrt` is longer than its buffer. -/
def lhsDirect (r : RRule) (code : List Nat) : Option (Bool × Option Nat) :=
  match r.rhs.head?.map Prod.snd with
  | none => some (true, none)
  | some none => some (true, none)
  | some (some b) =>
    match r.lhsalias with
    | none => some (true, none)
    | some a =>
      if a = b then some (true, none)
      else if (overwrites a b).length + 1 ≤ 900 then
        match strstr (overwrites a b) code with
        | some n => some (true, some n)
        | none => some (false, none)
      else none

/-- the label of the left side is that of the first symbol of the right side, lemon.c:4256 -/
def sameLabel (r : RRule) : Bool := r.lhsalias.isSome && r.rhs.head?.map Prod.snd == some r.lhsalias

/-- `translate_code`, lemon.c:4212-4405 -/
def translateCode (s : RState) (r : RRule) : Option Trans :=
  let code := r.code.getD [10]
  let n : Int := r.rhs.length
  (lhsDirect r code).bind fun d =>
  let pre := match r.rhs with
    | (sp, none) :: _ => if s.hasDestructor sp then destructorCall (s.refIndex sp) (1 - n) else []
    | _ => []
  let errs0 := match r.rhs with
    | (sp, _) :: _ => if sameLabel r ∧ s.dtnum r.lhs ≠ s.refField sp then [CodeErr.differentTypes] else []
    | [] => []
  let zLhs := if d.1 then yymsp (1 - n) ++ dotMinor ++ dotYY (s.dtnum r.lhs) else yylhsminor ++ dotYY (s.dtnum r.lhs)
  let E : CodeEnv :=
    { s := s, lhsalias := r.lhsalias, rhs := r.rhs, zLhs := zLhs, skip := d.2
      zOvwrt := overwrites (r.lhsalias.getD []) (((r.rhs.head?.map Prod.snd).getD none).getD []) }
  (codeLoop E code.length none code ⟨[], false, sameLabel r, (List.replicate r.rhs.length false).set 0 (sameLabel r), errs0⟩).map fun st =>
  let errs1 := match r.lhsalias with
    | some a => if st.lhsused then [] else [CodeErr.lhsUnused a]
    | none => []
  let tail := r.rhs.zipIdx.map fun p => codeTail s r st.used p.2 p.1
  let suffix := tail.flatMap Prod.snd ++ if d.1 then [] else
    [32, 32] ++ yymsp (1 - n) ++ dotMinor ++ dotYY (s.dtnum r.lhs) ++ [32, 61, 32] ++ zLhs ++ [59, 10]
  { code := if st.out = [] then code else st.out
    line := if r.code.isSome then r.line else r.ruleline
    noCode := r.code.isNone && pre.isEmpty && suffix.isEmpty
    pre := pre
    suffix := suffix
    lhsLocal := !d.1
    errs := st.errs ++ errs1 ++ tail.flatMap Prod.fst }

/-- the number of line ends, as `emit_code` counts them -/
def newlines (t : List Nat) : Nat := (t.filter (· == 10)).length

/-- what `emit_code` prints, lemon.c:4412-4454, and the new `*lineno`.  (`rp->code` is never NULL here; `tplt_linedir` prints the same text as
`lineMacro`.) -/
def emitCode (nolinenosflag : Bool) (filename outname : List Nat) (t : Trans) (lineno : Nat) : List Nat × Nat :=
  let l1 := if t.pre = [] then lineno else lineno + newlines t.pre
  let l2 := if nolinenosflag then l1 else l1 + 1
  let l3 := l2 + newlines t.code + 1
  let l4 := if nolinenosflag then l3 else l3 + 1
  let l5 := l4 + newlines t.suffix
  ((if t.pre = [] then [] else 123 :: t.pre) ++ (if nolinenosflag then [] else lineMacro t.line filename) ++ 123 :: t.code ++ [125, 10] ++
    (if nolinenosflag then [] else lineMacro l4 outname) ++ t.suffix ++ (if t.pre = [] then [] else [125, 10]),
    if t.pre = [] then l5 else l5 + 1)

/-- the same `code`, `codePrefix` and `codeSuffix`, lemon.c:5456-5457 -/
def Trans.same (a b : Trans) : Bool := a.code == b.code && a.pre == b.pre && a.suffix == b.suffix

/-- the cases of the `switch` with the actions, lemon.c:5446-5469: the numbers of the rules, and the code printed for them.  `l` are the rules that follow,
with numbers; `done` the numbers of the rules with `codeEmitted`. -/
def actionCases : List (Trans × Nat) → List Nat → List (List Nat × Trans)
  | [], _ => []
  | p :: l, done =>
    if p.2 ∈ done then actionCases l done
    else if p.1.noCode then actionCases l done
    else
      let others := (l.filter fun q => q.1.same p.1).map Prod.snd
      (p.2 :: others, p.1) :: actionCases l (done ++ p.2 :: others)

end Verif.Lemon
