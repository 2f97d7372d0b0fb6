import Verif.Byacc.Scan
/-
byacc/reader.c:2883-3245 `copy_action`: copying the action of a rule to the output.  Modelled without `-B`
(`S->backtrack`) and without arguments of symbols (so that `plhs[nrules]->args` is 0 and no class is `ARGUMENT`).
-/
set_option autoImplicit false
namespace Verif.Byacc.Rd

/-- What the references in an action are resolved with: tag of the left-hand side, and the tags of the symbols of
the right-hand side read so far (`n` of them). -/
structure ActCtx where
  lhsTag : Option (List Nat)
  rhsTags : List (Option (List Nat))
deriving DecidableEq, Repr

/-- `n`, which is `maxoffset` too, byacc/reader.c:2929-2936 -/
def ActCtx.n (x : ActCtx) : Nat := x.rhsTags.length

/-- `%d` -/
def decInt (i : Int) : List Nat := if i < 0 then 45 :: decDigits i.natAbs else decDigits i.natAbs

/-- `yystack.l_mark[%d]` and `yystack.p_mark[%d]` -/
def lMark (i : Int) : List Nat := str "yystack.l_mark[" ++ decInt i ++ [93]
def pMark (i : Int) : List Nat := str "yystack.p_mark[" ++ decInt i ++ [93]

/-- byacc/reader.c:2976-2985, 3042-3050, 3102-3110: the offset for the number `i` of a symbol -/
def offsetOf (n i : Nat) : Int :=
  if i == 0 then -(n : Int)
  else if n < i then (i : Int) - n     -- with a warning
  else (i : Int) - n                   -- `offsets[i]`, lines 2938-2949

/-- `.tag` -/
def dotTag : Option (List Nat) → List Nat
  | some tag => 46 :: tag
  | none => []

/-- Output, text behind it, and `havetags` afterwards. -/
abbrev Ref := List Nat × List Nat × Bool

/-- byacc/reader.c:2959-3016: `$<` .., called at the `$`. -/
def tagRef (x : ActCtx) (t : List Nat) : R Ref := do
  let p ← getTag (t.drop 1)
  match p.2 with
  | [] => .error (.error .dollarError t)
  | c :: r =>
    if c == 36 then .ok (str "yyval" ++ dotTag (some p.1), r, true)
    else if isDigit c then do
      let q ← getNumber p.2
      .ok (lMark (offsetOf x.n q.1) ++ dotTag (some p.1), q.2, true)
    else if c == 45 && (r.head?.map isDigit == some true) then do
      let q ← getNumber r
      .ok (lMark (-(q.1 : Int) - x.n) ++ dotTag (some p.1), q.2, true)
    else if isAlpha c || c == 95 then
      -- with a warning about an unknown argument
      .ok (lMark (-(x.n : Int)) ++ dotTag (some p.1), p.2.dropWhile isName2, true)
    else .error (.error .dollarError t)

/-- byacc/reader.c:2957-3087: a reference starting with `$`, called there.  `none`: it is none. -/
def dollarRef (x : ActCtx) (ht : Bool) (t : List Nat) : R (Option Ref) :=
  match t.drop 1 with
  | [] => .ok none
  | c :: r =>
    if c == 60 then (tagRef x t).map some
    else if c == 36 then
      if ht then
        match x.lhsTag with
        | none => .error (.error .untypedLhs t)
        | some tag => .ok (some (str "yyval" ++ dotTag (some tag), r, ht))
      else .ok (some (str "yyval", r, ht))
    else if isDigit c then do
      let q ← getNumber (c :: r)
      if ht && x.n != 0 then
        if q.1 == 0 || x.n < q.1 then .error (.error .unknownRhs t)
        else
          match x.rhsTags[q.1 - 1]? with
          | some (some tag) => .ok (some (lMark (offsetOf x.n q.1) ++ dotTag (some tag), q.2, ht))
          | _ => .error (.error .untypedRhs t)
      else .ok (some (lMark (offsetOf x.n q.1), q.2, ht))
    else if c == 45 then do
      let q ← getNumber r
      if ht then .error (.error .unknownRhs t)
      else .ok (some (lMark (-(q.1 : Int) - x.n), q.2, ht))
    else if isAlpha c || c == 95 then
      -- with a warning about an unknown argument
      .ok (some (lMark (-(x.n : Int)), (c :: r).dropWhile isName2, ht))
    else .ok none

/-- byacc/reader.c:3089-3123: a reference starting with `@`, called there.  `none`: it is none. -/
def atRef (x : ActCtx) (ht : Bool) (t : List Nat) : R (Option Ref) :=
  match t.drop 1 with
  | [] => .ok none
  | c :: r =>
    if c == 36 then .ok (some (str "yyloc", r, ht))
    else if isDigit c then do
      let q ← getNumber (c :: r)
      .ok (some (pMark (offsetOf x.n q.1), q.2, ht))
    else if c == 45 then do
      let q ← getNumber r
      .ok (some (pMark (-(q.1 : Int) - x.n), q.2, ht))
    else .ok none

/-- A reference at `t`, if there is one. -/
def anyRef (x : ActCtx) (ht : Bool) (t : List Nat) : R (Option Ref) :=
  match t.head? with
  | some 36 => dollarRef x ht t
  | some 64 => atRef x ht t
  | _ => .ok none

/-- byacc/reader.c:2953-3244, the loop of `copy_action`: what is written, the text behind the action, and `havetags`
afterwards.  `a` is the place of the action.  The number bounds the length of the text. -/
def actLoop (x : ActCtx) (a : List Nat) : Nat → Bool → Int → List Nat → R Ref
  | 0, _, _, _ => .error .outside
  | _ + 1, _, _, [] => .error (.error .unterminatedAction a)
  | k + 1, ht, depth, c :: r => do
    match ← anyRef x ht (c :: r) with
    | some (o, rest, ht) => (actLoop x a k ht depth rest).map fun y => (o ++ y.1, y.2)
    | none =>
      if isName1 c then
        (actLoop x a k ht depth (r.dropWhile isName2)).map fun y => (c :: (r.takeWhile isName2 ++ y.1), y.2)
      else if c == 59 then
        if 0 < depth then (actLoop x a k ht depth r).map fun y => (c :: y.1, y.2)
        else .ok ([c], r, ht)
      else if c == 123 then (actLoop x a k ht (depth + 1) r).map fun y => (c :: y.1, y.2)
      else if c == 125 then
        if 0 < depth - 1 then (actLoop x a k ht (depth - 1) r).map fun y => (c :: y.1, y.2)
        else .ok ([c], r, ht)
      else if c == 39 || c == 34 then do
        let s ← copyString c (c :: r) r
        (actLoop x a k ht depth s.2).map fun y => (c :: (s.1 ++ y.1), y.2)
      else if c == 47 then do
        let s ← copyComment (c :: r) r
        (actLoop x a k ht depth s.2).map fun y => (c :: (s.1 ++ y.1), y.2)
      else (actLoop x a k ht depth r).map fun y => (c :: y.1, y.2)

/-- byacc/reader.c:2917-2925: `=` is skipped, and a tab is written in front of a brace; `after_blanks` does not get to the
next line. -/
def actStart (t : List Nat) : List Nat × List Nat :=
  let t := if t.head? == some 61 then t.drop 1 else t
  let u := t.dropWhile fun c => isSpace c && c != 10
  if u.head? == some 123 then ([9], u) else ([], t)

/-- byacc/reader.c:2917-3244: what is written for an action, without `case`, `#line` and `break` (begin_case,
end_case); the text behind it, and `havetags`. -/
def copyBody (x : ActCtx) (ht : Bool) (t : List Nat) : R Ref :=
  let s := actStart t
  (actLoop x t (s.2.length + 1) ht 0 s.2).map fun y => (s.1 ++ y.1, y.2)

end Verif.Byacc.Rd
