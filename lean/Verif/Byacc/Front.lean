import Verif.Byacc.Action
import Verif.Byacc.Rules
import Verif.Byacc.Symbols
import Verif.Byacc.MkPar
/-
byacc/reader.c: reading a grammar file, from its text to the arrays the tables are made from.

Not modelled (the outcome is `outside`): `%code`, `%define`, `%parse-param`, `%lex-param`, `%destructor`,
`%initial-action`, and arguments of symbols in parentheses.  Warnings are left out.
-/
set_option autoImplicit false
namespace Verif.Byacc.Rd

/-- `class` of a symbol, byacc/defs.h:170-175 -/
inductive Cls
  | UNKNOWN | TERM | NONTERM | ACTION
deriving DecidableEq, Repr

/-- A symbol while reading (`struct bucket`, byacc/defs.h:233-256), as made by `make_bucket`
(byacc/symtab.c:26-57). -/
structure BSym where
  name : List Nat
  cls : Cls := .UNKNOWN
  value : Int := UNDEFINED
  prec : Int := 0
  assoc : Assoc := .TOKEN
  tag : Option (List Nat) := none
deriving DecidableEq, Repr

/-- The reader's state in the declarations: the symbols in the order of creation, `goal` (position of the start
symbol), `prec`, `SRexpect`, `RRexpect`, `havetags`, `unionized`, and what was written to `text_file` by
`copy_text`. -/
structure DSt where
  syms : List BSym
  goal : Option Nat
  prec : Int
  sr : Int
  rr : Int
  haveTags : Bool
  unionized : Bool
  out : List Nat
deriving DecidableEq, Repr

/-- byacc/symtab.c:80-101 `create_symbol_table`, and the other fields at the start (byacc/main.c). -/
def dInit : DSt := ⟨[{ name := str "error", cls := .TERM }], none, 0, -1, -1, false, false, []⟩

/-- byacc/symtab.c:57-78 `lookup`.  Simplification: a search in the list of symbols instead of the hash table; see
`Verif/Byacc/Symtab.lean` for the table. -/
def lookupSym (syms : List BSym) (name : List Nat) : Nat × List BSym :=
  match syms.findIdx? (fun b => b.name == name) with
  | some i => (i, syms)
  | none => (syms.length, syms ++ [{ name := name }])

/-- byacc/reader.c:1549-1552: a literal is a token, and a single character its own code -/
def litSym (s : List Nat) (b : BSym) : BSym :=
  { b with cls := .TERM,
           value := match s with
             | [c] => if b.value == UNDEFINED then (c : Int) else b.value
             | _ => b.value }

/-- `isalpha(c) || c == '_' || c == '.' || c == '$'`: the start of a name, byacc/reader.c:1717 and elsewhere -/
def nameStart (c : Nat) : Bool := isAlpha c || c == 95 || c == 46 || c == 36

/-- `get_name` or `get_literal` with their `lookup`, if one of them starts at `t` (byacc/reader.c:1717-1722, 1945-1962,
2784-2788, 3582-3585): the position of the symbol, the symbols, and the text behind it. -/
def getSym (syms : List BSym) (t : List Nat) : R (Option (Nat × List BSym × List Nat)) :=
  match peek t with
  | none => .ok none
  | some c =>
    if nameStart c then do
      let p ← getName t
      .ok (some ((lookupSym syms p.1).1, (lookupSym syms p.1).2, p.2))
    else if c == 39 || c == 34 then do
      let p ← getLiteral t
      .ok (some ((lookupSym syms (litName p.1)).1,
        (lookupSym syms (litName p.1)).2.modify (lookupSym syms (litName p.1)).1 (litSym p.1), p.2))
    else .ok none

/-- `c = nextc(S); if (c == EOF) unexpected_EOF(S);` -/
def nextTok (t : List Nat) : R (List Nat) := do
  let u ← nextc t
  if (peek u).isNone then .error (.error .unexpectedEOF u) else .ok u

/-- byacc/reader.c:1726, 1733-1751: a symbol named in a declaration of tokens -/
def declSym (assoc : Assoc) (prec : Int) (tag : Option (List Nat)) (b : BSym) : BSym :=
  let b := { b with cls := .TERM, tag := if tag.isSome then tag else b.tag }
  if assoc ≠ .TOKEN then { b with assoc := assoc, prec := prec } else b

/-- byacc/reader.c:1715-1762, the loop of `declare_tokens`, without `-u`.  The number bounds the length of the text. -/
def tokLoop (assoc : Assoc) (tag : Option (List Nat)) : Nat → DSt → List Nat → R (DSt × List Nat)
  | 0, _, _ => .error .outside
  | k + 1, s, t => do
    match ← getSym s.syms t with
    | none => .ok (s, t)
    | some (i, syms, u) =>
      if s.goal == some i then .error (.error .tokenizedStart t)
      else do
        let s := { s with syms := syms.modify i (declSym assoc s.prec tag) }
        let v ← nextTok u
        if (peek v).any isDigit then do
          let q ← getNumber v
          let w ← nextTok q.2
          tokLoop assoc tag k { s with syms := s.syms.modify i fun b => { b with value := q.1 } } w
        else tokLoop assoc tag k s v

/-- byacc/reader.c:1695-1763 `declare_tokens` -/
def declTokens (assoc : Assoc) (s : DSt) (t : List Nat) : R (DSt × List Nat) := do
  let s := if assoc ≠ .TOKEN then { s with prec := s.prec + 1 } else s
  let u ← nextTok t
  if peek u == some 60 then do
    let p ← getTag u
    let v ← nextTok p.2
    tokLoop assoc (some p.1) (v.length + 1) { s with haveTags := true } v
  else tokLoop assoc none (u.length + 1) s u

/-- byacc/reader.c:1938-1971, the loop of `declare_types` -/
def typeLoop (tag : Option (List Nat)) : Nat → DSt → List Nat → R (DSt × List Nat)
  | 0, _, _ => .error .outside
  | k + 1, s, t => do
    let u ← nextTok t
    match ← getSym s.syms u with
    | none => .ok (s, u)
    | some (i, syms, v) =>
      let s := { s with syms := syms.modify i fun b => { b with tag := if tag.isSome then tag else b.tag } }
      if (peek u).any nameStart then do
        let w ← nextc v
        if peek w == some 40 then .error .outside else typeLoop tag k s w
      else typeLoop tag k s v

/-- byacc/reader.c:1926-1972 `declare_types` -/
def declTypes (s : DSt) (t : List Nat) : R (DSt × List Nat) := do
  let u ← nextTok t
  if peek u == some 60 then do
    let p ← getTag u
    typeLoop (some p.1) (p.2.length + 1) { s with haveTags := true } p.2
  else typeLoop none (u.length + 1) s u

/-- byacc/reader.c:1973-1990 `declare_start` -/
def declStart (s : DSt) (t : List Nat) : R (DSt × List Nat) := do
  let u ← nextTok t
  if (peek u).any nameStart then do
    let p ← getName u
    let l := lookupSym s.syms p.1
    if (l.2[l.1]?).map BSym.cls == some .TERM then .error (.error .terminalStart u)
    else .ok ({ s with syms := l.2, goal := some l.1 }, p.2)
  else .error (.error .syntaxError u)

/-- byacc/reader.c:1785-1815: from the second character behind the keyword on, looking for a number in the line -/
def expectLoop : List Nat → R (Nat × List Nat)
  | [] => .error (.error .syntaxError [])
  | c :: r =>
    if isDigit c then getNumber (c :: r)
    else if c == 255 then .error (.error .unexpectedEOF (c :: r))
    else if c == 10 || !isSpace c then .error (.error .syntaxError (c :: r))
    else expectLoop r

/-- byacc/reader.c:1770-1816 `declare_expect`: one character is skipped first; behind a newline it finds the NUL. -/
def declExpect (t : List Nat) : R (Nat × List Nat) :=
  match t with
  | [] => .error (.error .syntaxError t)
  | c :: r => if c == 10 then .error (.error .syntaxError t) else expectLoop r

/-- The class of tokens declared by a keyword, byacc/reader.c:2027-2033 -/
def kwAssoc : Kw → Option Assoc
  | .TOKEN => some .TOKEN
  | .LEFT => some .LEFT
  | .RIGHT => some .RIGHT
  | .NONASSOC => some .NONASSOC
  | .PRECEDENCE => some .PRECEDENCE
  | _ => none

/-- byacc/reader.c:2007-2094: a declaration whose keyword `k` has been read, `t` is the text behind it and `a` the text from the
`%` on. -/
def declare (k : Kw) (a : List Nat) (s : DSt) (t : List Nat) : R (DSt × List Nat) :=
  match kwAssoc k with
  | some assoc => declTokens assoc s t
  | none =>
    match k with
    | .IDENT => (copyIdent t).map fun u => (s, u)
    | .TEXT => (copyText a t).map fun p => ({ s with out := s.out ++ p.1 }, p.2)
    | .UNION =>
      if s.unionized then .error (.error .overUnionized a)
      else (unionLoop a (t.length + 1) 0 t).map fun u => ({ s with unionized := true }, u)
    | .EXPECT => (declExpect t).map fun p => ({ s with sr := p.1 }, p.2)
    | .EXPECT_RR => (declExpect t).map fun p => ({ s with rr := p.1 }, p.2)
    | .TYPE => declTypes s t
    | .START => declStart s t
    | .PURE_PARSER | .TOKEN_TABLE | .ERROR_VERBOSE | .LOCATIONS | .DEBUG | .YACC => .ok (s, t)
    | _ => .error .outside

/-- byacc/reader.c:1992-2096 `read_declarations`: the state and the text behind `%%` -/
def declLoop : Nat → DSt → List Nat → R (DSt × List Nat)
  | 0, _, _ => .error .outside
  | k + 1, s, t => do
    let u ← nextTok t
    if peek u == some 37 then do
      let p ← keyword u
      if p.1 = .MARK then .ok (s, p.2)
      else do
        let q ← declare p.1 u s p.2
        declLoop k q.1 q.2
    else .error (.error .syntaxError u)

/-- The reader's state in the rules: also the arrays of rules (see `Verif/Byacc/Rules.lean`; a symbol named in the
file is given by its position), the positions of the symbols `$$1`, `$$2`, .., and the actions written: number in `case` and
text. -/
structure FSt where
  d : DSt
  rd : RdSt
  gens : List Nat
  acts : List (Nat × List Nat)
deriving DecidableEq, Repr

/-- Position of a symbol. -/
def posOf (gens : List Nat) : RSym → Nat
  | .user n => n
  | .gen k => gens.getD (k - 1) 0

/-- `plhs[nrules]` -/
def FSt.lhs (s : FSt) : Nat := posOf s.gens (s.rd.plhs.headD (.user 0))

/-- byacc/reader.c:2659-2673 `start_rule`; `t` is the place for the message -/
def startRuleF (s : FSt) (b : RSym) (t : List Nat) : R FSt :=
  if (s.d.syms[posOf s.gens b]?).map BSym.cls == some .TERM then .error (.error .terminalLhs t)
  else .ok { s with d := { s.d with syms := s.d.syms.modify (posOf s.gens b) fun b => { b with cls := .NONTERM } },
                    rd := startRule s.rd b }

/-- the name of the symbol made for the `k`-th action: `$$k` -/
def genName (k : Nat) : List Nat := 36 :: 36 :: decDigits k

/-- byacc/reader.c:2701-2736 `insert_empty_rule` -/
def insertEmptyF (s : FSt) : FSt :=
  { s with
    d := { s.d with syms := s.d.syms ++
      [{ name := genName (s.rd.gensym + 1), cls := .ACTION, tag := (s.d.syms[s.lhs]?).bind BSym.tag }] }
    gens := s.gens ++ [s.d.syms.length]
    rd := insertEmptyRule s.rd }

/-- byacc/reader.c:2771-2881 `add_symbol`, behind `get_name` or `get_literal`: symbol `i` was read at `t`, `u` is the
text behind it. -/
def addSymbolF (s : FSt) (i : Nat) (t u : List Nat) : R (FSt × List Nat) := do
  let v ← nextc u
  if peek v == some 40 then .error .outside
  else if peek v == some 58 then do
    let s ← startRuleF { s with rd := endRule s.rd } (.user i) t
    .ok (s, v.drop 1)
  else
    let s := if s.rd.lastAct then insertEmptyF s else s
    .ok ({ s with rd := addSymbol { s.rd with lastAct := false } i }, v)

/-- the tags of the symbols of the rule being read -/
def ctxOf (s : FSt) : ActCtx :=
  { lhsTag := (s.d.syms[s.lhs]?).bind BSym.tag
    rhsTags := ((s.rd.pitem.takeWhile Option.isSome).reverse.map fun x =>
      x.bind fun y => (s.d.syms[posOf s.gens y]?).bind BSym.tag) }

/-- byacc/reader.c:2883-3245 `copy_action`: the action is written under the number of the rule being read,
`nrules - RULE_NUM_OFFSET` (line 2907). -/
def copyActionF (s : FSt) (t : List Nat) : R (FSt × List Nat) := do
  let s := if s.rd.lastAct then insertEmptyF s else s
  let y ← copyBody (ctxOf s) s.d.haveTags t
  .ok ({ s with d := { s.d with haveTags := y.2.2 }, rd := copyAction { s.rd with lastAct := false },
                acts := s.acts ++ [(s.rd.plhs.length, y.1)] }, y.2.1)

/-- `w` (in small letters) is written at `t` in letters of any case, and not continued -/
def wordAt (w t : List Nat) : Bool :=
  (t.take w.length).map lower == w && !((t.drop w.length).head?.any isIdent)

/-- byacc/reader.c:3546-3600 `mark_symbol`, called at `%` or `\`, without `-u`; `none`: end of the rules. -/
def markSymbolF (s : FSt) (t : List Nat) : R (Option (FSt × List Nat)) :=
  match t.drop 1 with
  | [] => .error (.error .syntaxError t)
  | c :: r =>
    if c == 37 || c == 92 then .ok none
    else if wordAt (str "empty") (c :: r) then .ok none
    else if c == 61 || wordAt (str "prec") (c :: r) then do
      let u ← nextc ((c :: r).drop (if c == 61 then 1 else 4))
      match ← getSym s.d.syms u with
      | none => .error (.error .syntaxError u)
      | some (i, syms, v) =>
        .ok (some ({ s with d := { s.d with syms := syms }, rd := markPrecAt s.rd i }, v))
    else .error (.error .syntaxError t)

/-- byacc/reader.c:3608-3644, the loop of `read_grammar`, and the final `end_rule` -/
def gramLoop : Nat → FSt → List Nat → R FSt
  | 0, _, _ => .error .outside
  | k + 1, s, t => do
    let u ← nextc t
    match peek u with
    | none => .ok { s with rd := endRule s.rd }
    | some c =>
      match ← getSym s.d.syms u with
      | some (i, syms, v) => do
        let p ← addSymbolF { s with d := { s.d with syms := syms } } i u v
        gramLoop k p.1 p.2
      | none =>
        if c == 123 || c == 61 then do
          let p ← copyActionF s u
          gramLoop k p.1 p.2
        else if c == 124 then do
          let s ← startRuleF { s with rd := endRule s.rd } (s.rd.plhs.headD (.user 0)) u
          gramLoop k s (u.drop 1)
        else if c == 37 then do
          match ← markSymbolF s u with
          | none => .ok { s with rd := endRule s.rd }
          | some p => gramLoop k p.1 p.2
        else .error (.error .syntaxError u)

/-- byacc/reader.c:2584-2621: what may stand in front of the first rule -/
def advanceLoop : Nat → DSt → List Nat → R (DSt × List Nat)
  | 0, _, _ => .error .outside
  | k + 1, s, t => do
    let u ← nextc t
    if peek u == some 37 then do
      let p ← keyword u
      if p.1 = .MARK then .error (.error .noGrammar u)
      else if p.1 = .TEXT || p.1 = .START || p.1 = .CODE then do
        let q ← declare p.1 u s p.2
        advanceLoop k q.1 q.2
      else .error (.error .syntaxError u)
    else .ok (s, u)

/-- byacc/reader.c:2623-2657: the left-hand side of the first rule; a name that starts with `$` is not accepted here. -/
def firstRule (s : DSt) (t : List Nat) : R (FSt × List Nat) := do
  if (peek t).any fun c => isAlpha c || c == 95 || c == 46 then do
    let p ← getName t
    let l := lookupSym s.syms p.1
    if s.goal.isNone && (l.2[l.1]?).map BSym.cls == some .TERM then .error (.error .terminalStart t)
    else do
      let s := { s with syms := l.2, goal := if s.goal.isNone then some l.1 else s.goal }
      let u ← nextTok p.2
      if peek u == some 40 then .error .outside
      else if peek u == some 58 then do
        let s ← startRuleF ⟨s, rdInit, [], []⟩ (.user l.1) t
        .ok (s, u.drop 1)
      else .error (.error .syntaxError u)
  else .error (.error .syntaxError t)

/-- byacc/reader.c:3602-3650 `read_grammar` -/
def rulesSection (s : DSt) (t : List Nat) : R FSt := do
  let p ← advanceLoop (t.length + 1) s t
  let q ← firstRule p.1 p.2
  gramLoop (q.2.length + 1) q.1 q.2

/-- byacc/reader.c:3695-3713 `check_symbols` -/
def checkSymbols (s : FSt) : R (List BSym) :=
  match s.d.goal with
  | none => .error .outside
  | some g =>
    if (s.d.syms[g]?).map BSym.cls == some .UNKNOWN then .error (.error .undefinedGoal [])
    else .ok (s.d.syms.map fun b => if b.cls = .UNKNOWN then { b with cls := .TERM } else b)

/-- What the reader leaves for the construction of the tables. -/
structure FileOut where
  syms : List BSym
  goal : Nat
  num : Numbering
  gram : Gram
  prec : SymPrec
  sr : Int
  rr : Int
  acts : List (Nat × List Nat)
  out : List Nat

/-- `rprec[]` and `rassoc[]` of a rule, byacc/reader.c:2670-2671, 2731-2733, 3593-3594 -/
def precOf (syms : List BSym) : RPrec → Int × Assoc
  | .undef => (UNDEFINED, .TOKEN)
  | .zero => (0, .TOKEN)
  | .ofSym n => ((syms[n]?).elim 0 BSym.prec, (syms[n]?).elim .TOKEN BSym.assoc)

/-- A symbol with its index. -/
def bucketOf (syms : List BSym) (num : Numbering) (i : Nat) : Bucket :=
  { index := num.index.getD i 0
    isTerm := (syms[i]?).elim false fun b => b.cls == .TERM
    prec := (syms[i]?).elim 0 BSym.prec
    assoc := (syms[i]?).elim .TOKEN BSym.assoc }

/-- byacc/reader.c:3749-4018: `pack_symbols` and `pack_grammar` on what was read.  `lp` is `lemon_prec_flag`.
`symbol_prec[]`, `symbol_assoc[]`: lines 3874-3909. -/
def packFile (lp : Bool) (s : FSt) (syms : List BSym) (goal : Nat) : FileOut :=
  let num := packSymbols (syms.map fun b => ⟨b.cls == .TERM, b.value⟩) goal
  let bk := bucketOf syms num
  let rules := (s.rd.plhs.reverse.zip s.rd.rprec.reverse).map fun p =>
    (⟨bk (posOf s.gens p.1), (precOf syms p.2).1, (precOf syms p.2).2⟩ : PRule)
  let pitem := s.rd.pitem.reverse.map fun x => x.map fun y => bk (posOf s.gens y)
  let terms := syms.filter fun b => b.cls == .TERM
  let nts := (syms[goal]?).toList ++ (syms.eraseIdx goal).filter fun b => b.cls != .TERM
  { syms := syms
    goal := goal
    num := num
    gram := packGrammar lp num.ntokens num.nsyms rules pitem
    prec := ⟨0 :: terms.map BSym.prec ++ 0 :: nts.map BSym.prec, .TOKEN :: terms.map BSym.assoc ++ .TOKEN :: nts.map BSym.assoc⟩
    sr := s.d.sr
    rr := s.d.rr
    acts := s.acts
    out := s.d.out }

/-- What `reader` does with the text given by `get_line`, byacc/reader.c:5169-5195. -/
def readText (t : List Nat) : R FSt := do
  let p ← declLoop (t.length + 1) dInit t
  rulesSection p.1 p.2

/-- byacc/reader.c:5169-5195 `reader` for the text of a file.  `outside` if the text contains a NUL. -/
def reader (lp : Bool) (file text : List Nat) : R FileOut :=
  if text.contains 0 then .error .outside
  else do
    let s ← readText ((linesOf file text).flatMap Line.text)
    let syms ← checkSymbols s
    .ok (packFile lp s syms (s.d.goal.getD 0))

end Verif.Byacc.Rd
