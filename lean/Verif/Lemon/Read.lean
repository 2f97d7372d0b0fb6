import Verif.Lemon.Scan
import Verif.Lemon.Table
import Verif.Lemon.Grammar
/-
The reader of grammar files, `parseonetoken` (lemon.c:2346-2892).

Simplifications.  A pointer to a `struct symbol` of the symbol table is the name of the symbol: the table has one symbol for each name
(C27, `C27_table` and `C27_lemon`).  The symbols of the table are listed in the order in which they are made.  A multi-terminal made for
`A|B` is not in the table, and only one rule refers to it; it is `RhsRef.alts`.  Running out of memory is not modelled.  An error
message is a constructor of `RErr` with the texts that are printed.
-/
set_option autoImplicit false
namespace Verif.Lemon

/-- `ISLOWER`, lemon.c:21 -/
def isLower (c : Nat) : Bool := 97 ≤ c && c ≤ 122

/-- `enum symbol_type`, lemon.c:248-252 -/
inductive SymType
  | TERMINAL | NONTERMINAL | MULTITERMINAL
  deriving DecidableEq, Repr

/-- `struct symbol`, lemon.c:260-287, without the fields set after the file is read (`index`, `firstset`, `lambda`,
`dtnum`), `id` (the position in the list of symbols), `rule` (see `Gram.rulesOf`), `useCnt` (never 0) and `bContent` (used
in the report only) -/
structure Sym where
  name : List Nat
  type : SymType
  fallback : Option (List Nat) := none
  prec : Int := -1
  assoc : Assoc := .UNK
  destructor : Option (List Nat) := none
  destLineno : Nat := 0
  datatype : Option (List Nat) := none
  subsym : List (List Nat) := []
  deriving DecidableEq, Repr

/-- a pointer in the right side of a rule: to a symbol of the table, or to a multi-terminal made for `A|B|…` with the given
`subsym` (lemon.c:2522-2539) -/
inductive RhsRef
  | sym (x : List Nat)
  | alts (subsym : List (List Nat))
  deriving DecidableEq, Repr

/-- the field `name`; for multi-terminals see lemon.c:2532 -/
def RhsRef.name : RhsRef → List Nat
  | .sym x => x
  | .alts l => l.headD []

/-- `struct rule`, lemon.c:290-314, the fields set by the reader.  `rhs` also holds `rhsalias`.  `noCode` is the opposite of
`code != 0`. -/
structure RRule where
  lhs : List Nat
  lhsalias : Option (List Nat)
  rhs : List (RhsRef × Option (List Nat))
  ruleline : Nat
  line : Nat := 0
  code : Option (List Nat) := none
  precsym : Option (List Nat) := none
  precsymDecl : Bool := false
  neverReduce : Bool := false
  deriving DecidableEq, Repr

/-- the declarations whose argument goes to a field of `struct lemon`, lemon.c:2583-2625 -/
inductive Kw
  | name | incl | code | tokenDestructor | defaultDestructor | tokenPrefix | syntaxError | parseAccept | parseFailure
  | stackOverflow | extraArgument | extraContext | tokenType | defaultType | stackSize | expect | startSymbol
  deriving DecidableEq, Repr

/-- the keywords of declarations, lemon.c:2583-2658 -/
inductive Keyword
  | arg (k : Kw)
  | prec (a : Assoc)
  | destructor | type | fallback | token | wildcard | tokenClass | yaccPrec
  deriving DecidableEq, Repr

/-- the texts of the keywords, lemon.c:2583-2658 -/
def keywords : List (List Nat × Keyword) := [
  ([110, 97, 109, 101], .arg .name), -- name
  ([105, 110, 99, 108, 117, 100, 101], .arg .incl), -- include
  ([99, 111, 100, 101], .arg .code), -- code
  ([116, 111, 107, 101, 110, 95, 100, 101, 115, 116, 114, 117, 99, 116, 111, 114], .arg .tokenDestructor), -- token_destructor
  ([100, 101, 102, 97, 117, 108, 116, 95, 100, 101, 115, 116, 114, 117, 99, 116, 111, 114], .arg .defaultDestructor), -- default_destructor
  ([116, 111, 107, 101, 110, 95, 112, 114, 101, 102, 105, 120], .arg .tokenPrefix), -- token_prefix
  ([115, 121, 110, 116, 97, 120, 95, 101, 114, 114, 111, 114], .arg .syntaxError), -- syntax_error
  ([112, 97, 114, 115, 101, 95, 97, 99, 99, 101, 112, 116], .arg .parseAccept), -- parse_accept
  ([112, 97, 114, 115, 101, 95, 102, 97, 105, 108, 117, 114, 101], .arg .parseFailure), -- parse_failure
  ([115, 116, 97, 99, 107, 95, 111, 118, 101, 114, 102, 108, 111, 119], .arg .stackOverflow), -- stack_overflow
  ([101, 120, 116, 114, 97, 95, 97, 114, 103, 117, 109, 101, 110, 116], .arg .extraArgument), -- extra_argument
  ([101, 120, 116, 114, 97, 95, 99, 111, 110, 116, 101, 120, 116], .arg .extraContext), -- extra_context
  ([116, 111, 107, 101, 110, 95, 116, 121, 112, 101], .arg .tokenType), -- token_type
  ([100, 101, 102, 97, 117, 108, 116, 95, 116, 121, 112, 101], .arg .defaultType), -- default_type
  ([115, 116, 97, 99, 107, 95, 115, 105, 122, 101], .arg .stackSize), -- stack_size
  ([101, 120, 112, 101, 99, 116], .arg .expect), -- expect
  ([115, 116, 97, 114, 116, 95, 115, 121, 109, 98, 111, 108], .arg .startSymbol), -- start_symbol
  ([108, 101, 102, 116], .prec .LEFT), -- left
  ([114, 105, 103, 104, 116], .prec .RIGHT), -- right
  ([110, 111, 110, 97, 115, 115, 111, 99], .prec .NONE), -- nonassoc
  ([112, 114, 101, 99, 101, 100, 101, 110, 99, 101], .prec .PRECEDENCE), -- precedence
  ([100, 101, 115, 116, 114, 117, 99, 116, 111, 114], .destructor), -- destructor
  ([116, 121, 112, 101], .type), -- type
  ([102, 97, 108, 108, 98, 97, 99, 107], .fallback), -- fallback
  ([116, 111, 107, 101, 110], .token), -- token
  ([119, 105, 108, 100, 99, 97, 114, 100], .wildcard), -- wildcard
  ([116, 111, 107, 101, 110, 95, 99, 108, 97, 115, 115], .tokenClass), -- token_class
  ([121, 97, 99, 99, 95, 112, 114, 101, 99], .yaccPrec)] -- yacc_prec

/-- the comparisons of lemon.c:2583-2658 -/
def keyword (x : List Nat) : Option Keyword := (keywords.find? fun k => k.1 == x).map Prod.snd

/-- `insertLineMacro`: the declarations that set it to 0, lemon.c:2583-2625 -/
def Kw.lineMacro : Kw → Bool
  | .name | .tokenPrefix | .extraArgument | .extraContext | .tokenType | .defaultType | .stackSize | .expect | .startSymbol => false
  | _ => true

/-- `declargslot` -/
inductive ArgSlot
  | kw (k : Kw)
  | destructor (sp : List Nat)
  | datatype (sp : List Nat)
  deriving DecidableEq, Repr

/-- `enum e_state`, lemon.c:2295-2319 -/
inductive RSt
  | INITIALIZE | WAITING_FOR_DECL_OR_RULE | WAITING_FOR_DECL_KEYWORD | WAITING_FOR_DECL_ARG | WAITING_FOR_PRECEDENCE_SYMBOL
  | WAITING_FOR_ARROW | IN_RHS | LHS_ALIAS_1 | LHS_ALIAS_2 | LHS_ALIAS_3 | RHS_ALIAS_1 | RHS_ALIAS_2 | PRECEDENCE_MARK_1 | PRECEDENCE_MARK_2
  | RESYNC_AFTER_RULE_ERROR | RESYNC_AFTER_DECL_ERROR | WAITING_FOR_DESTRUCTOR_SYMBOL | WAITING_FOR_DATATYPE_SYMBOL
  | WAITING_FOR_FALLBACK_ID | WAITING_FOR_WILDCARD_ID | WAITING_FOR_CLASS_ID | WAITING_FOR_CLASS_TOKEN | WAITING_FOR_TOKEN_NAME
  deriving DecidableEq, Repr

/-- the error messages of the reader, with the texts they show -/
inductive RErr
  | noRuleForCode                    -- lemon.c:2371
  | secondCode                       -- lemon.c:2376
  | badBegin (x : List Nat)          -- lemon.c:2390
  | precNotTerminal                  -- lemon.c:2398
  | noRuleForPrec (x : List Nat)     -- lemon.c:2402
  | secondPrec                       -- lemon.c:2406
  | noBracket                        -- lemon.c:2419
  | noColon (lhs : List Nat)         -- lemon.c:2431
  | badLhsAlias (x lhs : List Nat)   -- lemon.c:2443
  | noLhsParen (alias : Option (List Nat))  -- lemon.c:2454
  | noArrow (lhs : List Nat) (alias : Option (List Nat)) -- lemon.c:2464
  | tooMany (x : List Nat)           -- lemon.c:2512
  | compound                         -- lemon.c:2541
  | illegalRhs (x : List Nat)        -- lemon.c:2548
  | badRhsAlias (x rhs : List Nat)   -- lemon.c:2559
  /-- lemon.c:2570: the text shown is `psp->lhsalias`, which may be NULL -/
  | noRhsParen (alias : Option (List Nat))
  | unknownKeyword (x : List Nat)    -- lemon.c:2660
  | illegalKeyword (x : List Nat)    -- lemon.c:2666
  | noDestructorSymbol               -- lemon.c:2674
  | noTypeSymbol                     -- lemon.c:2688
  | typeDefined (x : List Nat)       -- lemon.c:2695
  | precDefined (x : List Nat)       -- lemon.c:2717
  | badPrec (x : List Nat)           -- lemon.c:2725
  | illegalArg (x : List Nat)        -- lemon.c:2785 (the keyword is shown too)
  | badFallback (x : List Nat)       -- lemon.c:2795
  | secondFallback (x : List Nat)    -- lemon.c:2803
  | badToken (x : List Nat)          -- lemon.c:2825
  | badWildcard (x : List Nat)       -- lemon.c:2836
  | secondWildcard (x : List Nat)    -- lemon.c:2844
  | badClass (x : List Nat)          -- lemon.c:2852
  | classUsed (x : List Nat)         -- lemon.c:2857
  | badClassToken (x : List Nat)     -- lemon.c:2878
  deriving DecidableEq, Repr

/-- `struct pstate`, lemon.c:2320-2343, and the fields of `struct lemon` that the reader sets.  `prevrule` is the last of
the rules.  `errs` are the messages printed, with line numbers; `errorcnt` is their number. -/
structure RState where
  state : RSt
  syms : List Sym
  rules : List RRule
  errs : List (Nat × RErr)
  fallback : Option (List Nat)
  tkclass : List Nat
  lhs : List Nat
  lhsalias : Option (List Nat)
  rhs : List (RhsRef × Option (List Nat))
  slot : ArgSlot
  insertLineMacro : Bool
  declassoc : Assoc
  preccounter : Nat
  args : Kw → Option (List Nat)
  wildcard : Option (List Nat)
  yaccPrec : Bool

/-- options: `-u`, `-l`, and the name of the file -/
structure ROpts where
  ignorePrec : Bool
  nolinenosflag : Bool
  filename : List Nat

/-- ErrorMsg, and `psp->errorcnt++` -/
def RState.err (s : RState) (line : Nat) (e : RErr) : RState := { s with errs := s.errs ++ [(line, e)] }

/-- `psp->state = …` -/
def RState.goto (s : RState) (st : RSt) : RState := { s with state := st }

/-- a message, and the reader skips the rest of the rule or declaration -/
def RState.fail (s : RState) (line : Nat) (e : RErr) (st : RSt) : RState := (s.err line e).goto st

/-- `Symbol_find`, lemon.c:6131-6145 -/
def RState.find (s : RState) (x : List Nat) : Option Sym := s.syms.find? fun y => y.name == x

/-- a symbol made by `Symbol_new`, lemon.c:5961-5975 -/
def newSym (x : List Nat) : Sym := { name := x, type := if isUpper (x.headD 0) then .TERMINAL else .NONTERMINAL }

/-- `Symbol_new`, lemon.c:5955-5980 -/
def RState.symNew (s : RState) (x : List Nat) : RState :=
  if (s.find x).isSome then s else { s with syms := s.syms ++ [newSym x] }

/-- the symbol `x` -/
def RState.sym (s : RState) (x : List Nat) : Sym := (s.find x).getD (newSym x)

/-- fields of the symbol `x` are changed -/
def RState.upd (s : RState) (x : List Nat) (f : Sym → Sym) : RState :=
  { s with syms := s.syms.map fun y => if y.name = x then f y else y }

/-- the last rule is changed -/
def RState.updRule (s : RState) (f : RRule → RRule) : RState :=
  match s.rules.getLast? with
  | none => s
  | some r => { s with rules := s.rules.dropLast ++ [f r] }

/-- `{NEVER-REDUCE` -/
def neverReduceText : List Nat := [123, 78, 69, 86, 69, 82, 45, 82, 69, 68, 85, 67, 69]

/-- a block of code after a rule, lemon.c:2369-2386 -/
def codeToken (s : RState) (line : Nat) (x : List Nat) : RState :=
  match s.rules.getLast? with
  | none => s.err line .noRuleForCode
  | some r =>
    if r.code.isSome then s.err line .secondCode
    else if x = neverReduceText then s.updRule fun r => { r with neverReduce := true }
    else s.updRule fun r => { r with line := line, code := some (x.drop 1) }

/-- INITIALIZE and WAITING_FOR_DECL_OR_RULE, lemon.c:2355-2395.  The assignments for INITIALIZE are those of
`RState.init`. -/
def beginToken (s : RState) (line : Nat) (x : List Nat) : RState :=
  let c := x.headD 0
  if c = 37 then s.goto .WAITING_FOR_DECL_KEYWORD
  else if isLower c then { s.symNew x with lhs := x, rhs := [], lhsalias := none, state := .WAITING_FOR_ARROW }
  else if c = 123 then codeToken s line x
  else if c = 91 then s.goto .PRECEDENCE_MARK_1
  else s.err line (.badBegin x)

/-- PRECEDENCE_MARK_1, lemon.c:2396-2416 -/
def markToken (o : ROpts) (s : RState) (line : Nat) (x : List Nat) : RState :=
  let s' :=
    if !isUpper (x.headD 0) then s.err line .precNotTerminal
    else
      match s.rules.getLast? with
      | none => s.err line (.noRuleForPrec x)
      | some r =>
        if r.precsym.isSome then s.err line .secondPrec
        else if o.ignorePrec then s.updRule fun r => { r with precsymDecl := true }
        else (s.symNew x).updRule fun r => { r with precsym := some x, precsymDecl := true }
  s'.goto .PRECEDENCE_MARK_2

/-- the end of a rule, lemon.c:2472-2509 -/
def endRule (s : RState) (line : Nat) : RState :=
  { s with
    rules := s.rules ++ [{ lhs := s.lhs, lhsalias := s.lhsalias, rhs := s.rhs, ruleline := line }]
    state := .WAITING_FOR_DECL_OR_RULE }

/-- `|X` after a symbol, lemon.c:2522-2544.  `m` is `rhs[nrhs-1]`, with alias `a`. -/
def altToken (s : RState) (line : Nat) (x : List Nat) (m : RhsRef) (a : Option (List Nat)) : RState :=
  let X := x.drop 1
  let s' := s.symNew X
  match m with
  | .sym y =>
    if (s.sym y).type = .MULTITERMINAL then
      let s'' := s'.upd y fun z => { z with subsym := z.subsym ++ [X] }
      if isLower (X.headD 0) || isLower (((s''.sym y).subsym.headD []).headD 0) then s''.err line .compound else s''
    else
      let s'' := { s' with rhs := s.rhs.dropLast ++ [(.alts [y, X], a)] }
      if isLower (X.headD 0) || isLower (y.headD 0) then s''.err line .compound else s''
  | .alts l =>
    let s'' := { s' with rhs := s.rhs.dropLast ++ [(.alts (l ++ [X]), a)] }
    if isLower (X.headD 0) || isLower ((l.headD []).headD 0) then s''.err line .compound else s''

/-- `MAXRHS`, lemon.c:48 -/
def MAXRHS : Nat := 1000

/-- IN_RHS, lemon.c:2471-2553 -/
def rhsToken (s : RState) (line : Nat) (x : List Nat) : RState :=
  let c := x.headD 0
  if c = 46 then endRule s line
  else if isAlpha c then
    if s.rhs.length ≥ MAXRHS then s.fail line (.tooMany x) .RESYNC_AFTER_RULE_ERROR
    else { s.symNew x with rhs := s.rhs ++ [(.sym x, none)] }
  else
    match s.rhs.getLast? with
    | none => s.fail line (.illegalRhs x) .RESYNC_AFTER_RULE_ERROR
    | some (m, a) =>
      if (c = 124 ∨ c = 47) ∧ isUpper (x[1]?.getD 0) then altToken s line x m a
      else if c = 40 then s.goto .RHS_ALIAS_1
      else s.fail line (.illegalRhs x) .RESYNC_AFTER_RULE_ERROR

/-- `x[0]==':' && x[1]==':' && x[2]=='='` -/
def isArrow (x : List Nat) : Bool := x.take 3 == [58, 58, 61]

/-- RHS_ALIAS_1, lemon.c:2554-2565 -/
def rhsAliasToken (s : RState) (line : Nat) (x : List Nat) : RState :=
  match s.rhs.getLast? with
  | none => s
  | some (m, _) =>
    if isAlpha (x.headD 0) then { s with rhs := s.rhs.dropLast ++ [(m, some x)], state := .RHS_ALIAS_2 }
    else s.fail line (.badRhsAlias x m.name) .RESYNC_AFTER_RULE_ERROR

/-- WAITING_FOR_DECL_KEYWORD, lemon.c:2576-2671 -/
def keywordToken (s : RState) (line : Nat) (x : List Nat) : RState :=
  if isAlpha (x.headD 0) then
    match keyword x with
    | some (.arg k) => { s with slot := .kw k, insertLineMacro := k.lineMacro, state := .WAITING_FOR_DECL_ARG }
    | some (.prec a) => { s with preccounter := s.preccounter + 1, declassoc := a, insertLineMacro := true, state := .WAITING_FOR_PRECEDENCE_SYMBOL }
    | some .destructor => { s with insertLineMacro := true, state := .WAITING_FOR_DESTRUCTOR_SYMBOL }
    | some .type => { s with insertLineMacro := true, state := .WAITING_FOR_DATATYPE_SYMBOL }
    | some .fallback => { s with insertLineMacro := true, fallback := none, state := .WAITING_FOR_FALLBACK_ID }
    | some .token => { s with insertLineMacro := true, state := .WAITING_FOR_TOKEN_NAME }
    | some .wildcard => { s with insertLineMacro := true, state := .WAITING_FOR_WILDCARD_ID }
    | some .tokenClass => { s with insertLineMacro := true, state := .WAITING_FOR_CLASS_ID }
    | some .yaccPrec => { s with insertLineMacro := false, yaccPrec := true, state := .WAITING_FOR_DECL_OR_RULE }
    | none => s.fail line (.unknownKeyword x) .RESYNC_AFTER_DECL_ERROR
  else s.fail line (.illegalKeyword x) .RESYNC_AFTER_DECL_ERROR

/-- WAITING_FOR_DESTRUCTOR_SYMBOL, lemon.c:2672-2685 -/
def destructorToken (s : RState) (line : Nat) (x : List Nat) : RState :=
  if !isAlpha (x.headD 0) then s.fail line .noDestructorSymbol .RESYNC_AFTER_DECL_ERROR
  else { s.symNew x with slot := .destructor x, insertLineMacro := true, state := .WAITING_FOR_DECL_ARG }

/-- WAITING_FOR_DATATYPE_SYMBOL, lemon.c:2686-2708 -/
def datatypeToken (s : RState) (line : Nat) (x : List Nat) : RState :=
  if !isAlpha (x.headD 0) then s.fail line .noTypeSymbol .RESYNC_AFTER_DECL_ERROR
  else if (s.find x).any fun y => y.datatype.isSome then s.fail line (.typeDefined x) .RESYNC_AFTER_DECL_ERROR
  else { s.symNew x with slot := .datatype x, insertLineMacro := false, state := .WAITING_FOR_DECL_ARG }

/-- WAITING_FOR_PRECEDENCE_SYMBOL, lemon.c:2709-2729 -/
def precToken (o : ROpts) (s : RState) (line : Nat) (x : List Nat) : RState :=
  if x.headD 0 = 46 then s.goto .WAITING_FOR_DECL_OR_RULE
  else if isUpper (x.headD 0) then
    if o.ignorePrec then s
    else
      let s' := s.symNew x
      if (s'.sym x).prec ≥ 0 then s'.err line (.precDefined x)
      else s'.upd x fun y => { y with prec := s.preccounter, assoc := s.declassoc }
  else s.err line (.badPrec x)

/-- `%d` for a number that is not negative -/
def decimal (n : Nat) : List Nat := (Nat.toDigits 10 n).map Char.toNat

/-- the text `#line n "file"` and a line end, lemon.c:2755, 2765-2775: backslashes are doubled -/
def lineMacro (line : Nat) (file : List Nat) : List Nat :=
  [35, 108, 105, 110, 101, 32] ++ decimal line ++ [32, 34] ++ (file.flatMap fun c => if c = 92 then [92, 92] else [c]) ++ [34, 10]

/-- the new value of `*psp->declargslot`, lemon.c:2737-2782: `zOld`, if `addLineMacro` the line macro on a line of its own, and
`zNew` -/
def addArg (o : ROpts) (addLine : Bool) (line : Nat) (zOld zNew : List Nat) : List Nat :=
  if addLine then
    zOld ++ (if zOld ≠ [] ∧ zOld.getLast? ≠ some 10 then [10] else []) ++ lineMacro line o.filename ++ zNew
  else zOld ++ zNew

/-- `addLineMacro`, lemon.c:2747-2750 -/
def addLineMacro (o : ROpts) (s : RState) (line : Nat) : Bool :=
  !o.nolinenosflag && s.insertLineMacro && line > 1 &&
    match s.slot with
    | .destructor sp => (s.sym sp).destLineno != 0
    | _ => true

/-- WAITING_FOR_DECL_ARG, lemon.c:2730-2790 -/
def argToken (o : ROpts) (s : RState) (line : Nat) (x : List Nat) : RState :=
  let c := x.headD 0
  if c = 123 ∨ c = 34 ∨ isAlnum c then
    let zNew := if c = 34 ∨ c = 123 then x.drop 1 else x
    let m := addLineMacro o s line
    (match s.slot with
      | .kw k => { s with args := fun k' => if k' = k then some (addArg o m line ((s.args k).getD []) zNew) else s.args k' }
      | .destructor sp => s.upd sp fun y =>
          { y with destructor := some (addArg o m line (y.destructor.getD []) zNew), destLineno := if y.destLineno = 0 then line else y.destLineno }
      | .datatype sp => s.upd sp fun y => { y with datatype := some (addArg o m line (y.datatype.getD []) zNew) }).goto .WAITING_FOR_DECL_OR_RULE
  else s.fail line (.illegalArg x) .RESYNC_AFTER_DECL_ERROR

/-- WAITING_FOR_FALLBACK_ID, lemon.c:2791-2811 -/
def fallbackToken (s : RState) (line : Nat) (x : List Nat) : RState :=
  if x.headD 0 = 46 then s.goto .WAITING_FOR_DECL_OR_RULE
  else if !isUpper (x.headD 0) then s.err line (.badFallback x)
  else
    let s' := s.symNew x
    match s.fallback with
    | none => { s' with fallback := some x }
    | some f =>
      if (s'.sym x).fallback.isSome then s'.err line (.secondFallback x)
      else s'.upd x fun y => { y with fallback := some f }

/-- WAITING_FOR_TOKEN_NAME, lemon.c:2812-2831 -/
def tokenToken (s : RState) (line : Nat) (x : List Nat) : RState :=
  if x.headD 0 = 46 then s.goto .WAITING_FOR_DECL_OR_RULE
  else if !isUpper (x.headD 0) then s.err line (.badToken x)
  else s.symNew x

/-- WAITING_FOR_WILDCARD_ID, lemon.c:2832-2849 -/
def wildcardToken (s : RState) (line : Nat) (x : List Nat) : RState :=
  if x.headD 0 = 46 then s.goto .WAITING_FOR_DECL_OR_RULE
  else if !isUpper (x.headD 0) then s.err line (.badWildcard x)
  else
    let s' := s.symNew x
    match s.wildcard with
    | none => { s' with wildcard := some x }
    | some _ => s'.err line (.secondWildcard x)

/-- WAITING_FOR_CLASS_ID, lemon.c:2850-2866 -/
def classToken (s : RState) (line : Nat) (x : List Nat) : RState :=
  if !isLower (x.headD 0) then s.fail line (.badClass x) .RESYNC_AFTER_DECL_ERROR
  else if (s.find x).isSome then s.fail line (.classUsed x) .RESYNC_AFTER_DECL_ERROR
  else
    let s' := (s.symNew x).upd x fun y => { y with type := .MULTITERMINAL }
    { s' with tkclass := x, state := .WAITING_FOR_CLASS_TOKEN }

/-- WAITING_FOR_CLASS_TOKEN, lemon.c:2867-2883 -/
def classMember (s : RState) (line : Nat) (x : List Nat) : RState :=
  let c := x.headD 0
  if c = 46 then s.goto .WAITING_FOR_DECL_OR_RULE
  else if isUpper c ∨ ((c = 124 ∨ c = 47) ∧ isUpper (x[1]?.getD 0)) then
    let X := if isUpper c then x else x.drop 1
    (s.symNew X).upd s.tkclass fun y => { y with subsym := y.subsym ++ [X] }
  else s.fail line (.badClassToken x) .RESYNC_AFTER_DECL_ERROR

/-- `parseonetoken`, lemon.c:2346-2892 -/
def readToken (o : ROpts) (s : RState) (line : Nat) (x : List Nat) : RState :=
  let c := x.headD 0
  match s.state with
  | .INITIALIZE | .WAITING_FOR_DECL_OR_RULE => beginToken s line x
  | .PRECEDENCE_MARK_1 => markToken o s line x
  | .PRECEDENCE_MARK_2 => (if c ≠ 93 then s.err line .noBracket else s).goto .WAITING_FOR_DECL_OR_RULE
  | .WAITING_FOR_ARROW =>
    if isArrow x then s.goto .IN_RHS
    else if c = 40 then s.goto .LHS_ALIAS_1
    else s.fail line (.noColon s.lhs) .RESYNC_AFTER_RULE_ERROR
  | .LHS_ALIAS_1 =>
    if isAlpha c then { s with lhsalias := some x, state := .LHS_ALIAS_2 }
    else s.fail line (.badLhsAlias x s.lhs) .RESYNC_AFTER_RULE_ERROR
  | .LHS_ALIAS_2 =>
    if c = 41 then s.goto .LHS_ALIAS_3 else s.fail line (.noLhsParen s.lhsalias) .RESYNC_AFTER_RULE_ERROR
  | .LHS_ALIAS_3 =>
    if isArrow x then s.goto .IN_RHS else s.fail line (.noArrow s.lhs s.lhsalias) .RESYNC_AFTER_RULE_ERROR
  | .IN_RHS => rhsToken s line x
  | .RHS_ALIAS_1 => rhsAliasToken s line x
  | .RHS_ALIAS_2 =>
    if c = 41 then s.goto .IN_RHS else s.fail line (.noRhsParen s.lhsalias) .RESYNC_AFTER_RULE_ERROR
  | .WAITING_FOR_DECL_KEYWORD => keywordToken s line x
  | .WAITING_FOR_DESTRUCTOR_SYMBOL => destructorToken s line x
  | .WAITING_FOR_DATATYPE_SYMBOL => datatypeToken s line x
  | .WAITING_FOR_PRECEDENCE_SYMBOL => precToken o s line x
  | .WAITING_FOR_DECL_ARG => argToken o s line x
  | .WAITING_FOR_FALLBACK_ID => fallbackToken s line x
  | .WAITING_FOR_TOKEN_NAME => tokenToken s line x
  | .WAITING_FOR_WILDCARD_ID => wildcardToken s line x
  | .WAITING_FOR_CLASS_ID => classToken s line x
  | .WAITING_FOR_CLASS_TOKEN => classMember s line x
  | .RESYNC_AFTER_RULE_ERROR | .RESYNC_AFTER_DECL_ERROR =>
    if c = 46 then s.goto .WAITING_FOR_DECL_OR_RULE
    else if c = 37 then s.goto .WAITING_FOR_DECL_KEYWORD
    else s

/-- the state of the reader at the start: lemon.c:3072-3076, 2355-2360; the symbol `$` is made by `main` (lemon.c:1752).  `z`: option
`-z` -/
def RState.init (z : Bool) : RState where
  state := .INITIALIZE
  syms := [newSym [36]]
  rules := []
  errs := []
  fallback := none
  tkclass := []
  lhs := []
  lhsalias := none
  rhs := []
  slot := .kw .name
  insertLineMacro := false
  declassoc := .LEFT
  preccounter := 0
  args := fun _ => none
  wildcard := none
  yaccPrec := z

/-- the reader is given words with line numbers -/
def readTokens (o : ROpts) (s : RState) (ws : List (Nat × List Nat)) : RState := ws.foldl (fun s w => readToken o s w.1 w.2) s

/-- one step of `Parse`: a call of `parseonetoken`, or a message of the scanner (lemon.c:3143-3146, 3183-3186), which is only counted
here -/
def parseEvent (o : ROpts) (s : RState × Nat) : ScanEv → RState × Nat
  | .tok line x => (readToken o s.1 line x, s.2)
  | .noString | .noCode _ => (s.1, s.2 + 1)

/-- `Parse`, lemon.c:3114-3215, for a preprocessed text: the state of the reader, and the number of messages of the scanner.
`none`: see `scanCode` -/
def parseText (o : ROpts) (z : Bool) (x : List Nat) : Option (RState × Nat) := (scan x).map fun evs => evs.foldl (parseEvent o) (.init z, 0)

/-- `gp->errorcnt` after `Parse`, lemon.c:3213 -/
def errorcnt (s : RState × Nat) : Nat := s.1.errs.length + s.2

/-- the status after `exit(n)`: the system keeps the low eight bits.  lemon.c:1756 calls `exit(lem.errorcnt)` if it is not 0. -/
def exitStatus (n : Nat) : Nat := n % 256

end Verif.Lemon
