/-
Conditional compilation of grammar files: `handle_D_option` (lemon.c:1574-1597),
`eval_preprocessor_boolean` (lemon.c:2897-2990) and `preprocess_input` (lemon.c:2998-3059).

A text is the list of its bytes up to the terminating NUL (`Parse`, lemon.c:3104, appends one); so no
byte of it is 0, and `z[i]` behind the end is 0.  The character classes are those of the "C" locale.
-/
set_option autoImplicit false
namespace Verif.Lemon

/-- `ISSPACE`, lemon.c:16 -/
def isSpace (c : Nat) : Bool := c == 32 || (9 ≤ c && c ≤ 13)
/-- `ISALPHA`, lemon.c:19 -/
def isAlpha (c : Nat) : Bool := (65 ≤ c && c ≤ 90) || (97 ≤ c && c ≤ 122)
/-- `ISALNUM`, lemon.c:18 -/
def isAlnum (c : Nat) : Bool := isAlpha c || (48 ≤ c && c ≤ 57)
/-- `ISALNUM(z[k]) || z[k]=='_'`, lemon.c:2958 -/
def nameChar (c : Nat) : Bool := isAlnum c || c == 95

/-- `azDefine` and `bDefineUsed`, lemon.c:453-456; `nDefineUsed` is the number of `true` in `used` -/
structure Macros where
  names : List (List Nat)
  used : List Bool
  deriving DecidableEq, Repr

/-- lemon.c:1595-1596: the name of a `-D` option ends before `=` -/
def defineName (z : List Nat) : List Nat := z.takeWhile (· != 61)

/-- `handle_D_option`, lemon.c:1574-1597; running out of memory is not modelled -/
def Macros.define (m : Macros) (z : List Nat) : Macros := ⟨m.names ++ [defineName z], m.used ++ [false]⟩

/-- the loop over `azDefine`, lemon.c:2960-2970: the first option with this name is marked -/
def Macros.lookup (m : Macros) (n : List Nat) : Bool × Macros :=
  match m.names.findIdx? (· == n) with
  | none => (false, m)
  | some j => (true, { m with used := m.used.set j true })

/-- the loop over `k`, lemon.c:2925-2948: distance to the closing parenthesis that brings `n` to 0.
The branch for `z[k]==0` (lemon.c:2944-2947) is never taken, the loop ends before it. -/
def closer : Nat → List Nat → Option Nat
  | _, [] => none
  | n, c :: t =>
    if c = 41 then (if n = 1 then some 0 else (closer (n - 1) t).map (· + 1))
    else if c = 40 then (closer (n + 1) t).map (· + 1)
    else (closer n t).map (· + 1)

/-- the main loop of `eval_preprocessor_boolean`, lemon.c:2902-2981: `s` is the text from `z[i]` on.
An error carries the value of `i` at `pp_syntax_error`.  The first argument is fuel, more than the
length of the text is enough (`evalGo_fuel`). -/
def evalGo : Nat → Macros → List Nat → Nat → Bool → Bool → Bool → Except Nat (Bool × Macros)
  | 0, _, _, i, _, _, _ => .error i
  | _ + 1, m, [], _, _, res, _ => .ok (res, m)
  | f + 1, m, c :: t, i, neg, res, okTerm =>
    if isSpace c then evalGo f m t (i + 1) neg res okTerm
    else if c = 33 then
      if okTerm then evalGo f m t (i + 1) (!neg) res okTerm else .error i
    else if c = 124 ∧ t.head? = some 124 then
      if okTerm then .error i
      else if res then .ok (true, m)
      else evalGo f m (t.drop 1) (i + 2) neg res true
    else if c = 38 ∧ t.head? = some 38 then
      if okTerm then .error i
      else if !res then .ok (false, m)
      else evalGo f m (t.drop 1) (i + 2) neg res true
    else if c = 40 then
      if okTerm then
        match closer 1 t with
        | none => evalGo f m t (i + 1) false (res ^^ neg) false
        | some k =>
          match evalGo f m (t.take k) 0 false false true with
          | .error e => .error (i + (e + 1))
          | .ok (r, m') => evalGo f m' (t.drop (k + 1)) (i + 1 + k + 1) false (r ^^ neg) false
      else .error i
    else if isAlpha c then
      if okTerm then
        let n := c :: t.takeWhile nameChar
        evalGo f (m.lookup n).2 (t.dropWhile nameChar) (i + n.length) false ((m.lookup n).1 ^^ neg) false
      else .error i
    else .error i

/-- `eval_preprocessor_boolean`, lemon.c:2897-2990 -/
def evalBool (m : Macros) (z : List Nat) : Except Nat (Bool × Macros) :=
  evalGo (z.length + 1) m z 0 false false true

/-- the messages with which `preprocess_input` ends the program: the syntax error of
lemon.c:2984-2987 with the line and the length of the text shown, or lemon.c:3056 with the line -/
inductive PPError where
  | syntax (line shown : Nat)
  | unterminated (line : Nat)
  deriving DecidableEq, Repr

/-- the variables of `preprocess_input`, lemon.c:2998-3003 -/
structure PP where
  z : List Nat
  exclude : Nat
  start : Nat
  lineno : Nat
  startLine : Nat
  macros : Macros
  deriving DecidableEq, Repr

/-- `if( z[j]!='\n' ) z[j] = ' '`, lemon.c:3011 and 3018 -/
def blankByte (c : Nat) : Nat := if c = 10 then 10 else 32

/-- `for(j=start; j<i; j++) if( z[j]!='\n' ) z[j] = ' '`, lemon.c:3011 and 3018 -/
def blankRange (z : List Nat) (a b : Nat) : List Nat :=
  z.take a ++ ((z.take b).drop a).map blankByte ++ z.drop b

/-- `for(j=i; z[j] && z[j]!='\n'; j++) z[j] = ' '` on the text from `i` on, lemon.c:3014, 3024, 3051 -/
def blankHead : List Nat → List Nat
  | [] => []
  | c :: t => if c = 10 then c :: t else 32 :: blankHead t

/-- the same on the whole text -/
def blankLine (z : List Nat) (i : Nat) : List Nat := z.take i ++ blankHead (z.drop i)

/-- `"%endif"` -/
def kwEndif : List Nat := [37, 101, 110, 100, 105, 102]
/-- `"%else"` -/
def kwElse : List Nat := [37, 101, 108, 115, 101]
/-- `"%ifdef "` -/
def kwIfdef : List Nat := [37, 105, 102, 100, 101, 102, 32]
/-- `"%if "` -/
def kwIf : List Nat := [37, 105, 102, 32]
/-- `"%ifndef "` -/
def kwIfndef : List Nat := [37, 105, 102, 110, 100, 101, 102, 32]

/-- `%endif`, lemon.c:3007-3014 -/
def ppEndif (p : PP) (i : Nat) : PP :=
  let p :=
    if p.exclude = 0 then p
    else if p.exclude = 1 then { p with exclude := 0, z := blankRange p.z p.start i }
    else { p with exclude := p.exclude - 1 }
  { p with z := blankLine p.z i }

/-- `%else`, lemon.c:3015-3024 -/
def ppElse (p : PP) (i : Nat) : PP :=
  let p :=
    if p.exclude = 1 then { p with exclude := 0, z := blankRange p.z p.start i }
    else if p.exclude = 0 then { p with exclude := 1, start := i, startLine := p.lineno }
    else p
  { p with z := blankLine p.z i }

/-- `%if`, `%ifdef` and `%ifndef`, lemon.c:3025-3051.  The keyword is the text before the first white
space; the condition is the rest of the line. -/
def ppIf (p : PP) (i : Nat) : Except PPError PP :=
  if p.exclude = 0 then
    let s := p.z.drop i
    let iBool := (s.takeWhile (fun c => !isSpace c)).length
    let cond := (s.drop iBool).takeWhile (· != 10)
    match evalBool p.macros cond with
    | .error e => .error (.syntax p.lineno (e + 1))
    | .ok (r, m) =>
      let ex := if iBool = 7 then r else !r
      let p := { p with macros := m, exclude := if ex then 1 else 0 }
      let p := if ex then { p with start := i, startLine := p.lineno } else p
      .ok { p with z := blankLine p.z i }
  else .ok { p with exclude := p.exclude + 1, z := blankLine p.z i }

/-- a `%` at the start of a line, lemon.c:3006-3053 -/
def ppDirective (p : PP) (i : Nat) : Except PPError PP :=
  if p.z.getD i 0 ≠ 37 ∨ (0 < i ∧ p.z.getD (i - 1) 0 ≠ 10) then .ok p
  else
    let s := p.z.drop i
    if kwEndif.isPrefixOf s && isSpace (s.getD 6 0) then .ok (ppEndif p i)
    else if kwElse.isPrefixOf s && isSpace (s.getD 5 0) then .ok (ppElse p i)
    else if kwIfdef.isPrefixOf s || kwIf.isPrefixOf s || kwIfndef.isPrefixOf s then ppIf p i
    else .ok p

/-- one round of the loop of `preprocess_input`, lemon.c:3005-3053 -/
def ppStep (p : PP) (i : Nat) : Except PPError PP :=
  ppDirective (if p.z.getD i 0 = 10 then { p with lineno := p.lineno + 1 } else p) i

/-- the loop of `preprocess_input`, lemon.c:3004-3054: the text keeps its length, so `i` takes the
values below it -/
def ppLoop (p : PP) : Except PPError PP := (List.range p.z.length).foldlM ppStep p

/-- `preprocess_input`, lemon.c:2998-3059: the new text, and which macros were used -/
def preprocess (m : Macros) (z : List Nat) : Except PPError (List Nat × Macros) :=
  match ppLoop ⟨z, 0, 0, 1, 1, m⟩ with
  | .error e => .error e
  | .ok p => if p.exclude = 0 then .ok (p.z, p.macros) else .error (.unterminated p.startLine)

end Verif.Lemon
