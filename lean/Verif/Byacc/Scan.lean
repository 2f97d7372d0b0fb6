import Verif.Byacc.Names
/-
byacc/reader.c: reading the grammar file, character by character.

The file is a list of bytes without NUL (files with a NUL byte are not modelled: the code keeps lines as C
strings).  `get_line` gives the file line by line; the lines that are `#line` directives are left out.  All
other functions look at the current line from `cptr` on and call `get_line` at its end.  A line always ends
with a newline (one is added at the end of the file if missing, line 331), and nothing behind the newline is looked at
before `get_line` is called.  The functions below therefore work on the text from `cptr` on: the rest of the
current line and the lines that `get_line` will give.  The empty text is `line == NULL` (end of file).
-/
set_option autoImplicit false
namespace Verif.Byacc.Rd

/-- `isspace`, `isdigit`, `isalpha`, `isalnum` in the C locale. -/
def isSpace (c : Nat) : Bool := c == 32 || (9 ≤ c && c ≤ 13)
def isDigit (c : Nat) : Bool := 48 ≤ c && c ≤ 57
def isAlpha (c : Nat) : Bool := (65 ≤ c && c ≤ 90) || (97 ≤ c && c ≤ 122)
def isAlnum (c : Nat) : Bool := isAlpha c || isDigit c
/-- byacc/defs.h:189-192 `IS_NAME1`, `IS_NAME2`, `IS_IDENT`, `IS_OCTAL` -/
def isName1 (c : Nat) : Bool := isAlpha c || c == 95 || c == 36
def isName2 (c : Nat) : Bool := isAlnum c || c == 95 || c == 36
def isIdent (c : Nat) : Bool := isAlnum c || c == 95 || c == 46 || c == 36
def isOctal (c : Nat) : Bool := 48 ≤ c && c ≤ 55

/-- `strtol(.., 10)` on digits, byacc/reader.c:224.  Simplification: no overflow. -/
def decValue (ds : List Nat) : Nat := ds.foldl (fun n d => 10 * n + (d - 48)) 0

/-- What `line_directive` makes of a line. -/
inductive Ld
  /-- nothing (`ldERR`, or the line ends before a number) -/
  | none
  /-- the line number is set, but the line is not skipped (the line ends in state `ldNUM`, `ldSPC4` or
  `ldFILE`) -/
  | number (n : Nat)
  /-- `ldOK`: line number and file name are set and the line is skipped -/
  | skip (n : Nat) (file : List Nat)
deriving DecidableEq, Repr

/-- byacc/reader.c:186-204, states `ldSPC4` and `ldFILE` -/
def ldFile (n : Nat) (r : List Nat) : Ld :=
  match r.dropWhile isSpace with
  | [] => .number n
  | 34 :: r =>
    if r.head? = some 34 then .none
    else if (r.dropWhile (· != 34)).isEmpty then .number n
    else .skip n (r.takeWhile (· != 34))
  | _ :: _ => .none

/-- byacc/reader.c:165-185, states `ldSPC3` and `ldNUM` -/
def ldNum (r : List Nat) : Ld :=
  let r := r.dropWhile isSpace
  let ds := r.takeWhile isDigit
  if ds.isEmpty then .none
  else
    match r.dropWhile isDigit with
    | [] => .number (decValue ds)
    | c :: r => if isSpace c then ldFile (decValue ds) r else .none

/-- byacc/reader.c:127-245 `line_directive`, with the states `ldSPC1` and `ldSPC2` -/
def lineDirective (line : List Nat) : Ld :=
  match line.dropWhile isSpace with
  | 35 :: r =>
    match r.dropWhile isSpace with
    | 108 :: 105 :: 110 :: 101 :: c :: r => if isSpace c then ldNum r else .none
    | _ => .none
  | _ => .none

/-- What `get_line` works on: the bytes not yet read, `saw_eof`, `lineno`, `input_file_name`. -/
structure LineSt where
  inp : List Nat
  eof : Bool
  lineno : Int
  file : List Nat
deriving DecidableEq, Repr

/-- byacc/reader.c:316-338: the bytes of one line, a newline at its end, and whether the file ended before
the newline. -/
def takeLine : List Nat → List Nat × List Nat × Bool
  | [] => ([10], [], true)
  | c :: r => if c == 10 then ([10], r, false) else
    let x := takeLine r
    (c :: x.1, x.2)

/-- byacc/reader.c:230-242: the effect of a directive on `lineno` and `input_file_name` -/
def ldApply (s : LineSt) : Ld → LineSt
  | .none => s
  | .number n => { s with lineno := n - 1 }
  | .skip n f => { s with lineno := n - 1, file := f }

/-- byacc/reader.c:279-349 `get_line`: the line read (`none`: end of file), with `lineno` and
`input_file_name` afterwards.  The number bounds the turns of the loop; each one reads at least a byte.
Saving the line for `more_curly` is not modelled. -/
def getLine : Nat → LineSt → Option (List Nat) × LineSt
  | 0, s => (none, s)
  | k + 1, s =>
    if s.eof || s.inp.isEmpty then (none, { s with eof := true })
    else
      let x := takeLine s.inp
      let d := lineDirective x.1
      let s := ldApply { inp := x.2.1, eof := x.2.2, lineno := s.lineno + 1, file := s.file } d
      match d with
      | .skip _ _ => getLine k s
      | _ => (some x.1, s)

/-- A line as the rest of the reader sees it. -/
structure Line where
  text : List Nat
  lineno : Int
  file : List Nat
deriving DecidableEq, Repr

/-- The lines given by `get_line` until the end of the file. -/
def allLines : Nat → LineSt → List Line
  | 0, _ => []
  | k + 1, s =>
    match getLine (s.inp.length + 1) s with
    | (none, _) => []
    | (some l, s) => ⟨l, s.lineno, s.file⟩ :: allLines k s

/-- The lines of a file called `file`. -/
def linesOf (file text : List Nat) : List Line := allLines (text.length + 1) ⟨text, false, 0, file⟩

/-- Messages after which byacc ends (byacc/error.c). -/
inductive Msg
  | unexpectedEOF | syntaxError | unterminatedComment | unterminatedString | unterminatedText
  | unterminatedUnion | unterminatedAction | illegalTag | illegalCharacter | usedReserved | overUnionized
  | tokenizedStart | terminalStart | terminalLhs | noGrammar | undefinedGoal
  | untypedLhs | untypedRhs | unknownRhs | dollarError
deriving DecidableEq, Repr

/-- The reader does not go on. -/
inductive Stop
  /-- a message; `pos` is the text from the place it is about on -/
  | error (m : Msg) (pos : List Nat)
  /-- a construct that is not modelled -/
  | outside
deriving DecidableEq, Repr

abbrev R (α : Type) := Except Stop α

/-- Where `next_inline` is: at the text, in a comment that started at `a`, or behind `//`. -/
inductive Mode
  | text | block (a : List Nat) | line

/-- byacc/reader.c:370-397 `skip_comment`, 399-438 `next_inline`, and (if `ws` is the test for the characters
skipped) the loop of `nextc` around it, lines 446-469: the text from the next character on that is not skipped. -/
def skipTo (ws : Nat → Bool) : Mode → List Nat → R (List Nat)
  | .text, 47 :: 42 :: r => skipTo ws (.block (47 :: 42 :: r)) r
  | .text, 47 :: 47 :: r => skipTo ws .line r
  | .text, c :: r => if ws c then skipTo ws .text r else .ok (c :: r)
  | .text, [] => .ok []
  | .block _, 42 :: 47 :: r => skipTo ws .text r
  | .block a, _ :: r => skipTo ws (.block a) r
  | .block a, [] => .error (.error .unterminatedComment a)
  | .line, c :: r => if c == 10 then skipTo ws .text r else skipTo ws .line r
  | .line, [] => .ok []

/-- byacc/reader.c:450-460: newline, blank, `\t`, `\f`, `\r`, `\v`, `,`, `;` -/
def isBlank (c : Nat) : Bool := c == 10 || c == 32 || c == 9 || c == 12 || c == 13 || c == 11 || c == 44 || c == 59

/-- byacc/reader.c:441-472 `nextc`, the place it stops at -/
def nextc (t : List Nat) : R (List Nat) := skipTo isBlank .text t

/-- byacc/reader.c:436, 461-463, 471: the character `nextc` returns; `none` is `EOF`.  A byte 255 is `EOF` too,
because `char` is signed. -/
def peek : List Nat → Option Nat
  | [] => none
  | c :: _ => if c == 255 then none else if c == 92 then some 37 else some c

/-- The tokens of keywords. -/
inductive Kw
  | NONASSOC | CODE | DEBUG | DEFINE | DESTRUCTOR | ERROR_VERBOSE | EXPECT | EXPECT_RR | IDENT | INITIAL_ACTION
  | LEFT | LEX_PARAM | LOCATIONS | TYPE | PARSE_PARAM | PRECEDENCE | PURE_PARSER | RIGHT | START | TOKEN
  | TOKEN_TABLE | UNION | YACC | TEXT | MARK
deriving DecidableEq, Repr

/-- byacc/reader.c:479-515 `ygv_keywords`, with `YYBTYACC` (byacc/config.h:107).  The names as they are written there. -/
def kwNames : List (String × Kw) := [
  ("binary", .NONASSOC), ("code", .CODE), ("debug", .DEBUG), ("define", .DEFINE), ("destructor", .DESTRUCTOR),
  ("error-verbose", .ERROR_VERBOSE), ("expect", .EXPECT), ("expect-rr", .EXPECT_RR), ("ident", .IDENT),
  ("initial-action", .INITIAL_ACTION), ("left", .LEFT), ("lex-param", .LEX_PARAM), ("locations", .LOCATIONS),
  ("nonassoc", .NONASSOC), ("nterm", .TYPE), ("parse-param", .PARSE_PARAM), ("precedence", .PRECEDENCE),
  ("pure-parser", .PURE_PARSER), ("right", .RIGHT), ("start", .START), ("term", .TOKEN), ("token", .TOKEN),
  ("token-table", .TOKEN_TABLE), ("type", .TYPE), ("union", .UNION), ("yacc", .YACC)]

/-- `"text"` as a list of bytes -/
def str (s : String) : List Nat := s.toList.map Char.toNat

/-- byacc/reader.c:565-568: `bsearch` in the table, which is sorted. -/
def kwFind (name : List Nat) : Option Kw := (kwNames.find? fun p => str p.1 == name).map Prod.snd

/-- `tolower` of a letter -/
def lower (c : Nat) : Nat := if 65 ≤ c && c ≤ 90 then c + 32 else c

/-- byacc/reader.c:537-562: the name of a keyword as it is looked up, and the text behind it -/
def kwName : List Nat → List Nat × List Nat
  | [] => ([], [])
  | c :: r =>
    if isAlpha c then ((lower c :: (kwName r).1), (kwName r).2)
    else if isDigit c || c == 45 || c == 46 || c == 36 then (c :: (kwName r).1, (kwName r).2)
    else if c == 95 then (45 :: (kwName r).1, (kwName r).2)
    else ([], c :: r)

/-- byacc/reader.c:525-588 `keyword`, called at a `%` or `\` -/
def keyword (t : List Nat) : R (Kw × List Nat) :=
  match t with
  | _ :: c :: r =>
    if isAlpha c then
      match kwFind (kwName (c :: r)).1 with
      | some k => .ok (k, (kwName (c :: r)).2)
      | none => .error (.error .syntaxError t)
    else if c == 123 then .ok (.TEXT, r)
    else if c == 37 || c == 92 then .ok (.MARK, r)
    else if c == 60 then .ok (.LEFT, r)
    else if c == 62 then .ok (.RIGHT, r)
    else if c == 48 then .ok (.TOKEN, r)
    else if c == 50 then .ok (.NONASSOC, r)
    else .error (.error .syntaxError t)
  | _ => .error (.error .syntaxError t)

/-- byacc/reader.c:1557-1576 `is_reserved` -/
def isReserved (name : List Nat) : Bool :=
  name == str "." || name == str "$accept" || name == str "$end" ||
    match name with
    | 36 :: 36 :: c :: r => isDigit c && r.all isDigit
    | _ => false

/-- byacc/reader.c:1578-1592 `get_name`: the name and the text behind it; `lookup` is left to the caller. -/
def getName (t : List Nat) : R (List Nat × List Nat) :=
  if isReserved (t.takeWhile isIdent) then .error (.error .usedReserved t)
  else .ok (t.takeWhile isIdent, t.dropWhile isIdent)

/-- byacc/reader.c:1594-1613 `get_number`: the number and the text behind it; `MAXYYINT` is `INT_MAX`. -/
def getNumber (t : List Nat) : R (Nat × List Nat) :=
  if 2147483647 < decValue (t.takeWhile isDigit) then .error (.error .syntaxError t)
  else .ok (decValue (t.takeWhile isDigit), t.dropWhile isDigit)

/-- byacc/reader.c:1367-1377 `hexval` -/
def hexval (c : Nat) : Option Nat :=
  if 48 ≤ c && c ≤ 57 then some (c - 48)
  else if 65 ≤ c && c ≤ 70 then some (c - 65 + 10)
  else if 97 ≤ c && c ≤ 102 then some (c - 97 + 10)
  else none

/-- byacc/reader.c:1457-1477: the escapes by letter; any other character stands for itself -/
def escChar (c : Nat) : Nat :=
  if c == 97 then 7 else if c == 98 then 8 else if c == 102 then 12 else if c == 110 then 10
  else if c == 114 then 13 else if c == 116 then 9 else if c == 118 then 11 else c

/-- byacc/reader.c:1418-1438: an octal escape from its first digit on: value and text behind it -/
def octal : List Nat → Nat × List Nat
  | a :: b :: c :: r =>
    if isOctal b then
      if isOctal c then (((a - 48) * 8 + (b - 48)) * 8 + (c - 48), r) else ((a - 48) * 8 + (b - 48), c :: r)
    else (a - 48, b :: c :: r)
  | a :: b :: [] => if isOctal b then ((a - 48) * 8 + (b - 48), []) else (a - 48, [b])
  | [a] => (a - 48, [])
  | [] => (0, [])

/-- byacc/reader.c:1444-1454: further hexadecimal digits; `none`: more than `MAXCHAR` -/
def hexMore : Nat → List Nat → Option (Nat × List Nat)
  | n, [] => some (n, [])
  | n, c :: r =>
    match hexval c with
    | some i => if 255 < n * 16 + i then none else hexMore (n * 16 + i) r
    | none => some (n, c :: r)

/-- byacc/reader.c:1395-1480: the characters of a literal behind its first quote, which is `q`, and the text behind the
last one; `a` is the place of the literal.  The number bounds the length of the text. -/
def litLoop (q : Nat) (a : List Nat) : Nat → List Nat → R (List Nat × List Nat)
  | 0, _ => .error .outside
  | _ + 1, [] => .error (.error .unterminatedString a)
  | k + 1, c :: r =>
    if c == q then .ok ([], r)
    else if c == 10 then .error (.error .unterminatedString a)
    else if c == 92 then
      match r with
      | [] => .error (.error .unterminatedString a)
      | d :: r' =>
        if d == 10 then litLoop q a k r'
        else if isOctal d then
          if 255 < (octal r).1 then .error (.error .illegalCharacter (c :: r))
          else (litLoop q a k (octal r).2).map fun x => ((octal r).1 :: x.1, x.2)
        else if d == 120 then
          match r' with
          | [] => .error (.error .illegalCharacter (c :: r))
          | h :: r'' =>
            match hexval h with
            | none => .error (.error .illegalCharacter (c :: r))
            | some n =>
              match hexMore n r'' with
              | none => .error (.error .illegalCharacter (c :: r))
              | some (n, rest) => (litLoop q a k rest).map fun x => (n :: x.1, x.2)
        else (litLoop q a k r').map fun x => (escChar d :: x.1, x.2)
    else (litLoop q a k r).map fun x => (c :: x.1, x.2)

/-- byacc/reader.c:1379-1555 `get_literal`: the characters of a literal and the text behind it; its name is
`litName` of the characters (lines 1482-1548), `lookup` is left to the caller. -/
def getLiteral (t : List Nat) : R (List Nat × List Nat) :=
  match t with
  | [] => .error .outside
  | q :: r => litLoop q t (r.length + 1) r

/-- byacc/reader.c:1647-1682 `get_tag`, called at `<`: the tag and the text behind the `>` -/
def getTag (t : List Nat) : R (List Nat × List Nat) := do
  let u ← nextc (t.drop 1)
  match peek u with
  | none => .error (.error .unexpectedEOF u)
  | some c =>
    if !isName1 c then .error (.error .illegalTag t)
    else do
      let v ← nextc ((u.drop 1).dropWhile isIdent)
      match peek v with
      | none => .error (.error .unexpectedEOF v)
      | some d =>
        if d != 62 then .error (.error .illegalTag t)
        else .ok (c :: (u.drop 1).takeWhile isIdent, v.drop 1)

/-- byacc/reader.c:621-653 `copy_string`, called behind the quote `q`: what is copied and the text behind it; `a` is
the place of the string. -/
def copyString (q : Nat) (a : List Nat) : List Nat → R (List Nat × List Nat)
  | [] => .error (.error .unterminatedString a)
  | c :: r =>
    if c == q then .ok ([c], r)
    else if c == 10 then .error (.error .unterminatedString a)
    else if c == 92 then
      match r with
      | [] => .error (.error .unterminatedString a)
      | d :: r' => (copyString q a r').map fun x => (c :: d :: x.1, x.2)
    else (copyString q a r).map fun x => (c :: x.1, x.2)

/-- byacc/reader.c:664-672: the rest of a line behind `//`, with a blank in each `*/`; the newline is not
taken. -/
def lineComment : List Nat → List Nat × List Nat
  | [] => ([], [])
  | c :: r =>
    if c == 10 then ([], c :: r)
    else if c == 42 && r.head? == some 47 then (c :: 32 :: (lineComment r).1, (lineComment r).2)
    else (c :: (lineComment r).1, (lineComment r).2)

/-- byacc/reader.c:683-700: the text behind `/*` up to `*/` -/
def blockComment (a : List Nat) : List Nat → R (List Nat × List Nat)
  | 42 :: 47 :: r => .ok ([42, 47], r)
  | c :: r => (blockComment a r).map fun x => (c :: x.1, x.2)
  | [] => .error (.error .unterminatedComment a)

/-- byacc/reader.c:655-703 `copy_comment`, called behind a `/` (`a` is the text from it on): what is copied behind the
`/`, and the text behind it.  A `//` comment becomes a `/* */` comment. -/
def copyComment (a : List Nat) : List Nat → R (List Nat × List Nat)
  | 47 :: r => .ok (42 :: ((lineComment r).1 ++ [42, 47]), (lineComment r).2)
  | 42 :: r => (blockComment a r).map fun x => (42 :: x.1, x.2)
  | t => .ok ([], t)

/-- byacc/reader.c:853-903, the loop of `copy_text`: what is written and the text behind `%}`.  `nl` is
`need_newline`, `a` the place of `%{`. -/
def textLoop (a : List Nat) : Nat → Bool → List Nat → R (List Nat × List Nat)
  | 0, _, _ => .error .outside
  | _ + 1, _, [] => .error (.error .unterminatedText a)
  | k + 1, nl, c :: r =>
    if c == 10 then (textLoop a k false r).map fun x => (10 :: x.1, x.2)
    else if c == 39 || c == 34 then do
      let s ← copyString c (c :: r) r
      (textLoop a k true s.2).map fun x => (c :: s.1 ++ x.1, x.2)
    else if c == 47 then do
      let s ← copyComment (c :: r) r
      (textLoop a k true s.2).map fun x => (c :: s.1 ++ x.1, x.2)
    else if (c == 37 || c == 92) && r.head? == some 125 then
      .ok (if nl then [10] else [], r.drop 1)
    else (textLoop a k true r).map fun x => (c :: x.1, x.2)

/-- byacc/reader.c:835-904 `copy_text`, called behind `%{`; `a` is the text from there on.  The `#line` line is left
out of what is written. -/
def copyText (a t : List Nat) : R (List Nat × List Nat) :=
  let t := if t.head? == some 10 then t.drop 1 else t
  textLoop a (t.length + 1) false t

/-- byacc/reader.c:955-1046, the loop of `copy_union`: the text behind the closing brace.  What is written is not
modelled (`in_prefix` only concerns that). -/
def unionLoop (a : List Nat) : Nat → Int → List Nat → R (List Nat)
  | 0, _, _ => .error .outside
  | _ + 1, _, [] => .error (.error .unterminatedUnion a)
  | k + 1, depth, c :: r =>
    if c == 123 then unionLoop a k (depth + 1) r
    else if c == 125 then if depth - 1 == 0 then .ok r else unionLoop a k (depth - 1) r
    else if c == 39 || c == 34 then do
      let s ← copyString c (c :: r) r
      unionLoop a k depth s.2
    else if c == 47 then do
      let s ← copyComment (c :: r) r
      unionLoop a k depth s.2
    else unionLoop a k depth r

/-- byacc/reader.c:590-619 `copy_ident`, called behind `%ident`: the text behind it.  What is written is not
modelled. -/
def copyIdent (t : List Nat) : R (List Nat) := do
  let u ← nextc t
  match peek u with
  | none => .error (.error .unexpectedEOF u)
  | some c =>
    if c != 34 then .error (.error .syntaxError u)
    else
      let v := (u.drop 1).dropWhile fun c => c != 10 && c != 34
      .ok (if v.head? == some 34 then v.drop 1 else v)

end Verif.Byacc.Rd
