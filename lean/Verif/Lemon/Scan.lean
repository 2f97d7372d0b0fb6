import Verif.Lemon.Preproc
/-
The scanner of grammar files, `Parse` (lemon.c:3061-3215) from line 3114 on.

A text is the list of its bytes up to the terminating NUL, see `Verif.Lemon.Preproc`.  The rest of the
text from `cp` on is the argument of the functions; its end is where `*cp` is 0.
-/
set_option autoImplicit false
namespace Verif.Lemon

/-- What the scanner does, in this order: a call of `parseonetoken` with `tokenlineno` and
`tokenstart`; or an error message. -/
inductive ScanEv
  | tok (line : Nat) (x : List Nat)
  /-- lemon.c:3143-3146.  The line number printed is that of `startline`, which is always 0. -/
  | noString
  /-- lemon.c:3183-3186 -/
  | noCode (line : Nat)
  deriving DecidableEq, Repr

/-- `if( c=='\n' ) lineno++` -/
def bump (c line : Nat) : Nat := if c = 10 then line + 1 else line

/-- the loop of lemon.c:3127-3131: `prev` is `cp[-1]` -/
def scanComment : Nat → List Nat → Nat → List Nat × Nat
  | _, [], line => ([], line)
  | prev, c :: t, line => if c = 47 ∧ prev = 42 then (t, line) else scanComment c t (bump c line)

/-- the loop of lemon.c:3138-3141: the text up to the closing quote, the rest from there on, and the line -/
def scanString : List Nat → Nat → List Nat × List Nat × Nat
  | [], line => ([], [], line)
  | c :: t, line =>
    if c = 34 then ([], c :: t, line)
    else let r := scanString t (bump c line); (c :: r.1, r.2)

/-- the loop in which the scanner of code blocks is: the outer one (lemon.c:3154), or the loops for
comments (3162), comments to the end of the line (3169) and literals (3175) -/
inductive CodeMode
  | code
  | comment (prevc : Nat)
  | line
  | literal (startchar prevc : Nat)
  deriving DecidableEq, Repr

/-- the loop of lemon.c:3154-3181: the text up to the closing brace or the end of the file, the rest from
there on, and the line.  `none`: an inner loop has met the NUL at the end of the file; the `cp++` of the outer
loop then goes past it, and the scanner goes on outside of `filebuf`. -/
def scanCode : CodeMode → Nat → List Nat → Nat → Option (List Nat × List Nat × Nat)
  | .code, _, [], line => some ([], [], line)
  | .code, level, c :: t, line =>
    if c = 125 ∧ level ≤ 1 then some ([], c :: t, line)
    else if c = 10 then (scanCode .code level t (line + 1)).map fun r => (c :: r.1, r.2)
    else if c = 123 then (scanCode .code (level + 1) t line).map fun r => (c :: r.1, r.2)
    else if c = 125 then (scanCode .code (level - 1) t line).map fun r => (c :: r.1, r.2)
    else if c = 39 ∨ c = 34 then (scanCode (.literal c 0) level t line).map fun r => (c :: r.1, r.2)
    else
      match t with
      | [] => (scanCode .code level [] line).map fun r => (c :: r.1, r.2)
      | d :: u =>
        if c = 47 ∧ d = 42 then (scanCode (.comment 0) level u line).map fun r => (c :: d :: r.1, r.2)
        else if c = 47 ∧ d = 47 then (scanCode .line level u line).map fun r => (c :: d :: r.1, r.2)
        else (scanCode .code level (d :: u) line).map fun r => (c :: r.1, r.2)
  | .comment _, _, [], _ => none
  | .comment prevc, level, c :: t, line =>
    if c = 47 ∧ prevc = 42 then (scanCode .code level t line).map fun r => (c :: r.1, r.2)
    else (scanCode (.comment c) level t (bump c line)).map fun r => (c :: r.1, r.2)
  | .line, _, [], _ => none
  | .line, level, c :: t, line =>
    if c = 10 then (scanCode .code level t (line + 1)).map fun r => (c :: r.1, r.2)
    else (scanCode .line level t line).map fun r => (c :: r.1, r.2)
  | .literal _ _, _, [], _ => none
  | .literal q prevc, level, c :: t, line =>
    if c = q ∧ prevc ≠ 92 then (scanCode .code level t line).map fun r => (c :: r.1, r.2)
    else (scanCode (.literal q (if prevc = 92 then 0 else c)) level t (bump c line)).map fun r => (c :: r.1, r.2)

/-- the scanner, lemon.c:3116-3210, from `cp` on with line number `line`.  The first argument is fuel,
more than the length of the text is enough.  `none`: see `scanCode`. -/
def scanGo : Nat → List Nat → Nat → Option (List ScanEv)
  | 0, _, _ => none
  | _ + 1, [], _ => some []
  | f + 1, c :: t, line =>
    if isSpace c then scanGo f t (bump c line)
    else if c = 47 ∧ t.head? = some 47 then scanGo f ((t.drop 1).dropWhile (· != 10)) line
    else if c = 47 ∧ t.head? = some 42 then
      let r := if t[1]? = some 47 then scanComment 47 (t.drop 2) line else scanComment 42 (t.drop 1) line
      scanGo f r.1 r.2
    else if c = 34 then
      match scanString t line with
      | (b, [], line') => (scanGo f [] line').map fun evs => .noString :: .tok line (c :: b) :: evs
      | (b, _ :: u, line') => (scanGo f u line').map (.tok line (c :: b) :: ·)
    else if c = 123 then
      match scanCode .code 1 t line with
      | none => none
      | some (b, [], line') => (scanGo f [] line').map fun evs => .noCode line :: .tok line (c :: b) :: evs
      | some (b, _ :: u, line') => (scanGo f u line').map (.tok line (c :: b) :: ·)
    else if isAlnum c then (scanGo f (t.dropWhile nameChar) line).map (.tok line (c :: t.takeWhile nameChar) :: ·)
    else if c = 58 ∧ t.take 2 = [58, 61] then (scanGo f (t.drop 2) line).map (.tok line [58, 58, 61] :: ·)
    else if (c = 47 ∨ c = 124) ∧ t.head?.any isAlpha then
      (scanGo f ((t.drop 1).dropWhile nameChar) line).map (.tok line (c :: t.take 1 ++ (t.drop 1).takeWhile nameChar) :: ·)
    else (scanGo f t line).map (.tok line [c] :: ·)

/-- the calls of `parseonetoken` and the error messages of `Parse` for a preprocessed text -/
def scan (z : List Nat) : Option (List ScanEv) := scanGo (z.length + 1) z 1

end Verif.Lemon
