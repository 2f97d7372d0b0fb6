import Verif.Lemon.Text
/-
The header file lemon writes (`ReportHeader`) and the names of its files (`file_makename`), lemon.c:3286-3316 and 5514-5549.
-/
set_option autoImplicit false
namespace Verif.Lemon

/-- `strrchr(s, c)`: the text in front of the last `c` and the text after it -/
def strrchr (c : Nat) : List Nat → Option (List Nat × List Nat)
  | [] => none
  | a :: l => match strrchr c l with
    | some (x, y) => some (a :: x, y)
    | none => if a = c then some ([], l) else none

/-- `file_makename`, lemon.c:3286-3316.  The memory allocated is large enough: `sz` is the sum of all the lengths and 5. -/
def fileMakename (outputDir : Option (List Nat)) (filename suffix : List Nat) : List Nat :=
  let filename := if outputDir.isSome then ((strrchr 47 filename).map Prod.snd).getD filename else filename
  let name := (outputDir.map (· ++ [47])).getD [] ++ filename
  ((strrchr 46 name).map Prod.fst).getD name ++ suffix

/-- `prefix` and `lemp->symbols[i]->name` in `ReportHeader`, lemon.c:5522-5523 -/
def RState.hdrPrefix (s : RState) : List Nat := (s.args .tokenPrefix).getD []
def RState.hdrName (s : RState) (i : Nat) : List Nat := (s.symbols[i]?.map Sym.name).getD []

/-- what `lemon_sprintf` puts in `pattern`, lemon.c:5528-5529 (names of symbols are not empty, so that `lemon_addtext` pads them) -/
def RState.hdrPattern (s : RState) (i : Nat) : List Nat :=
  cstr "#define " ++ s.hdrPrefix ++ padRight 30 (s.hdrName i) ++ [32] ++ padLeft 3 (decimal i) ++ [10]

/-- the loop over the lines of the old header, lemon.c:5527-5532: `i` and whether `fgetc` then gives `EOF`.  `pattern` has `LINESIZE` (1000) bytes;
`none`: `lemon_sprintf` writes beyond them. -/
def RState.hdrLoop (s : RState) (i : Nat) : List (List Nat) → Option (Nat × Bool)
  | [] => some (i, true)
  | l :: rest =>
    if s.nterminal ≤ i then some (i, false)
    else if 1000 < (s.hdrPattern i).length + 1 then none
    else if l.takeWhile (· ≠ 0) ≠ s.hdrPattern i then some (i, rest.isEmpty)
    else s.hdrLoop (i + 1) rest

/-- the text written, lemon.c:5541-5547 -/
def RState.hdrText (s : RState) : List Nat :=
  cstr "enum " ++ s.hdrPrefix ++ cstr "LemonEnum {\n" ++
  ((List.range s.nterminal).drop 1).flatMap (fun i => [32] ++ s.hdrPrefix ++ s.hdrName i ++ cstr " = " ++ padLeft 3 (decimal i) ++ cstr ",\n") ++
  [32] ++ s.hdrPrefix ++ cstr "LEMON_LAST_TOKEN" ++ cstr " = " ++ padLeft 3 (decimal (max 1 s.nterminal)) ++ cstr "\n};\n"

/-- What `ReportHeader` does with the header file. -/
inductive HdrDone where
  | kept
  | wrote (t : List Nat)
  /-- the buffer for the pattern overflowed -/
  | overflow
deriving DecidableEq, Repr

/-- `ReportHeader`, lemon.c:5514-5549; `old`: the header file, if there is one that can be read.  Writing the file is assumed to succeed. -/
def RState.reportHeader (s : RState) (old : Option (List Nat)) : HdrDone :=
  match old with
  | none => .wrote s.hdrText
  | some t => match s.hdrLoop 1 (fgetsGo 999 [] t) with
    | none => .overflow
    | some (i, eof) => if i = s.nterminal ∧ eof = true then .kept else .wrote s.hdrText

end Verif.Lemon
