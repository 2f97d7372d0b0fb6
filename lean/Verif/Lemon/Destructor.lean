import Verif.Lemon.Code
/-
Destructors: `emit_destructor_code` (lemon.c:4088-4129) and the part of `ReportTable` that prints the `switch` of `yy_destructor`
(lemon.c:5353-5414).
-/
set_option autoImplicit false
namespace Verif.Lemon

/-- the loop of lemon.c:4117-4125: `$$` is replaced by `(yypminor->yy%d)` -/
def dollars (d : Nat) : List Nat → List Nat
  | 36 :: 36 :: t => [40, 121, 121, 112, 109, 105, 110, 111, 114, 45, 62, 121, 121] ++ decimal d ++ [41] ++ dollars d t
  | c :: t => c :: dollars d t
  | [] => []

/-- a symbol of `lemp->symbols`, with `index` and `dtnum` -/
structure DSym where
  sym : Sym
  index : Nat
  dtnum : Nat
  deriving DecidableEq, Repr

/-- `lemp->symbols[0]` … `lemp->symbols[nsymbol-1]` -/
def RState.dsyms (s : RState) : List DSym := s.realSymbols.zipIdx.map fun p => ⟨p.1, p.2, s.union.2.getD p.2 0⟩

/-- the code chosen by `emit_destructor_code`, lemon.c:4096-4115, and the line for the first directive.  `none`: nothing is printed, or the assertion
fails. -/
def RState.destructorCode (s : RState) (p : DSym) : Option (List Nat × Option Nat) :=
  if p.sym.type = .TERMINAL then (s.args .tokenDestructor).map fun cp => (cp, none)
  else
    match p.sym.destructor with
    | some cp => some (cp, some p.sym.destLineno)
    | none => (s.args .defaultDestructor).map fun cp => (cp, none)

/-- what `emit_destructor_code` prints, and the new `*lineno`, lemon.c:4088-4129.  A line end is never part of `$$`. -/
def RState.emitDestructor (s : RState) (nolinenosflag : Bool) (filename outname : List Nat) (p : DSym) (lineno : Nat) : List Nat × Nat :=
  match s.destructorCode p with
  | none => ([], lineno)
  | some (cp, line) =>
    let first := match line with | some l => if nolinenosflag then [] else lineMacro l filename | none => []
    let l1 := lineno + 1 + (match line with | some _ => if nolinenosflag then 0 else 1 | none => 0)
    let l2 := l1 + newlines cp + 1
    let l3 := if nolinenosflag then l2 else l2 + 1
    ([123, 10] ++ first ++ dollars p.dtnum cp ++ [10] ++ (if nolinenosflag then [] else lineMacro l3 outname) ++ [125, 10], l3 + 1)

/-- `    case %d: /* %s */` and a line end -/
def caseLine (p : DSym) : List Nat := [32, 32, 32, 32, 99, 97, 115, 101, 32] ++ decimal p.index ++ [58, 32, 47, 42, 32] ++ p.sym.name ++ [32, 42, 47, 10]

/-- `      break;` and a line end -/
def breakLine : List Nat := [32, 32, 32, 32, 32, 32, 98, 114, 101, 97, 107, 59, 10]

/-- a group of cases of the `switch`: a line with a comment, if any, the symbols of the cases, and the symbol for which the code is printed -/
structure DCase where
  comment : List Nat
  syms : List DSym
  body : Option DSym
  deriving DecidableEq, Repr

/-- the tokens, lemon.c:5357-5373 -/
def RState.tokenCases (s : RState) : List DCase :=
  if (s.args .tokenDestructor).isSome then
    match s.dsyms.filter fun p => p.sym.type == .TERMINAL with
    | [] => []
    | p :: l => [⟨[32, 32, 32, 32, 32, 32, 47, 42, 32, 84, 69, 82, 77, 73, 78, 65, 76, 32, 68, 101, 115, 116, 114, 117, 99, 116, 111, 114, 32, 42, 47, 10], p :: l, some p⟩]
  else []

/-- the nonterminals with the default destructor, lemon.c:5374-5392: the code is printed for the last one -/
def RState.defaultCases (s : RState) : List DCase :=
  if (s.args .defaultDestructor).isSome then
    let l := s.dsyms.filter fun p => p.sym.type != .TERMINAL && 0 < p.index && p.sym.destructor.isNone
    [⟨if l = [] then [] else [32, 32, 32, 32, 32, 32, 47, 42, 32, 68, 101, 102, 97, 117, 108, 116, 32, 78, 79, 78, 45, 84, 69, 82, 77, 73, 78, 65, 76, 32, 68, 101, 115, 116, 114, 117, 99, 116, 111, 114, 32, 42, 47, 10],
      l, l.getLast?⟩]
  else []

/-- equal destructors for equal fields, lemon.c:5401-5403 -/
def DSym.same (p q : DSym) : Bool := q.sym.type != .TERMINAL && q.sym.destructor.isSome && q.dtnum == p.dtnum && p.sym.destructor == q.sym.destructor

/-- the nonterminals with destructors of their own, lemon.c:5393-5413.  `done` are the indices of those with `destLineno<0`. -/
def ownCases : List DSym → List Nat → List DCase
  | [], _ => []
  | p :: l, done =>
    if p.sym.type = .TERMINAL ∨ p.sym.destructor = none ∨ p.index ∈ done then ownCases l done
    else
      let others := l.filter fun q => p.same q
      ⟨[], p :: others, some p⟩ :: ownCases l (done ++ others.map DSym.index)

/-- all cases -/
def RState.destructorCases (s : RState) : List DCase := s.tokenCases ++ s.defaultCases ++ ownCases s.dsyms []

/-- the text for a group of cases, and the new `lineno` -/
def RState.emitCase (s : RState) (nolinenosflag : Bool) (filename outname : List Nat) (c : DCase) (lineno : Nat) : List Nat × Nat :=
  let l1 := lineno + (if c.comment = [] then 0 else 1) + c.syms.length
  let b := match c.body with | some p => s.emitDestructor nolinenosflag filename outname p l1 | none => ([], l1)
  (c.comment ++ c.syms.flatMap caseLine ++ b.1 ++ breakLine, b.2 + 1)

/-- the text for all groups, and the new `lineno` -/
def RState.emitCases (s : RState) (nolinenosflag : Bool) (filename outname : List Nat) : List DCase → Nat → List Nat × Nat
  | [], lineno => ([], lineno)
  | c :: l, lineno =>
    let p := s.emitCase nolinenosflag filename outname c lineno
    let q := s.emitCases nolinenosflag filename outname l p.2
    (p.1 ++ q.1, q.2)

end Verif.Lemon
