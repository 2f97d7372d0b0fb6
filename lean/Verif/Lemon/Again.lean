import Verif.Lemon.Sql
/-
Option `-g`: the grammar file without comments and actions, as text (`Reprint`, lemon.c:3391-3529).
-/
set_option autoImplicit false
namespace Verif.Lemon

/-- the longest name, at least 10, lemon.c:3396-3401 -/
def RState.nameWidth (s : RState) : Nat := ((s.symbols.take s.nsymbol).map fun y => y.name.length).foldl max 10

/-- `Reprint_token_numbers`, lemon.c:3391-3414.  The inner loop takes the symbols with numbers `i`, `i+skip`, …; here they are
picked out of the list by their remainder modulo `skip`. -/
def RState.reprintNumbers (s : RState) (file : List Nat) : List Nat :=
  let ncolumns := max 1 (76 / (s.nameWidth + 5))
  let skip := (s.nsymbol + ncolumns - 1) / ncolumns
  cstr "// Reprint of input file \"" ++ file ++ cstr "\".\n// Symbols:\n" ++
    (List.range skip).flatMap fun i => cstr "//" ++
      (((s.symbols.take s.nsymbol).zipIdx.filter fun y => y.2 % skip == i).flatMap fun y => [32] ++ padLeft 3 (decimal y.2) ++ [32] ++ padRight s.nameWidth y.1.name) ++ [10]

/-- a name, and the end of the line after each sixth, lemon.c:3429-3432 and 3449-3452; `b` names were printed before -/
def reprintName (b : Nat) (x : List Nat) : List Nat := [32] ++ x ++ (if (b + 1) % 6 = 0 then [10, 32] else [])

/-- lemon.c:3422-3433 -/
def reprintNames : Nat → List (List Nat) → List Nat
  | _, [] => []
  | b, x :: l => (if b = 0 then cstr "%token " else []) ++ reprintName b x ++ reprintNames (b + 1) l

/-- the terminals, lemon.c:3422-3424 -/
def RState.terminals (s : RState) : List Sym := (s.symbols.take s.nsymbol).filter fun y => y.type == .TERMINAL

/-- lemon.c:3422-3436, for the terminator ` .` -/
def RState.reprintDecl (s : RState) : List Nat :=
  reprintNames 0 (s.terminals.map Sym.name) ++ (if s.terminals = [] then [] else cstr " .\n") ++ [10]

/-- lemon.c:3439-3456, for the terminator ` .`; `fb` is the name of `sp_fb`.  Simplification: symbols are compared by their names instead of
by address. -/
def reprintFallbacks : Nat → Option (List Nat) → List Sym → List Nat
  | b, _, [] => (if b > 0 then cstr " .\n" else []) ++ [10]
  | b, fb, y :: l =>
    match y.fallback with
    | none => reprintFallbacks b fb l
    | some f =>
      (if fb = some f then [] else (if b > 0 then cstr " ." else []) ++ cstr "\n%fallback " ++ f ++ cstr "\n ") ++
        reprintName b y.name ++ reprintFallbacks (b + 1) (some f) l

/-- lemon.c:3465-3479 -/
def reprintAssoc : Assoc → List Nat
  | .LEFT => cstr "left" | .RIGHT => cstr "right" | .NONE => cstr "nonassoc" | .PRECEDENCE => cstr "precedence" | .UNK => cstr "UNKNOWN"

/-- one level of precedence, lemon.c:3459-3487 -/
def RState.reprintPrec (s : RState) (j : Nat) : List Nat :=
  match s.terminals.filter fun y => y.prec == (j : Int) with
  | [] => []
  | y :: l => [37] ++ reprintAssoc y.assoc ++ cstr " /*" ++ decimal j ++ cstr "*/" ++ (y :: l).flatMap (fun y => [32] ++ y.name) ++ cstr " .\n"

/-- `print_symbol_prec_commented`, lemon.c:3355-3360 -/
def precNote (y : Sym) : List Nat := if y.prec ≥ 0 then cstr " /*" ++ decimal y.prec.toNat ++ [precChr y] ++ cstr "*/" else []

/-- a name and its precedence as a comment, lemon.c:3376-3377 -/
def RState.printSym (s : RState) (x : List Nat) : List Nat := x ++ precNote (s.sym x)

/-- an element of a right side, lemon.c:3374-3386.  `none`: `subsym[0]` is read though the class has no members. -/
def RState.printElem (s : RState) (e : RhsRef) : Option (List Nat) :=
  match s.sqlSyms e with
  | [] => none
  | x :: l => some ([32] ++ s.printSym x ++ l.flatMap fun y => [124] ++ s.printSym y)

/-- `rule_print` with comments, lemon.c:3364-3389 -/
def RState.printRule (s : RState) (r : RRule) : Option (List Nat) :=
  (r.rhs.mapM fun e => s.printElem e.1).map fun es => r.lhs ++ cstr " ::=" ++ if r.rhs = [] then cstr " /*empty*/" else es.flatten

/-- the rule with what is behind it, lemon.c:3519-3526 -/
def RState.reprintRule (s : RState) (r : RRule) : Option (List Nat) :=
  (s.printRule r).map fun t => t ++ cstr " ." ++ (match r.precsym with | some x => cstr " [" ++ x ++ cstr "]" ++ precNote (s.sym x) | none => []) ++ [10]

/-- the rules, lemon.c:3516-3527; `prev` is the left side of the rule before -/
def RState.reprintRules (s : RState) : Option (List Nat) → List RRule → Option (List Nat)
  | _, [] => some [10]
  | prev, r :: rs => (s.reprintRule r).bind fun t => (s.reprintRules (some r.lhs) rs).map fun u =>
      (if prev.isSome ∧ prev ≠ some r.lhs then [10] else []) ++ t ++ u

/-- `Reprint`, lemon.c:3498-3528.  `none`: there are no rules (`main` stops before), or an empty token class is read outside of its array. -/
def RState.reprint (s : RState) (file : List Nat) : Option (List Nat) :=
  s.rules.head?.bind fun r => (s.reprintRules none s.rules).map fun t =>
    s.reprintNumbers file ++ s.reprintDecl ++ reprintFallbacks 0 none s.terminals ++ (List.range (s.preccounter + 1)).flatMap s.reprintPrec ++
      (match s.args .stackSize with | some a => cstr "\n%stack_size " ++ a ++ cstr " .\n" | none => []) ++
      (match s.wildcard with | some x => cstr "\n%wildcard " ++ x ++ cstr " .\n" | none => []) ++
      cstr "\n%start_symbol " ++ r.lhs ++ cstr "\n\n" ++ t

end Verif.Lemon
