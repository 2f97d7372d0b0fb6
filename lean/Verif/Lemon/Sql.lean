import Verif.Lemon.HFile
/-
The SQL file lemon writes with option `-S` (`ReportSQL`), lemon.c:4656-4912.

Simplification: the statements that are the same for all grammars (`BEGIN`, `CREATE TABLE`, `CREATE VIEW`, `COMMIT`, the first `INSERT` into `directives`) are left out.
Opening and writing the file is assumed to succeed.
-/
set_option autoImplicit false
namespace Verif.Lemon

/-- one row: `" %s(…)"`, and a line end for some rows; `b` is the number of rows already written -/
def sqlRow (nl : Nat → Bool) (b : Nat) (row : List Nat) : List Nat := [32] ++ (if 0 < b then [44] else [32]) ++ row ++ (if nl b then [10] else [])

/-- consecutive rows -/
def sqlRows (nl : Nat → Bool) : Nat → List (List Nat) → List Nat
  | _, [] => []
  | b, r :: rs => sqlRow nl b r ++ sqlRows nl (b + 1) rs

/-- The loops which write a statement `INSERT`.  The beginning of the statement is written when no row has been written yet; a pass of the loop writes the rows of one of
the lists.  After the loop `" ;\n"` is written if there were rows. -/
def sqlInsert (head : List Nat) (nl : Nat → Bool) : Nat → List (List (List Nat)) → List Nat
  | b, [] => if 0 < b then cstr " ;\n" else []
  | b, g :: gs => (if b = 0 then head else []) ++ sqlRows nl b g ++ sqlInsert head nl (b + g.length) gs

/-- lemon.c:4674-4697; `symbols[i]` for `i` from 1 to `nsymbol - 1` -/
def RState.sqlSymbols (s : RState) : List Nat :=
  sqlInsert (cstr "INSERT INTO symbol(id,name,isTerminal,fallback) VALUES\n") (fun _ => true) 0
    (((s.symbols.take s.nsymbol).zipIdx.drop 1).map fun p =>
      [[40] ++ decimal p.2 ++ cstr ",'" ++ p.1.name ++ cstr "'," ++ (if p.2 < s.nterminal then cstr "TRUE" else cstr "FALSE") ++
        (match p.1.fallback with | some f => [44] ++ decimal (s.index f) ++ [41] | none => cstr ",NULL)")])

/-- `get_symbol_prec_chr`, lemon.c:3339-3353 -/
def precChr (y : Sym) : Nat :=
  if 0 ≤ y.prec ∧ y.type = .TERMINAL then match y.assoc with | .LEFT => 76 | .RIGHT => 82 | .NONE => 78 | .PRECEDENCE => 80 | .UNK => 85
  else 85

/-- lemon.c:4706-4722 -/
def RState.sqlPrecs (s : RState) : List Nat :=
  sqlInsert (cstr "INSERT INTO precedence(id,prec,assoc) VALUES\n") (fun b => (b + 1) % 4 == 0) 0
    ((s.symbols.take s.nsymbol).zipIdx.filterMap fun p =>
      if 0 < p.1.prec then some [[40] ++ decimal p.2 ++ [44] ++ decimal p.1.prec.toNat ++ cstr ",'" ++ [precChr p.1] ++ cstr "')"] else none)

/-- a row for a rule, lemon.c:4762-4770; `rp->index` is the number of the rule (lemon.c:2497).  `none`: `rp->precsym` is NULL, and it is used. -/
def RState.sqlRule (s : RState) (p : RRule × Nat) : Option (List Nat) :=
  let front := [40] ++ decimal p.2 ++ [44] ++ decimal (s.index p.1.lhs) ++ [44]
  if p.1.precsymDecl then p.1.precsym.map fun x => front ++ decimal (s.index x) ++ [41] else some (front ++ cstr "NULL)")

/-- lemon.c:4757-4775 -/
def RState.sqlRules (s : RState) : Option (List Nat) :=
  (s.rules.zipIdx.mapM s.sqlRule).map fun rows => sqlInsert (cstr "INSERT INTO rule(ruleid,lhs,prec_id) VALUES\n") (fun b => b % 4 == 0) 0 (rows.map fun r => [r])

/-- lemon.c:4787-4804.  `startRule` is the first rule (lemon.c:1789). -/
def RState.sqlDirectives (s : RState) : Option (List Nat) :=
  s.rules.head?.map fun r =>
    cstr "UPDATE directives SET start_symbol=" ++ decimal (s.index r.lhs) ++ cstr ";\n" ++
    (match s.args .stackSize with | some t => cstr "UPDATE directives SET stack_size='" ++ t ++ cstr "';\n" | none => []) ++
    (match s.wildcard with | some x => cstr "UPDATE directives SET wildcard=" ++ decimal (s.index x) ++ cstr ";\n" | none => [])

/-- the symbols for which a row is written, lemon.c:4821-4836 -/
def RState.sqlSyms (s : RState) : RhsRef → List (List Nat)
  | .sym x => if (s.sym x).type = .MULTITERMINAL then (s.sym x).subsym else [x]
  | .alts l => l

/-- lemon.c:4814-4840 -/
def RState.sqlRhs (s : RState) : List Nat :=
  sqlInsert (cstr "INSERT INTO rulerhs(ruleid,pos,sym) VALUES\n") (fun b => (b + 1) % 5 == 0) 0
    (s.rules.zipIdx.flatMap fun r => r.1.rhs.zipIdx.map fun e =>
      (s.sqlSyms e.1.1).map fun x => [40] ++ decimal r.2 ++ [44] ++ decimal e.2 ++ [44] ++ decimal (s.index x) ++ [41])

/-- the statements that depend on the grammar, in the order in which they are written -/
structure SqlFile where
  symbols : List Nat
  precs : List Nat
  rules : List Nat
  directives : List Nat
  rhs : List Nat
deriving DecidableEq, Repr

/-- `ReportSQL`, lemon.c:4656-4912; `none`: a NULL pointer is used -/
def RState.reportSQL (s : RState) : Option SqlFile :=
  s.sqlRules.bind fun r => s.sqlDirectives.map fun d => ⟨s.sqlSymbols, s.sqlPrecs, r, d, s.sqlRhs⟩

end Verif.Lemon
