import Verif.Byacc.Scan
/-
Options and file names: byacc/main.c.  (`getopt` itself is not modelled: its results are given.)
-/
set_option autoImplicit false
namespace Verif.Byacc.Op

/-- byacc/main.c:156-160 -/
structure LongOpt where
  name : List Nat
  arg : Bool
  opt : Nat
deriving DecidableEq, Repr

/-- byacc/main.c:156-175 `long_opts` -/
def longOpts : List LongOpt := [
  ⟨Rd.str "defines", true, 72⟩,
  ⟨Rd.str "file-prefix", true, 98⟩,
  ⟨Rd.str "carburetta", false, 99⟩,
  ⟨Rd.str "graph", false, 103⟩,
  ⟨Rd.str "ebnf", false, 101⟩,
  ⟨Rd.str "lemon", false, 69⟩,
  ⟨Rd.str "help", false, 104⟩,
  ⟨Rd.str "naked", false, 110⟩,
  ⟨Rd.str "nakedq", false, 78⟩,
  ⟨Rd.str "sql", false, 83⟩,
  ⟨Rd.str "name-prefix", true, 112⟩,
  ⟨Rd.str "no-lines", false, 108⟩,
  ⟨Rd.str "output", true, 111⟩,
  ⟨Rd.str "version", false, 86⟩]

/-- `strncmp(x, y, n) == 0`; the end of the list is the NUL at the end of a string -/
def strnEq : Nat → List Nat → List Nat → Bool
  | 0, _, _ => true
  | n + 1, x, y => if x.headD 0 ≠ y.headD 0 then false else if x.headD 0 = 0 then true else strnEq n x.tail y.tail

/-- byacc/main.c:399 `while ((*a++ = *++eqls) != '\0')`: `i` and `j` are the places of `a` and `eqls` in the argument; the result is the argument and
the place of `a` at the end -/
def copyArg : Nat → List Nat → Nat → Nat → List Nat × Nat
  | 0, b, i, _ => (b, i)
  | f + 1, b, i, j => if b.getD (j + 1) 0 = 0 then (b.set i 0, i + 1) else copyArg f (b.set i (b.getD (j + 1) 0)) (i + 1) (j + 1)

/-- What becomes of an argument: it is left as it is, it is `--`, it is replaced, or it is rejected. -/
inductive Mapped
  | same
  | last
  | arg (a : List Nat)
  | invalid
deriving DecidableEq, Repr

/-- byacc/main.c:394-406: the argument (with its NUL) is overwritten; `eq` is the place of `=` -/
def mapTo (o : LongOpt) (buf : List Nat) (eq : Option Nat) : Mapped :=
  let buf := ((buf.set 0 45).set 1 o.opt).set 2 0;
  let r := match eq with | none => (buf, 2) | some e => copyArg buf.length buf 2 e;
  if strnEq 2 (r.1.drop r.2) (Rd.str "--") then .invalid else .arg (r.1.takeWhile (· ≠ 0))

/-- byacc/main.c:370-408: one round of the loop over the arguments; `a` has no NUL -/
def mapLong (a : List Nat) : Mapped :=
  if !strnEq 2 a (Rd.str "--") then .same
  else if a.length = 2 then .last
  else
    let eq := a.idxOf? 61;
    let len := eq.getD a.length;
    if eq.isSome && (len == 0 || a.getD (len + 1) 0 == 0) then .invalid
    else match longOpts.find? (fun o => strnEq (len - 2) o.name (a.drop 2)) with
      | none => .invalid
      | some o => if eq.isSome && !o.arg then .invalid else mapTo o (a ++ [0]) eq

/-- byacc/main.c:368-409: the loop over the arguments; `none`: one is rejected -/
def mapArgs : List (List Nat) → Option (List (List Nat))
  | [] => some []
  | a :: as => match mapLong a with
    | .same => (mapArgs as).map (a :: ·)
    | .last => some (a :: as)
    | .arg b => (mapArgs as).map (b :: ·)
    | .invalid => none

/-! Options -/

/-- The fields of `byacc_t` that decide about files. -/
structure Opts where
  filePrefix : List Nat
  output : Option (List Nat)
  defines : Option (List Nat)
  dflag : Bool
  dflag2 : Bool
  rflag : Bool
  iflag : Bool
  vflag : Bool
  gflag : Bool
  ebnf : Bool
  lemon : Bool
  naked : Bool
  nakedq : Bool
  unicc : Bool
  carburetta : Bool
  sql : Bool
deriving DecidableEq, Repr

/-- byacc/main.c:949-957 -/
def optsInit : Opts := ⟨Rd.str "y", none, none, false, false, false, false, false, false, false, false, false, false, false, false, false⟩

/-- byacc/main.c:249-355 `setflag` and 415-441: an option (with its argument) that `getopt` found.  Options that do not matter for the files change nothing;
those that end the program (`-h`, `-V`, unknown ones) are left out. -/
def applyOpt (o : Opts) (p : Nat × List Nat) : Opts :=
  if p.1 = 98 then { o with filePrefix := p.2 }
  else if p.1 = 72 then { o with dflag := true, dflag2 := true, defines := some p.2 }
  else if p.1 = 111 then { o with output := some p.2 }
  else if p.1 = 99 then { o with carburetta := true }
  else if p.1 = 67 then { o with unicc := true }
  else if p.1 = 100 then { o with dflag := true, dflag2 := false }
  else if p.1 = 101 then { o with ebnf := true }
  else if p.1 = 69 then { o with lemon := true }
  else if p.1 = 103 then { o with gflag := true }
  else if p.1 = 105 then { o with iflag := true }
  else if p.1 = 110 then { o with naked := true }
  else if p.1 = 78 then { o with nakedq := true }
  else if p.1 = 83 then { o with sql := true }
  else if p.1 = 114 then { o with rflag := true }
  else if p.1 = 118 then { o with vflag := true }
  else o

/-- byacc/main.c:415-441: the loop over the options -/
def optsOf (ps : List (Nat × List Nat)) : Opts := ps.foldl applyOpt optsInit

/-! File names -/

/-- byacc/main.c:569-581 `find_suffix`: the place of the suffix -/
def findSuffix (name suffix : List Nat) : Option Nat :=
  if suffix.length ≤ name.length && name.drop (name.length - suffix.length) == suffix then some (name.length - suffix.length) else none

/-- `create_file_names`: the names, and the file prefix if it can still be read -/
structure Names where
  output : List Nat
  code : List Nat
  defines : List Nat
  externs : List Nat
  base : List Nat
  prefixFreed : Bool
deriving DecidableEq, Repr

/-- byacc/main.c:583-689 `create_file_names`.  The names of the other files are `base` and a suffix; defs.h:111-123 has the suffixes. -/
def fileNames (o : Opts) : Names :=
  let tab := o.output.bind fun n => findSuffix n (Rd.str ".tab.c");
  let c := match tab with | some _ => none | none => o.output.bind fun n => findSuffix n (Rd.str ".c");
  let suffix := tab.or c;
  let base := match suffix with | some k => (o.output.getD []).take k | none => o.filePrefix;
  let output := o.output.getD (base ++ Rd.str ".tab.c");
  { output := output
    code := if o.rflag then base ++ Rd.str ".code.c" else output
    defines := if o.dflag && !o.dflag2 then base ++ (if c.isSome then Rd.str ".h" else Rd.str ".tab.h") else o.defines.getD []
    externs := base ++ (if c.isSome then Rd.str ".i" else Rd.str ".tab.i")
    base := base
    prefixFreed := suffix.isSome }

/-- byacc/main.c:831-945 `open_files`: the files opened for writing, in order, each with the letter of the option that asks for it (`o`: the output
file; `d`: the file of `-d` or `-H`).  Before this the input is opened; the temporary files are left out. -/
def written (o : Opts) : List (Nat × List Nat) :=
  let n := fileNames o;
  (if o.vflag then [(118, n.base ++ Rd.str ".output")] else []) ++
  (if o.gflag then [(103, n.base ++ Rd.str ".dot")] else []) ++
  (if o.ebnf then [(101, n.base ++ Rd.str ".ebnf")] else []) ++
  (if o.lemon then [(69, n.base ++ Rd.str ".yl")] else []) ++
  (if o.naked then [(110, n.base ++ Rd.str ".yn")] else []) ++
  (if o.nakedq then [(78, n.base ++ Rd.str ".yn")] else []) ++
  (if o.unicc then [(67, n.base ++ Rd.str ".ypar")] else []) ++
  (if o.carburetta then [(99, n.base ++ Rd.str ".ycbrt")] else []) ++
  (if o.sql then [(83, n.base ++ Rd.str ".sql")] else []) ++
  (if o.dflag || o.dflag2 then [(100, n.defines)] else []) ++
  (if o.iflag then [(105, n.externs)] else []) ++
  [(111, n.output)] ++
  (if o.rflag then [(114, n.code)] else [])

/-- byacc/main.c:858: the name of the graph, `S->file_prefix`, is printed after `create_file_names` may have freed it (687); `none`: it was freed -/
def graphName (o : Opts) : Option (List Nat) := if (fileNames o).prefixFreed then none else some (fileNames o).base

end Verif.Byacc.Op
