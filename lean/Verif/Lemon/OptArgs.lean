import Mathlib.Logic.Function.Basic
/-
The command line of lemon: "option.c" in lemon.c:2012-2250, the table of options in `main` (lemon.c:1699-1727), the handlers of options with texts
(lemon.c:1574-1615) and what `main` does with the result (lemon.c:1732-1740).
-/
set_option autoImplicit false
namespace Verif.Lemon

/-- `type` and `arg` of `struct s_options`: `OPT_FLAG`; `OPT_FSTR` with one of the three handlers; `OPT_FSTR` with `arg==0` -/
inductive OptKind where
  | flag | dir | define | template | ignored
deriving DecidableEq, Repr

/-- `options[]`, lemon.c:1699-1727; all labels have one byte -/
def optTable : List (Nat × OptKind) := [
  (98, .flag),     -- b
  (99, .flag),     -- c
  (100, .dir),     -- d
  (68, .define),   -- D
  (69, .flag),     -- E
  (102, .ignored), -- f
  (103, .flag),    -- g
  (121, .flag),    -- y
  (89, .flag),     -- Y
  (122, .flag),    -- z
  (117, .flag),    -- u
  (73, .ignored),  -- I
  (109, .flag),    -- m
  (108, .flag),    -- l
  (79, .ignored),  -- O
  (112, .flag),    -- p
  (113, .flag),    -- q
  (114, .flag),    -- r
  (115, .flag),    -- s
  (83, .flag),     -- S
  (120, .flag),    -- x
  (84, .template), -- T
  (87, .ignored)]  -- W

/-- what the options have set; a flag is known by its letter -/
structure CmdSet where
  flags : Nat → Bool
  outputDir : Option (List Nat)
  defines : List (List Nat)
  template : Option (List Nat)

/-- lemon.c:1680-1697: everything is zero -/
def CmdSet.init : CmdSet := ⟨fun _ => false, none, [], none⟩

/-- `handle_d_option`, `handle_D_option`, `handle_T_option`, lemon.c:1574-1615 -/
def CmdSet.handle (S : CmdSet) (k : OptKind) (z : List Nat) : CmdSet :=
  match k with
  | .dir => { S with outputDir := some z }
  | .define => { S with defines := S.defines ++ [z.takeWhile (· ≠ 61)] }
  | .template => { S with template := some z }
  | _ => S

/-- the state of `OptInit`: the settings, `errcnt`, and whether a null pointer was called -/
structure OptRun where
  set : CmdSet
  errcnt : Nat
  crash : Bool

/-- `handleflags`, lemon.c:2066-2099 -/
def handleFlags (R : OptRun) (a : List Nat) : OptRun :=
  match optTable.find? fun e => [e.1].isPrefixOf (a.drop 1) with
  | none => { R with errcnt := R.errcnt + 1 }
  | some (_, .ignored) => R
  | some (c, .flag) => { R with set := { R.set with flags := Function.update R.set.flags c (a.head? == some 45) } }
  | some (_, k) => { R with set := R.set.handle k (a.drop 2) }

/-- `handleswitch`, lemon.c:2104-2188; there are no options with numbers -/
def handleSwitch (R : OptRun) (a : List Nat) : OptRun :=
  match optTable.find? fun e => [e.1] == a.takeWhile (· ≠ 61) with
  | none => { R with errcnt := R.errcnt + 1 }
  | some (_, .flag) => { R with errcnt := R.errcnt + 1 }
  | some (_, .ignored) => { R with crash := true }
  | some (_, k) => { R with set := R.set.handle k ((a.dropWhile (· ≠ 61)).drop 1) }

/-- lemon.c:2198-2204; nothing happens after a crash -/
def optStep (R : OptRun) (a : List Nat) : OptRun :=
  if R.crash then R
  else if a.head? = some 43 ∨ a.head? = some 45 then handleFlags R a
  else if 61 ∈ a then handleSwitch R a
  else R

/-- `ISOPT`, lemon.c:2013 -/
def isOpt (a : List Nat) : Bool := a.head? == some 45 || a.head? == some 43 || a.contains 61

/-- the arguments that are not options, lemon.c:2045-2059 and 2213-2225: those counted by `OptNArgs`, in the order of `OptArg` -/
def optArgs (dashdash : Bool) : List (List Nat) → List (List Nat)
  | [] => []
  | a :: l => (if dashdash || !isOpt a then [a] else []) ++ optArgs (dashdash || a == [45, 45]) l

/-- What becomes of a command line. -/
inductive CmdOut where
  /-- a null pointer is called -/
  | crash
  /-- the list of options is printed; exit status 1 -/
  | usage
  /-- the version is printed; exit status 0 -/
  | version
  /-- "Exactly one filename argument is required."; exit status 1 -/
  | notOneFile
  /-- the grammar file is processed -/
  | run (S : CmdSet) (filename : List Nat)

/-- lemon.c:1732-1750; `args` is `argv` without the name of the program -/
def cmdLine (args : List (List Nat)) : CmdOut :=
  let R := args.foldl optStep ⟨.init, 0, false⟩
  if R.crash then .crash
  else if 0 < R.errcnt then .usage
  else if R.set.flags 120 then .version
  else match optArgs false args with
    | [f] => .run R.set f
    | _ => .notOneFile

end Verif.Lemon
