import Verif.Lemon.HFile
/-
The search for the template of the parser: `pathsearch` and `tplt_open`, lemon.c:3880-3924 and 3999-4052.
-/
set_option autoImplicit false
namespace Verif.Lemon

/-- The files that can be read (`access(…,004)==0`, and `fopen` for reading succeeds) and those that exist (`access(…,0)==0`). -/
structure Disk where
  readable : List Nat → Bool
  present : List Nat → Bool

/-- the directories tried in the loop of `pathsearch`, lemon.c:3908-3914: up to each colon; a last one that is empty is not tried.  `cur` is the part read so far. -/
def pathDirs (cur : List Nat) : List Nat → List (List Nat)
  | [] => if cur = [] then [] else [cur]
  | c :: t => if c = 58 then cur :: pathDirs [] t else pathDirs (cur ++ [c]) t

/-- `pathsearch(argv0, name, 0)`, lemon.c:3880-3924; `path` is the environment variable.  `none`: the memory returned was not written. -/
def pathSearch (D : Disk) (argv0 : List Nat) (path : Option (List Nat)) (name : List Nat) : Option (List Nat) :=
  match strrchr 47 argv0 with
  | some (d, _) => some (d ++ [47] ++ name)
  | none =>
    let l := (pathDirs [] (path.getD (cstr ".:/bin:/usr/bin"))).map fun d => d ++ [47] ++ name
    match l.find? D.present with
    | some p => some p
    | none => l.getLast?

inductive TpltOut where
  | opened (name : List Nat)
  /-- a message is printed, and no parser is written -/
  | failed
  /-- a buffer overflows or memory is used that was not written -/
  | undefined
deriving DecidableEq, Repr

/-- `tplt_open`, lemon.c:3999-4052; `buf` has 1000 bytes -/
def tpltOpen (D : Disk) (user : Option (List Nat)) (filename argv0 : List Nat) (path : Option (List Nat)) : TpltOut :=
  match user with
  | some u => if D.readable u then .opened u else .failed
  | none =>
    let lt := ((strrchr 46 filename).map Prod.fst).getD filename ++ cstr ".lt"
    if 1000 < lt.length + 1 then .undefined
    else if D.readable lt then .opened lt
    else if D.readable (cstr "lempar.c") then .opened (cstr "lempar.c")
    else match pathSearch D argv0 path (cstr "lempar.c") with
      | none => .undefined
      | some p => if D.readable p then .opened p else .failed

end Verif.Lemon
