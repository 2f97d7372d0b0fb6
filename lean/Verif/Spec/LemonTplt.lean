import Verif.Spec.LemonHFile
/-
Where lemon looks for the template of the parser.
-/
set_option autoImplicit false
namespace Verif.Spec.Tplt
open Verif.Spec.GFile (text)

/-- where programs are: beside lemon, if it was called by a path, or else the directories of `PATH` -/
inductive Home where
  | directory (d : List Nat)
  | search (ds : List (List Nat))

/-- the program was called as `argv0`, and the value of `PATH` is `path` -/
inductive IsHome : List Nat → Option (List Nat) → Home → Prop
  | called (d base : List Nat) (path : Option (List Nat)) : 47 ∉ base → IsHome (d ++ [47] ++ base) path (.directory d)
  | path (name : List Nat) (ds : List (List Nat)) : 47 ∉ name → ds ≠ [] → (∀ d ∈ ds, d ≠ [] ∧ 58 ∉ d) → IsHome name (some (List.intercalate [58] ds)) (.search ds)
  | noPath (name : List Nat) : 47 ∉ name → IsHome name none (.search [text ".", text "/bin", text "/usr/bin"])

/-- the files tried, in this order: `stem.lt` in the directory of the grammar file, `lempar.c` in the current directory, and `lempar.c` with the program -/
def candidates (dir stem : List Nat) (h : Home) : List (List Nat) :=
  [dir ++ stem ++ text ".lt", text "lempar.c"] ++
    match h with
    | .directory d => [d ++ text "/lempar.c"]
    | .search ds => ds.map fun d => d ++ text "/lempar.c"

end Verif.Spec.Tplt
