import Verif.Spec.LemonLayout
import Verif.Spec.LemonLang
/-
What the header file written by lemon should be, and what its files should be called.
-/
set_option autoImplicit false
namespace Verif.Spec.HFile
open Verif.Spec.LText (left right)
open Verif.Spec.RuleCode (num)
open Verif.Spec.GFile (text Word Opts Item tokens tokenNumber)

/-- one enumeration constant -/
def constant (pre : List Nat) (e : Word × Nat) : List Nat := text " " ++ pre ++ e.1 ++ text " = " ++ right 3 (num e.2)

/-- an enumeration; the last constant is not followed by a comma -/
def enumeration (pre : List Nat) (es : List (Word × Nat)) (last : Word × Nat) : List Nat :=
  text "enum " ++ pre ++ text "LemonEnum {\n" ++ es.flatMap (fun e => constant pre e ++ text ",\n") ++ constant pre last ++ text "\n};\n"

/-- a macro -/
def macroLine (pre : List Nat) (e : Word × Nat) : List Nat := text "#define " ++ pre ++ left 30 e.1 ++ text " " ++ right 3 (num e.2)

/-- a header in the format of earlier versions of lemon -/
def macros (pre : List Nat) (es : List (Word × Nat)) : List Nat := es.flatMap fun e => macroLine pre e ++ [10]

/-- the tokens of a grammar file with their numbers -/
def tokenNumbers (o : Opts) (items : List Item) : List (Word × Nat) := (tokens o items).map fun X => (X, tokenNumber o items X)

/-- the header for a grammar file -/
def header (o : Opts) (items : List Item) (pre : List Nat) : List Nat :=
  enumeration pre (tokenNumbers o items) (text "LEMON_LAST_TOKEN", (tokens o items).length + 1)

/-- The path is the directory `dir` (empty or with a slash at the end), the file name `stem` and the extension `ext` (empty or with a dot at the beginning). -/
structure IsPath (path dir stem ext : List Nat) : Prop where
  eq : path = dir ++ stem ++ ext
  isDir : dir = [] ∨ dir.getLast? = some 47
  noSlash : 47 ∉ stem
  isExt : (ext = [] ∧ 46 ∉ stem) ∨ ∃ e, ext = 46 :: e ∧ 46 ∉ e ∧ 47 ∉ e

/-- where the file with the suffix belongs: in the directory asked for, or else that of the grammar file -/
def outputFile (outputDir : Option (List Nat)) (dir stem suffix : List Nat) : List Nat :=
  (match outputDir with | some d => d ++ [47] | none => dir) ++ stem ++ suffix

end Verif.Spec.HFile
