import Verif.Lemon.Preproc
/-
The first comment of the generated C file: the start of `ReportTable` (lemon.c:4954-4968).
-/
set_option autoImplicit false
namespace Verif.Lemon

/-- `"/* This file is automatically generated by Lemon from input grammar\n** source file \""`,
lemon.c:4957-4958 -/
def headerStart : List Nat :=
  [47, 42, 32, 84, 104, 105, 115, 32, 102, 105, 108, 101, 32, 105, 115, 32, 97, 117, 116, 111, 109, 97, 116, 105, 99, 97, 108, 108, 121, 32, 103, 101, 110, 101, 114, 97, 116, 101, 100, 32, 98, 121, 32, 76, 101, 109, 111, 110, 32, 102, 114, 111, 109, 32, 105, 110, 112, 117, 116, 32, 103, 114, 97, 109, 109, 97, 114, 10, 42, 42, 32, 115, 111, 117, 114, 99, 101, 32, 102, 105, 108, 101, 32, 34]

/-- `"\". */\n"`, lemon.c:4958 -/
def headerFile : List Nat := [34, 46, 32, 42, 47, 10]

/-- the lines `"**   -D%s\n"` for the options used, lemon.c:4963-4966 -/
def headerOptions (m : Macros) : List Nat :=
  ((m.names.zip m.used).map fun p => if p.2 then [42, 42, 32, 32, 32, 45, 68] ++ p.1 ++ [10] else []).flatten

/-- the text written and the value of `lineno`, lemon.c:4954-4968; `nDefineUsed` is the number of `true`
in `used` -/
def reportHeader (filename : List Nat) (m : Macros) : List Nat × Nat :=
  let a := headerStart ++ filename ++ headerFile
  if m.used.count true = 0 then (a ++ [46, 10, 42, 47, 10], 1 + 2 + 2)
  else (a ++ ([32, 119, 105, 116, 104, 32, 116, 104, 101, 115, 101, 32, 111, 112, 116, 105, 111, 110, 115, 58, 10, 42, 42, 10] ++ headerOptions m ++ [42, 47, 10]),
    1 + 2 + 2 + m.used.count true + 1)

end Verif.Lemon
