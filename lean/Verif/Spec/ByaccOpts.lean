/-
Specification for the long options of byacc and for the names of the files it writes.
Nothing here refers to the model of byacc.
-/
set_option autoImplicit false
namespace Verif.Spec.YOpts

def txt (s : String) : List Nat := s.toList.map Char.toNat

/-- The long options as the manual lists them: the name, whether the option has an argument, and the short option it stands for.  Abbreviations take the
first of them. -/
def table : List (String × Bool × Char) := [
  ("defines", true, 'H'), ("file-prefix", true, 'b'), ("carburetta", false, 'c'), ("graph", false, 'g'), ("ebnf", false, 'e'), ("lemon", false, 'E'),
  ("help", false, 'h'), ("naked", false, 'n'), ("nakedq", false, 'N'), ("sql", false, 'S'), ("name-prefix", true, 'p'), ("no-lines", false, 'l'),
  ("output", true, 'o'), ("version", false, 'V')]

/-- `name` abbreviates the option `o`, and none before it. -/
def Abbrev (name : List Nat) (o : String × Bool × Char) : Prop :=
  ∃ pre post, table = pre ++ o :: post ∧ name <+: txt o.1 ∧ ∀ p ∈ pre, ¬ name <+: txt p.1

/-- `a` is `--name`, `b` the short option it stands for. -/
def Plain (a b : List Nat) : Prop :=
  ∃ name o, a = txt "--" ++ name ∧ name ≠ [] ∧ (61 ∉ name) ∧ Abbrev name o ∧ b = [45, o.2.2.toNat]

/-- `a` is `--name=val`, `b` the short option with its argument. -/
def WithArg (name val a b : List Nat) : Prop :=
  ∃ o, a = txt "--" ++ name ++ 61 :: val ∧ (61 ∉ name) ∧ val ≠ [] ∧ Abbrev name o ∧ o.2.1 = true ∧ b = 45 :: o.2.2.toNat :: val

/-- `b` takes the place of the long option `a`; an argument must not have `--` in it at the places where the last `name.length` characters of `a` begin. -/
def Short (a b : List Nat) : Prop :=
  Plain a b ∨ ∃ name val, WithArg name val a b ∧ ¬ txt "--" <+: a.drop (a.length - name.length)

/-- All arguments: up to `--`, long options are replaced and the others left. -/
inductive Args : List (List Nat) → List (List Nat) → Prop
  | nil : Args [] []
  | stop (as : List (List Nat)) : Args (txt "--" :: as) (txt "--" :: as)
  | keep (a : List Nat) (as bs : List (List Nat)) : (¬ txt "--" <+: a) → Args as bs → Args (a :: as) (a :: bs)
  | long (a b : List Nat) (as bs : List (List Nat)) : Short a b → Args as bs → Args (a :: as) (b :: bs)

/-! File names -/

/-- The parts of file names: the stem of all names that are not given, and whether `-o` gave a name that ends in `.c` but not in `.tab.c`. -/
inductive Stem (pre : List Nat) : Option (List Nat) → List Nat → Bool → Prop
  | noOut : Stem pre none pre false
  | tab (s : List Nat) : Stem pre (some (s ++ txt ".tab.c")) s false
  | c (s : List Nat) : (¬ txt ".tab" <:+ s) → Stem pre (some (s ++ txt ".c")) s true
  | other (n : List Nat) : (¬ txt ".c" <:+ n) → Stem pre (some n) pre false

/-- The option `c` is among the options. -/
def Given (ps : List (Nat × List Nat)) (c : Char) : Prop := ∃ p ∈ ps, p.1 = c.toNat

/-- The last of the options in `cs` is `c` with the argument `v`. -/
def Last (ps : List (Nat × List Nat)) (cs : List Char) (c : Char) (v : List Nat) : Prop :=
  ∃ pre post, ps = pre ++ (c.toNat, v) :: post ∧ c ∈ cs ∧ ∀ p ∈ post, ∀ d ∈ cs, p.1 ≠ d.toNat

/-- The argument of the last option `c`, if any. -/
def ArgOf (ps : List (Nat × List Nat)) (c : Char) : Option (List Nat) → Prop
  | none => ¬ Given ps c
  | some v => Last ps [c] c v

/-- The stem for these options: `-b` gives the prefix (`y` if it is missing), `-o` the output file. -/
def StemOf (ps : List (Nat × List Nat)) (out : Option (List Nat)) (s : List Nat) (dotC : Bool) : Prop :=
  ∃ b, ArgOf ps 'b' b ∧ ArgOf ps 'o' out ∧ Stem (b.getD (txt "y")) out s dotC

/-- Files with the stem and a suffix. -/
def suffixes : List (Char × String) := [
  ('v', ".output"), ('g', ".dot"), ('e', ".ebnf"), ('E', ".yl"), ('n', ".yn"), ('N', ".yn"), ('C', ".ypar"), ('c', ".ycbrt"), ('S', ".sql"), ('r', ".code.c")]

/-- The files that these options ask for. -/
inductive Written (ps : List (Nat × List Nat)) : Char → List Nat → Prop
  | simple (c : Char) (suf : String) (out : Option (List Nat)) (s : List Nat) (dotC : Bool) :
      (c, suf) ∈ suffixes → Given ps c → StemOf ps out s dotC → Written ps c (s ++ txt suf)
  | externs (out : Option (List Nat)) (s : List Nat) (dotC : Bool) :
      Given ps 'i' → StemOf ps out s dotC → Written ps 'i' (s ++ txt (if dotC then ".i" else ".tab.i"))
  | header (v : List Nat) (out : Option (List Nat)) (s : List Nat) (dotC : Bool) :
      Last ps ['d', 'H'] 'd' v → StemOf ps out s dotC → Written ps 'd' (s ++ txt (if dotC then ".h" else ".tab.h"))
  | headerName (v : List Nat) : Last ps ['d', 'H'] 'H' v → Written ps 'd' v
  | output (s : List Nat) (dotC : Bool) : StemOf ps none s dotC → Written ps 'o' (s ++ txt ".tab.c")
  | outputName (v : List Nat) : ArgOf ps 'o' (some v) → Written ps 'o' v

end Verif.Spec.YOpts
