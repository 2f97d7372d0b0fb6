import Verif.Props.C33
import Verif.Lemon.Parse
/-
Specification: grammars that lemon makes a parser for, and the parser made.
-/
set_option autoImplicit false
namespace Verif.Lemon

/-- Grammars without the errors that lemon reports: the start symbol is a nonterminal and is not on
the right-hand side of a rule (lemon.c:981-995).  `error` is a nonterminal as its first letter is not
a capital; the wildcard is a token, not the end of input.  The grammar is not so large that counters overflow. -/
structure Usable (g : Gram) : Prop where
  wf : g.WF
  start : StartNT g
  err : ∀ E, g.errsym = some E → g.nlow ≤ E ∧ E < g.nsym
  wild : ∀ W, g.wildcard = some W → 0 < W ∧ W < g.nterm
  noRhs : ∀ r ∈ g.rules, g.start ∉ r.rhs
  items : g.nitems < 2 ^ 30

/-- A run of lemon on grammar `g` up to the tables (`main`, lemon.c:1806-1839): `m` and `F` are the
states and the follow sets, `A` the actions after the conflicts are resolved, `cs` the states after
compression.  Option `-c` (`compress = false`) leaves out the compression. -/
structure Prepared (g : Gram) (compress : Bool) (m : Mach) (F : List TSet) (A : Acts) (cs : List CState) : Prop where
  analysed : Analysed g m F
  small : (rawActs g m F).length < 2 ^ 30
  actions : findActions g (precsyms g) m F = some A
  compressed : compress = true → ∃ fuel, compressTables g fuel A.acts = some cs
  uncompressed : compress = false → cs = uncompressed A.acts

/-- A run of lemon on grammar `g` with fallbacks `fb` that makes the tables `T` (`main`,
lemon.c:1806-1851) -/
structure Generated (g : Gram) (fb : Nat → Option Nat) (compress : Bool) (m : Mach) (F : List TSet) (A : Acts) (cs : List CState)
    (T : Tables) : Prop extends Prepared g compress m F A cs where
  tables : report g fb cs (resortStates g cs) (nxstate cs (resortStates g cs)) = some T

/-- `T` are the tables that lemon makes for `g` -/
def Generates (g : Gram) (fb : Nat → Option Nat) (compress : Bool) (T : Tables) : Prop :=
  ∃ m F A cs, Generated g fb compress m F A cs T

/-- fallbacks are declared for tokens and are tokens, but not the end of input -/
def FallbackOK (g : Gram) (fb : Nat → Option Nat) : Prop := ∀ t t', fb t = some t' → 0 < t ∧ t < g.nterm ∧ 0 < t' ∧ t' < g.nterm

/-- The entry for token `t` in the row of state number `i`: its action if the entry is marked with
`t`. -/
def Tables.shiftEntry (T : Tables) (i t : Nat) : Option Nat :=
  match T.shiftOfst[i]? with
  | none => none
  | some o => if 0 ≤ o + t ∧ T.lookahead[(o + t).toNat]? = some t then T.action[(o + t).toNat]? else none

/-- The entry for nonterminal `A` (by index) in the row of state number `i`: its action if the entry
is marked with `A`. -/
def Tables.gotoEntry (T : Tables) (i A : Nat) : Option Nat :=
  match T.reduceOfst[i]? with
  | none => none
  | some o => if 0 ≤ o + A ∧ T.lookahead[(o + A).toNat]? = some A then T.action[(o + A).toNat]? else none

/-- How the parser chooses an action for a token, given the actions on tokens, the fallbacks, the
wildcard and the default of the state: the action on the token; if there is none, what is chosen
for its fallback; if there is none, the action on the wildcard (but not at the end of input); else
the default. -/
inductive Finds (act : Nat → Option Nat) (fb : Nat → Option Nat) (wild : Option Nat) (dflt : Nat) : Nat → Nat → Prop
  | hit {t n : Nat} : act t = some n → Finds act fb wild dflt t n
  | fallback {t t' n : Nat} : act t = none → fb t = some t' → Finds act fb wild dflt t' n → Finds act fb wild dflt t n
  | wildcard {t W n : Nat} : act t = none → fb t = none → wild = some W → t ≠ 0 → act W = some n → Finds act fb wild dflt t n
  | dflt {t : Nat} : act t = none → fb t = none → (∀ W, wild = some W → t = 0 ∨ act W = none) → Finds act fb wild dflt t dflt

end Verif.Lemon
