import Verif.Spec.LemonUnion
/-
Specification: the destructors of symbols.
-/
set_option autoImplicit false
namespace Verif.Spec.GFile

/-- `u` is the code `t` in which every `$$`, searched from the left, is replaced by `v`: the parts of `t` between them are kept, and the `$$` behind a part
is the first one after the beginning of the part. -/
def Replaced (t v u : Word) : Prop :=
  ∃ (last : Word) (ps : List Word), t = (ps.flatMap fun p => p ++ text "$$") ++ last ∧ u = (ps.flatMap fun p => p ++ v) ++ last ∧
    (∀ p ∈ ps, ¬ text "$$" <:+: p ++ text "$") ∧ ¬ text "$$" <:+: last

/-- the symbols with numbers 0, 1, …: the end of the input, the tokens, the nonterminals -/
def numbered (o : Opts) (items : List Item) : List Word := text "$" :: tokens o items ++ nonterminals o items

/-- the code of the destructor for a symbol: that for tokens; that of the nonterminal, or else that for nonterminals without one -/
def destroyCode (o : Opts) (items : List Item) (x : Word) : Option Word :=
  if Upper x then argOf o items ("token_destructor", true)
  else ((destructorOf o items x).map Prod.snd).or (argOf o items ("default_destructor", true))

/-- the values of nonterminals without own destructors have the same type, and if `error` is a symbol it has a destructor -/
def SameTypes (o : Opts) (items : List Item) : Prop :=
  (text "error" ∈ nonterminals o items → destructorOf o items (text "error") ≠ none) ∧
  ∀ x ∈ nonterminals o items, ∀ y ∈ nonterminals o items, destructorOf o items x = none → destructorOf o items y = none →
    ∀ T, ValueType o items x T → ValueType o items y T

end Verif.Spec.GFile
