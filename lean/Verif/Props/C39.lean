import Verif.Proofs.LemonSound
import Verif.Proofs.Licensed
import Verif.Props.C36
/-
C39: what a parser made by lemon accepts is a sentence.
-/
set_option autoImplicit false
namespace Verif.Lemon
open Verif.Spec

variable {g : Gram} {fb : Nat → Option Nat} {compress : Bool} {T : Tables}

/-- C39, derivation.  The parser is given the tokens `ts` and the end of input, accepts, and reports
neither a syntax error nor an overflow of its stack.  Then there is a rightmost derivation of some
string `Ys` (in which multi-terminals are taken as tokens) from the start symbol such that
* each token given can be read as a terminal that the symbol of `Ys` at this place stands for, and
* the rules whose code is run are those of the derivation, the last one first, except that rules
  with one symbol on the right-hand side and without code may be left out.

Missing: right-hand sides of 256 and more symbols (for which it does not hold, see C43). -/
theorem C39_derivation_partial (u : Usable g) (hfb : FallbackOK g fb) (hlen : ∀ r ∈ g.rules, r.rhs.length < 256)
    (h : Generates g fb compress T) (c : PConf) (fuel : Nat) (ts : List Nat) (hts : ∀ t ∈ ts, t ≠ 0 ∧ t < g.nterm) (p : PState) (evs : List Ev)
    (hp : parseTokens T c fuel (ts ++ [0]) .init = some (p, evs)) (ha : .accept ∈ evs) (hs : ∀ t, .syntaxError t ∉ evs) (ho : .overflow ∉ evs) :
    ∃ Ys ps, g.ext.Rightmost ps.reverse [g.start] Ys ∧
      List.Forall₂ (fun t Y => ∃ t', ReadAs fb g.wildcard t t' ∧ t' ∈ g.members Y) ts Ys ∧ Skips g compress ps (reductions evs) := by
  obtain ⟨m, F, A, cs, h⟩ := h
  obtain ⟨Ys, ps, vs, h1, h2, h3⟩ := tokens_sound u h hfb hlen (c := c) (fuel := fuel) ts .init p [] [] [] [] [] evs hts
    (.norm (.bottom 0)) (by decide) .nil .nil hp hs ho ha
  refine ⟨Ys, ps, ?_, ?_, h3⟩
  · have := h2.rightmost
    simpa [List.map_map, Function.comp_def] using this
  · refine h1.imp ?_
    rintro t Y ⟨t', k1, k2, k3⟩
    exact ⟨t', k1, (shiftSyms_members k2 k3).1⟩

/-- C39.  If the parser accepts the tokens `ts` followed by the end of input, and reports neither a
syntax error nor an overflow of its stack, then `ts` is a sentence of the grammar, up to reading
tokens as their fallbacks or as the wildcard.

Missing: right-hand sides of 256 and more symbols (for which it does not hold, see C43). -/
theorem C39_sentence_partial (u : Usable g) (hfb : FallbackOK g fb) (hlen : ∀ r ∈ g.rules, r.rhs.length < 256)
    (h : Generates g fb compress T) (c : PConf) (fuel : Nat) (ts : List Nat) (hts : ∀ t ∈ ts, t ≠ 0 ∧ t < g.nterm) (p : PState) (evs : List Ev)
    (hp : parseTokens T c fuel (ts ++ [0]) .init = some (p, evs)) (ha : .accept ∈ evs) (hs : ∀ t, .syntaxError t ∉ evs) (ho : .overflow ∉ evs) :
    ∃ w, List.Forall₂ (ReadAs fb g.wildcard) ts w ∧ g.cfg.Sentence g.start w := by
  obtain ⟨m, F, A, cs, h⟩ := h
  obtain ⟨Ys, ps, vs, h1, h2, _⟩ := tokens_sound u h hfb hlen (c := c) (fuel := fuel) ts .init p [] [] [] [] [] evs hts
    (.norm (.bottom 0)) (by decide) .nil .nil hp hs ho ha
  have hw : ∃ w, List.Forall₂ (ReadAs fb g.wildcard) ts w ∧ List.Forall₂ (fun t Y => t ∈ g.members Y) w Ys := by
    clear h2 hp hts
    induction h1 with
    | nil => exact ⟨[], .nil, .nil⟩
    | cons h1 _ ih =>
      obtain ⟨t', k1, k2, k3⟩ := h1
      obtain ⟨w, k4, k5⟩ := ih
      exact ⟨t' :: w, .cons k1 k4, .cons (shiftSyms_members k2 k3).1 k5⟩
  obtain ⟨w, k1, k2⟩ := hw
  have hy := h2.yields
  simp only [List.nil_append, List.map_map, Function.comp_def, List.map_id'] at hy
  have hy := yields_members u.wf hy w k2
  exact ⟨w, k1, hy.toks, hy.derives⟩

/-- C39 for grammars without fallbacks and wildcard: the tokens themselves are a sentence. -/
theorem C39_plain_partial (u : Usable g) (hw : g.wildcard = none) (hlen : ∀ r ∈ g.rules, r.rhs.length < 256)
    (h : Generates g (fun _ => none) compress T) (c : PConf) (fuel : Nat) (ts : List Nat) (hts : ∀ t ∈ ts, t ≠ 0 ∧ t < g.nterm) (p : PState)
    (evs : List Ev) (hp : parseTokens T c fuel (ts ++ [0]) .init = some (p, evs)) (ha : .accept ∈ evs) (hs : ∀ t, .syntaxError t ∉ evs)
    (ho : .overflow ∉ evs) : g.cfg.Sentence g.start ts := by
  obtain ⟨w, h1, h2⟩ := C39_sentence_partial u (fb := fun _ => none) (by intro t t' h; cases h) hlen h c fuel ts hts p evs hp ha hs ho
  have : ts = w := by
    clear h2 hp hts
    induction h1 with
    | nil => rfl
    | cons h1 _ ih =>
      rw [ih]
      cases h1 with
      | self => rfl
      | fallback h => cases h
      | wildcard h => rw [hw] at h; cases h
  rw [this]
  exact h2

/-- The hypotheses of `C39_plain_partial` for the expression grammar and `x + x * x`. -/
example : Usable exExpr ∧ exExpr.wildcard = none ∧ (∀ r ∈ exExpr.rules, r.rhs.length < 256) ∧ (∀ t ∈ [3, 1, 3, 2, 3], t ≠ 0 ∧ t < exExpr.nterm) ∧
    (makeTables true exExpr (fun _ => none) 20).bind (fun T => (parseTokens T ⟨some 100, false, false, false⟩ 20 ([3, 1, 3, 2, 3] ++ [0]) .init).map Prod.snd) =
      some [.shift 3, .reduce 3, .shift 1, .shift 3, .reduce 3, .shift 2, .shift 3, .reduce 3, .reduce 2, .reduce 1, .reduce 0, .accept] :=
  ⟨usable_of (by decide +kernel), rfl, by decide +kernel, by decide +kernel, by decide +kernel⟩

/-- `s ::= e. e ::= e op t. e ::= t. t ::= ID.` with `%token_class op PLUS|MINUS. %fallback ID KW.`  All rules but `e ::= t` have code.
`$ PLUS MINUS ID KW` are 0…4, `op` is 5, `s e t` are 6 7 8. -/
def exMix : Gram where
  nterm := 5
  mts := [[1, 2]]
  nsym := 9
  rules := [⟨6, [7], none, true⟩, ⟨7, [7, 5, 8], none, true⟩, ⟨7, [8], none, false⟩, ⟨8, [3], none, true⟩]
  start := 6
  errsym := none
  wildcard := none
  prec := fun _ => -1
  assoc := fun _ => .UNK

/-- the fallback of `KW` is `ID` -/
def exMixFb (t : Nat) : Option Nat := if t = 4 then some 3 else none

/-- The hypotheses of `C39_derivation_partial` for this grammar and `ID PLUS KW MINUS ID`.  The rule `e ::= t`
(number 3) is left out. -/
example : Usable exMix ∧ FallbackOK exMix exMixFb ∧ (∀ r ∈ exMix.rules, r.rhs.length < 256) ∧ (∀ t ∈ [3, 1, 4, 2, 3], t ≠ 0 ∧ t < exMix.nterm) ∧
    (makeTables true exMix exMixFb 20).bind (fun T => (parseTokens T ⟨some 100, false, false, false⟩ 20 ([3, 1, 4, 2, 3] ++ [0]) .init).map Prod.snd) =
      some [.shift 3, .reduce 2, .shift 1, .shift 4, .reduce 2, .reduce 1, .shift 2, .shift 3, .reduce 2, .reduce 1, .reduce 0, .accept] := by
  refine ⟨usable_of (by decide +kernel), ?_, by decide +kernel, by decide +kernel, by decide +kernel⟩
  intro t t' h
  unfold exMixFb at h
  split_ifs at h
  cases h
  subst_vars
  decide

end Verif.Lemon
