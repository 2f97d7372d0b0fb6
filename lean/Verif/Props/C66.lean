import Verif.Proofs.LemonPrefix
import Verif.Props.C40
/-
C66: a parser made by lemon reports a syntax error at the first token that cannot continue the input.
-/
set_option autoImplicit false
namespace Verif.Lemon
open Verif.Spec

variable {g : Gram} {fb : Nat → Option Nat} {compress : Bool} {m : Mach} {F : List TSet} {A : Acts} {cs : List CState} {T : Tables}

/-- C66, first half.  Let the start symbol and every symbol on a right-hand side derive some string
of terminals.  If the parser was given the tokens `ts` and has reported neither a syntax error nor
an overflow of its stack, then `ts` begins a sentence of the grammar, up to reading tokens as their
fallbacks or as the wildcard.  This holds for grammars with conflicts too.

Missing: right-hand sides of 256 and more symbols (see C43). -/
theorem C66_prefix_partial (u : Usable g) (hfb : FallbackOK g fb) (hlen : ∀ r ∈ g.rules, r.rhs.length < 256)
    (hprod : ∀ r ∈ g.rules, ∀ X ∈ r.rhs, ∃ w, g.cfg.Sentence X w) (hstart : ∃ w, g.cfg.Sentence g.start w)
    (h : Generates g fb compress T) (c : PConf) (fuel : Nat) (ts : List Nat) (hts : ∀ t ∈ ts, t ≠ 0 ∧ t < g.nterm) (p : PState) (evs : List Ev)
    (hp : parseTokens T c fuel ts .init = some (p, evs)) (hs : ∀ t, .syntaxError t ∉ evs) (ho : .overflow ∉ evs) :
    ∃ w x, List.Forall₂ (ReadAs fb g.wildcard) ts w ∧ g.cfg.Sentence g.start (w ++ x) := by
  obtain ⟨m, F, A, cs, h⟩ := h
  obtain ⟨Ys, γ, ps, vs, h1, h2, h3⟩ := tokens_conf u h hfb hlen (c := c) (fuel := fuel) ts .init p [] [] [] [] [] evs hts
    (.norm (.bottom 0)) (by decide) .nil .nil hp hs ho
  have hw : ∃ w, List.Forall₂ (ReadAs fb g.wildcard) ts w ∧ List.Forall₂ (fun t Y => t ∈ g.members Y) w Ys ∧ 0 ∉ w := by
    clear h2 h3 hp
    induction h1 with
    | nil => exact ⟨[], .nil, .nil, by simp⟩
    | @cons t Y ts Ys h1 _ ih =>
      obtain ⟨t', k1, k2, k3⟩ := h1
      obtain ⟨w, k4, k5, k6⟩ := ih fun t ht => hts t (List.mem_cons_of_mem _ ht)
      refine ⟨t' :: w, .cons k1 k4, .cons (shiftSyms_members k2 k3).1 k5, ?_⟩
      rw [List.mem_cons, not_or]
      refine ⟨fun e => (hts t List.mem_cons_self).1 (ReadAs.zero u hfb k1 e.symm), k6⟩
  obtain ⟨w, k1, k2, k3⟩ := hw
  have hy := h3.yields
  simp only [List.nil_append, List.map_map, Function.comp_def, List.map_id'] at hy
  have hy := yields_members u.wf hy w k2
  obtain ⟨s, hpath⟩ := Conf.path u h h2
  obtain ⟨x, hx⟩ := path_viable u h hprod hstart hpath hy k3
  exact ⟨w, x, k1, hx⟩

/-- C66, second half.  Let there be at most one action for each token in each state, and a stack
that grows as needed.  If a syntax error is reported while the parser is given the tokens `ts` (the
end of input, 0, may be the last of them), no sentence begins with `ts`; here a sentence is taken
with the end of input behind it.

Missing: as in `C40_accepts_partial`. -/
theorem C66_error_partial (u : Usable g) (hfb : FallbackOK g fb) (herr : ∀ r ∈ g.rules, g.errsym ≠ some r.lhs)
    (hlen : ∀ r ∈ g.rules, r.rhs.length ≤ 128) (h : Generated g fb compress m F A cs T)
    (hcok : compress = true → (∀ t, fb t = none) ∧ g.wildcard = none ∧ T.shiftOfst.length = T.nx) (hn : NoConflicts g m F)
    (c : PConf) (hc : c.track = false ∨ c.ndebug = true) (hd : c.depth = none) (fuel : Nat) (ts : List Nat) (p : PState) (evs : List Ev)
    (hp : parseTokens T c fuel ts .init = some (p, evs)) (he : ∃ t, .syntaxError t ∈ evs) (w : List Nat) (hw : g.cfg.Sentence g.start w) :
    ¬ ts <+: w ++ [0] := by
  rintro ⟨rest, e⟩
  obtain ⟨N, hN⟩ := C40_accepts_partial u hfb herr hlen h hcok hn w hw
  obtain ⟨q, es, h1, h2, -⟩ := hN c (max N fuel) hc (by rw [hd]; intro d h; cases h) (Nat.le_max_left _ _)
  rw [← e, parseTokens_append, parseTokens_fuel (Nat.le_max_right N fuel) ts .init _ hp, Option.bind_some] at h1
  obtain ⟨y, h3, h4⟩ := Option.map_eq_some_iff.mp h1
  simp only [Prod.mk.injEq] at h4
  obtain ⟨t, ht⟩ := he
  have hm : .syntaxError t ∈ es ++ [.accept] := by rw [← h4.2]; exact List.mem_append_left _ ht
  rcases List.mem_append.mp hm with hm | hm
  · rcases h2 _ hm with ⟨_, h⟩ | ⟨_, h⟩ <;> cases h
  · simp at hm

/-- Both halves together, for grammars without fallbacks and wildcard: after any tokens, given to
the parser in a run that has come to an end, an error has been reported if and only if the tokens
do not begin a sentence.  For what is missing see `C40_accepts_partial`. -/
theorem C66_exact_partial (u : Usable g) (herr : ∀ r ∈ g.rules, g.errsym ≠ some r.lhs) (hlen : ∀ r ∈ g.rules, r.rhs.length ≤ 128)
    (hprod : ∀ r ∈ g.rules, ∀ X ∈ r.rhs, ∃ w, g.cfg.Sentence X w) (hstart : ∃ w, g.cfg.Sentence g.start w)
    (h : Generated g (fun _ => none) compress m F A cs T) (hw : g.wildcard = none) (hrow : compress = true → T.shiftOfst.length = T.nx)
    (hn : NoConflicts g m F) (c : PConf) (hc : c.track = false ∨ c.ndebug = true) (hd : c.depth = none) (fuel : Nat) (ts : List Nat)
    (hts : ∀ t ∈ ts, t ≠ 0 ∧ t < g.nterm) (p : PState) (evs : List Ev) (hp : parseTokens T c fuel ts .init = some (p, evs))
    (ho : .overflow ∉ evs) :
    (∃ t, .syntaxError t ∈ evs) ↔ ¬ ∃ x, g.cfg.Sentence g.start (ts ++ x) := by
  have hfb : FallbackOK g (fun _ => none) := by intro t t' h; cases h
  constructor
  · rintro he ⟨x, hx⟩
    refine C66_error_partial u hfb herr hlen h (fun hc => ⟨fun _ => rfl, hw, hrow hc⟩) hn c hc hd fuel ts p evs hp he _ hx ⟨x ++ [0], by simp⟩
  · intro hx
    by_contra he
    obtain ⟨w, x, k1, k2⟩ := C66_prefix_partial u hfb (fun r hr => Nat.lt_of_le_of_lt (hlen r hr) (by decide)) hprod hstart ⟨m, F, A, cs, h⟩ c fuel ts
      hts p evs hp (fun t ht => he ⟨t, ht⟩) ho
    have : ts = w := by
      clear hp hts k2 hx
      induction k1 with
      | nil => rfl
      | cons h1 _ ih =>
        rw [ih]
        cases h1 with
        | self => rfl
        | fallback h => cases h
        | wildcard h => rw [hw] at h; cases h
    subst this
    exact hx ⟨x, k2⟩

/-- C66 does not hold in general: with compressed tables and fallbacks, or a wildcard, a grammar
without conflicts may have a sentence at the end of which a syntax error is reported. -/
theorem C66_violated :
    (Usable exFbHide ∧ conflicts exFbHide 20 = some 0 ∧ ∃ T, Generates exFbHide exFbHideFb true T ∧ exFbHide.cfg.Sentence exFbHide.start [1, 3] ∧
      ∀ c : PConf, c.depth = none → c.track = false → ∃ q evs, parseTokens T c 20 ([1, 3] ++ [0]) .init = some (q, evs) ∧ .syntaxError 0 ∈ evs) ∧
    (Usable exWild ∧ conflicts exWild 20 = some 0 ∧ ∃ T, Generates exWild (fun _ => none) true T ∧ exWild.cfg.Sentence exWild.start [2, 1] ∧
      ∀ c : PConf, c.depth = none → c.track = false → ∃ q evs, parseTokens T c 20 ([2, 1] ++ [0]) .init = some (q, evs) ∧ .syntaxError 0 ∈ evs) := by
  obtain ⟨⟨a1, _, a3, a4, T, _, a5, _, a6⟩, b1, b3, b4, T', _, b5, _, b6⟩ := C40_violated
  refine ⟨⟨a1, a4, T, a5, a3, fun c h1 h2 => ?_⟩, b1, b4, T', b5, b3, fun c h1 h2 => ?_⟩
  · obtain ⟨⟨q, evs, k1, k2, _⟩, _⟩ := a6 c h1 h2
    exact ⟨q, evs, k1, k2⟩
  · obtain ⟨⟨q, evs, k1, k2, _⟩, _⟩ := b6 c h1 h2
    exact ⟨q, evs, k1, k2⟩

/-- The hypotheses of `C66_exact_partial` for the grammar `exMix` of C39 (the others are shown in C40):
`ID PLUS ID PLUS` begins a sentence, and nothing is reported; after `ID PLUS PLUS` an error is
reported. -/
example : (∀ r ∈ exMix.rules, ∀ X ∈ r.rhs, ∃ w, exMix.cfg.Sentence X w) ∧ (∃ w, exMix.cfg.Sentence exMix.start w) ∧
    (makeTables true exMix (fun _ => none) 20).bind (fun T => (parseTokens T ⟨none, false, false, false⟩ 20 [3, 1, 3, 1] .init).map Prod.snd) =
      some [.shift 3, .reduce 2, .shift 1, .shift 3, .reduce 2, .reduce 1, .shift 1] ∧
    (makeTables true exMix (fun _ => none) 20).bind (fun T => (parseTokens T ⟨none, false, false, false⟩ 20 [3, 1, 1] .init).map Prod.snd) =
      some [.shift 3, .reduce 2, .shift 1, .syntaxError 1, .discard 1] := by
  have h3 : exMix.cfg.Sentence 3 [3] := ⟨by decide, .refl⟩
  have h8 : exMix.cfg.Sentence 8 [3] := ⟨by decide, .single (.mk [] [] (A := 8) (α := [3]) (by decide))⟩
  have h7 : exMix.cfg.Sentence 7 [3] := ⟨by decide, .tail (.single (.mk [] [] (A := 7) (α := [8]) (by decide))) (.mk [] [] (A := 8) (α := [3]) (by decide))⟩
  have h5 : exMix.cfg.Sentence 5 [1] := ⟨by decide, .single (.mk [] [] (A := 5) (α := [1]) (by decide))⟩
  have h6 : exMix.cfg.Sentence 6 [3] := ⟨by decide, .tail (.tail (.single (.mk [] [] (A := 6) (α := [7]) (by decide)))
    (.mk [] [] (A := 7) (α := [8]) (by decide))) (.mk [] [] (A := 8) (α := [3]) (by decide))⟩
  refine ⟨?_, ⟨_, h6⟩, by decide +kernel, by decide +kernel⟩
  intro r hr X hX
  have : X = 3 ∨ X = 5 ∨ X = 7 ∨ X = 8 := by
    have : ∀ r ∈ exMix.rules, ∀ X ∈ r.rhs, X = 3 ∨ X = 5 ∨ X = 7 ∨ X = 8 := by decide
    exact this r hr X hX
  rcases this with rfl | rfl | rfl | rfl
  exacts [⟨_, h3⟩, ⟨_, h5⟩, ⟨_, h7⟩, ⟨_, h8⟩]

end Verif.Lemon
