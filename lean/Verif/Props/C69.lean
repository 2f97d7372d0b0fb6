import Verif.Proofs.LemonEnd
import Verif.Proofs.LemonPrefix
import Verif.Props.C67
/-
C69: the end of input ends a parse by a parser made by lemon.
-/
set_option autoImplicit false
namespace Verif.Lemon
open Verif.Spec

/-- C69 for grammars without an error symbol (and parsers with error recovery).  The tables have been made from
a grammar that does not mention the end of input in its rules.  The parser is given any tokens, maybe
those of several inputs and with errors, and then the end of input.  Then the last thing that happens
is that it accepts, fails, or that its stack overflows, and no symbols are left on the stack.  In the first
two cases the parser is as good as new: its state is the one at the start, up to the greatest depth of the
stack, which does not influence it (`C69_hwm`). -/
theorem C69_partial (g : Gram) (u : Usable g) (hE : g.errsym = none) (hlen : ∀ r ∈ g.rules, r.rhs.length < 256)
    (hz : ∀ r ∈ g.rules, 0 ∉ r.rhs) (hm : ∀ l ∈ g.mts, 0 ∉ l) (fb : Nat → Option Nat) (hfb : FallbackOK g fb) (compress : Bool) (T : Tables)
    (h : Generates g fb compress T) (c : PConf) (hc : c.noRecovery = false) (fuel : Nat) (ts : List Nat) (hts : ∀ t ∈ ts, t < g.nterm)
    (p : PState) (evs : List Ev) (hp : parseTokens T c fuel (ts ++ [0]) .init = some (p, evs)) :
    ∃ es e, evs = es ++ [e] ∧ (e = .accept ∨ e = .failed ∨ e = .overflow) ∧ p.stack = [(0, 0)] ∧
      (e ≠ .overflow → p = { PState.init with hwm := p.hwm }) := by
  obtain ⟨m, F, A, cs, h⟩ := h
  rw [parseTokens_append] at hp
  obtain ⟨⟨p1, e1⟩, h1, h2⟩ := Option.bind_eq_some_iff.mp hp
  obtain ⟨⟨q, e2⟩, h3, h4⟩ := Option.map_eq_some_iff.mp h2
  simp only [Prod.mk.injEq] at h4
  obtain ⟨rfl, rfl⟩ := h4
  obtain ⟨⟨γ, k1⟩, k2⟩ := tokens_any u h hfb hlen hE ts .init p1 [] e1 hts (.norm (.bottom 0)) h1
  simp only [parseTokens] at h3
  obtain ⟨⟨q1, e3⟩, h5, h6⟩ := Option.bind_eq_some_iff.mp h3
  simp only [Option.map_some, List.append_nil, Option.some.injEq, Prod.mk.injEq] at h6
  obtain ⟨rfl, rfl⟩ := h6
  obtain ⟨_, j2, j3⟩ := loop_any u h hfb hlen hE u.wf.nterm fuel false p1 q1 γ e3 (k1.mono (fun h => h.elim)) h5
  obtain ⟨i1, es, e, rfl, i2, i3⟩ := j3 rfl hc hz hm
  have hs : q1.stack = [(0, 0)] := by
    have := j2.trans k2
    obtain ⟨a, ha⟩ := List.length_eq_one_iff.mp i1
    rw [ha] at this ⊢
    simpa [PState.init] using this
  refine ⟨e1 ++ es, e, by rw [List.append_assoc], i2, hs, fun hn => ?_⟩
  have := i3 hn
  obtain ⟨st, n, w⟩ := q1
  simp only at hs this
  subst hs this
  rfl

/-! the greatest depth of the stack -/

theorem hwm_track {c : PConf} (hc : c.track = false ∨ c.ndebug = true) (idx n : Nat) {p q : PState} (h : track c idx p = some q) :
    ∃ n', track c idx { p with hwm := n } = some { q with hwm := n' } := by
  obtain ⟨h1, h2, _⟩ := track_spec h
  obtain ⟨st, e, w⟩ := p
  obtain ⟨st', e', w'⟩ := q
  simp only at h1 h2
  subst h1 h2
  unfold track
  rcases hc with hc | hc
  · simp only [hc, Bool.false_and, Bool.false_eq_true, if_false]
    exact ⟨n, rfl⟩
  · simp only [hc, Bool.true_or, if_true]
    split_ifs
    · exact ⟨n + 1, rfl⟩
    · exact ⟨n, rfl⟩

theorem hwm_shift {T : Tables} {c : PConf} (hc : c.track = false ∨ c.ndebug = true) {s X : Nat} (n : Nat) {p q : PState} {evs : List Ev}
    (h : yyShift T c s X p = some (q, evs)) : ∃ n', yyShift T c s X { p with hwm := n } = some ({ q with hwm := n' }, evs) := by
  unfold yyShift at h ⊢
  simp only at h ⊢
  obtain ⟨p1, h1, h2⟩ := Option.map_eq_some_iff.mp h
  obtain ⟨n', h3⟩ := hwm_track hc p.stack.length n h1
  refine ⟨n', ?_⟩
  rw [h3, Option.map_some]
  split_ifs at h2 ⊢ <;> cases h2 <;> rfl

theorem hwm_reduce {T : Tables} {r : Nat} (n : Nat) {p q : PState} (h : yyReduce T r p = some q) :
    yyReduce T r { p with hwm := n } = some { q with hwm := n } := by
  unfold yyReduce at h ⊢
  split at h
  · cases h
  · rename_i A hA
    simp only at h ⊢
    split_ifs at h ⊢ with h1
    split at h
    · cases h
    · split at h
      · cases h
      · split_ifs at h ⊢
        cases h
        rfl

theorem hwm_onError {T : Tables} {c : PConf} (hc : c.track = false ∨ c.ndebug = true) {t : Nat} {eh b : Bool} (n : Nat) {p q : PState} {evs : List Ev}
    (h : onError T c t eh p = some (q, evs, b)) : ∃ n', onError T c t eh { p with hwm := n } = some ({ q with hwm := n' }, evs, b) := by
  unfold onError at h ⊢
  split at h
  · rename_i E hE
    simp only at h ⊢
    split at h
    · cases h
    · generalize (if p.errcnt < 0 then [Ev.syntaxError t] else []) = ev at h ⊢
      split_ifs at h ⊢ with h1
      · cases h
        exact ⟨n, rfl⟩
      · split at h
        · cases h
        · rename_i st act pops hp
          split_ifs at h ⊢ with h2
          · cases h
            exact ⟨n, rfl⟩
          · obtain ⟨⟨q1, e1⟩, h6, h7⟩ := Option.map_eq_some_iff.mp h
            obtain ⟨n', h8⟩ := hwm_shift hc n h6
            simp only [Prod.mk.injEq] at h7
            obtain ⟨rfl, rfl, rfl⟩ := h7
            refine ⟨n', ?_⟩
            rw [show (PState.mk st p.errcnt n) = { ({ p with stack := st } : PState) with hwm := n } from rfl, h8]
            rfl
  · split_ifs at h ⊢ <;> cases h <;> exact ⟨n, rfl⟩

/-- a round, with another greatest depth -/
def Round.hwm (n : Nat) : Round → Round
  | .next b p evs => .next b { p with hwm := n } evs
  | .stop p evs => .stop { p with hwm := n } evs

theorem hwm_round {T : Tables} {c : PConf} (hc : c.track = false ∨ c.ndebug = true) {t fuel : Nat} {eh : Bool} (n : Nat) {p : PState} {x : Round}
    (h : parseRound T c t fuel eh p = some x) : ∃ n', parseRound T c t fuel eh { p with hwm := n } = some (x.hwm n') := by
  unfold parseRound at h ⊢
  simp only
  split at h
  · cases h
  · split at h
    · cases h
    · simp only at h ⊢
      split_ifs at h ⊢ with h1 h2 h3 h4 h5 h6
      · obtain ⟨p1, k1, k2⟩ := Option.bind_eq_some_iff.mp h
        obtain ⟨n', k3⟩ := hwm_track hc (p.stack.length - 1) n k1
        rw [k3, Option.bind_some]
        split_ifs at k2 ⊢
        · cases k2
          exact ⟨n', rfl⟩
        · obtain ⟨q, k4, k5⟩ := Option.map_eq_some_iff.mp k2
          rw [hwm_reduce n' k4]
          subst k5
          exact ⟨n', rfl⟩
      · obtain ⟨q, k4, k5⟩ := Option.map_eq_some_iff.mp h
        rw [hwm_reduce n k4]
        subst k5
        exact ⟨n, rfl⟩
      · obtain ⟨⟨q, evs⟩, k4, k5⟩ := Option.map_eq_some_iff.mp h
        obtain ⟨n', k6⟩ := hwm_shift hc n k4
        rw [k6]
        subst k5
        exact ⟨n', rfl⟩
      · split at h
        · cases h
          exact ⟨n, rfl⟩
        · cases h
      · obtain ⟨⟨q, evs, b⟩, k4, k5⟩ := Option.map_eq_some_iff.mp h
        obtain ⟨n', k6⟩ := hwm_onError hc n k4
        rw [k6]
        subst k5
        refine ⟨n', ?_⟩
        cases b <;> rfl

theorem hwm_loop {T : Tables} {c : PConf} (hc : c.track = false ∨ c.ndebug = true) {t : Nat} : ∀ (fuel : Nat) (eh : Bool) (n : Nat) (p q : PState) (evs : List Ev),
    parseLoop T c t fuel eh p = some (q, evs) → ∃ n', parseLoop T c t fuel eh { p with hwm := n } = some ({ q with hwm := n' }, evs) := by
  intro fuel
  induction fuel with
  | zero => intro eh n p q evs h; cases h
  | succ fuel ih =>
    intro eh n p q evs h
    rw [parseLoop] at h ⊢
    cases hx : parseRound T c t (fuel + 1) eh p with
    | none => rw [hx] at h; cases h
    | some x =>
      obtain ⟨n', hx'⟩ := hwm_round hc n hx
      rw [hx'] 
      rw [hx] at h
      cases x with
      | stop p1 e1 =>
        cases h
        exact ⟨n', rfl⟩
      | next eh1 p1 e1 =>
        simp only [Round.hwm] at h ⊢
        obtain ⟨⟨q', e2⟩, h1, h2⟩ := Option.map_eq_some_iff.mp h
        cases h2
        obtain ⟨n2, h3⟩ := ih eh1 n' p1 q' e2 h1
        rw [h3]
        exact ⟨n2, rfl⟩

/-- The greatest depth reached, kept if `YYTRACKMAXSTACKDEPTH` is defined, does not influence the parser (but for
an assertion, see C42): from states that differ in it the same events come about, and states that differ
in nothing else. -/
theorem C69_hwm (T : Tables) (c : PConf) (hc : c.track = false ∨ c.ndebug = true) (fuel : Nat) (ts : List Nat) (p q : PState) (evs : List Ev) (n : Nat)
    (h : parseTokens T c fuel ts p = some (q, evs)) : ∃ n', parseTokens T c fuel ts { p with hwm := n } = some ({ q with hwm := n' }, evs) := by
  induction ts generalizing p evs n with
  | nil =>
    cases h
    exact ⟨n, rfl⟩
  | cons t ts ih =>
    rw [parseTokens] at h ⊢
    obtain ⟨⟨p1, e1⟩, h1, h2⟩ := Option.bind_eq_some_iff.mp h
    obtain ⟨⟨q', e2⟩, h3, h4⟩ := Option.map_eq_some_iff.mp h2
    simp only [Prod.mk.injEq] at h4
    obtain ⟨rfl, rfl⟩ := h4
    obtain ⟨n1, h5⟩ := hwm_loop hc fuel false n p p1 e1 h1
    obtain ⟨n2, h6⟩ := ih p1 e2 n1 h3
    rw [parseToken, h5, Option.bind_some]
    simp only [h6]
    exact ⟨n2, rfl⟩

/-- `S ::= X error Y.`  `$ X Y Z` are 0…3, `S` is 4, `error` is 5. -/
def exErrEnd : Gram where
  nterm := 4
  mts := []
  nsym := 6
  rules := [⟨4, [1, 5, 2], none, true⟩]
  start := 4
  errsym := some 5
  wildcard := none
  prec := fun _ => -1
  assoc := fun _ => .UNK

/-- C69 does not hold for grammars with an error symbol.  For the input `X Z` the parser neither accepts nor
fails: the end of input is thrown away, and two symbols stay on the stack.  So the next input, the
sentence `X Y`, is not parsed from the start: `X` is thrown away and `Y` completes the old input. -/
theorem C69_violated : Usable exErrEnd ∧ (∀ r ∈ exErrEnd.rules, 0 ∉ r.rhs) ∧ ∃ T, Generates exErrEnd (fun _ => none) true T ∧
    ∀ c : PConf, c.depth = none → c.track = false →
      ∃ p q, parseTokens T c 20 [1, 3, 0] .init = some (p, [.shift 1, .syntaxError 3, .shift 5, .discard 3, .discard 0]) ∧
        p.symbols = [5, 1] ∧ parseTokens T c 20 [1, 2, 0] p = some (q, [.discard 1, .shift 2, .reduce 0, .accept]) := by
  have u : Usable exErrEnd := usable_of (by decide +kernel)
  refine ⟨u, by decide, ?_⟩
  have hm : (makeTables true exErrEnd (fun _ => none) 20).isSome = true := by decide +kernel
  obtain ⟨T, hT⟩ := Option.isSome_iff_exists.mp hm
  refine ⟨T, generates_of u hT, ?_⟩
  rintro ⟨d, nr, tr, nd⟩ h1 h2
  simp only at h1 h2
  subst h1 h2
  have k : ∀ nr nd : Bool, (makeTables true exErrEnd (fun _ => none) 20).bind (fun T =>
      (parseTokens T ⟨none, nr, false, nd⟩ 20 [1, 3, 0] .init).bind fun x => (parseTokens T ⟨none, nr, false, nd⟩ 20 [1, 2, 0] x.1).map fun y =>
        (x.2, x.1.symbols, y.2)) =
      some ([.shift 1, .syntaxError 3, .shift 5, .discard 3, .discard 0], [5, 1], [.discard 1, .shift 2, .reduce 0, .accept]) := by
    decide +kernel
  have k := k nr nd
  rw [hT, Option.bind_some] at k
  obtain ⟨⟨p, e⟩, k1, k2⟩ := Option.bind_eq_some_iff.mp k
  obtain ⟨⟨q, e'⟩, k3, k4⟩ := Option.map_eq_some_iff.mp k2
  simp only [Prod.mk.injEq] at k4
  obtain ⟨rfl, k5, rfl⟩ := k4
  exact ⟨p, q, k1, k5, k3⟩

/-- The hypotheses of `C69_partial` are met by the expression grammar; an input with errors, one given up, and one accepted. -/
example : Usable exExpr ∧ exExpr.errsym = none ∧ (∀ r ∈ exExpr.rules, r.rhs.length < 256) ∧ (∀ r ∈ exExpr.rules, 0 ∉ r.rhs) ∧
    (∀ l ∈ exExpr.mts, 0 ∉ l) ∧ (∃ T, Generates exExpr (fun _ => none) true T) ∧
    (makeTables true exExpr (fun _ => none) 20).bind (fun T => (parseTokens T ⟨none, false, false, false⟩ 20 [3, 1, 1, 3, 0, 3, 1, 0, 3, 0] .init).map
      fun x => (x.2, x.1)) =
      some ([.shift 3, .reduce 3, .shift 1, .syntaxError 1, .discard 1, .shift 3, .reduce 3, .reduce 1, .reduce 0, .accept,
        .shift 3, .reduce 3, .shift 1, .syntaxError 0, .discard 0, .pop 1, .pop 5, .failed, .shift 3, .reduce 3, .reduce 0, .accept], .init) := by
  refine ⟨usable_of (by decide +kernel), by decide, by decide, by decide, by decide, ?_, by decide +kernel⟩
  have hm : (makeTables true exExpr (fun _ => none) 20).isSome = true := by decide +kernel
  obtain ⟨T, hT⟩ := Option.isSome_iff_exists.mp hm
  exact ⟨T, generates_of (usable_of (by decide +kernel)) hT⟩

end Verif.Lemon
