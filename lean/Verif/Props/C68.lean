import Verif.Props.C67
import Verif.Proofs.LemonTypes
/-
C68: what becomes of tokens and symbols in a parser made by lemon.
-/
set_option autoImplicit false
namespace Verif.Lemon
open Verif.Spec

/-- C68, tokens, as far as it holds.  The tables may be any; the token given to the parser, which may be
in any state, is not the error symbol.  If the stack does not overflow in this call, then exactly one of
these happens, once, and for no other token: the token is put on the stack, it is destroyed, the
parser accepts.  And the error symbol is put on the stack at most once. -/
theorem C68_tokens_partial (T : Tables) (c : PConf) (fuel : Nat) (p q : PState) (t : Nat) (ht : T.errsym ≠ some t) (evs : List Ev)
    (h : parseToken T c fuel p t = some (q, evs)) (ho : .overflow ∉ evs) :
    (∃ e, (e = .shift t ∨ e = .discard t ∨ e = .accept) ∧ evs.filter (Ev.consumes T.errsym) = [e]) ∧
    (∀ E, T.errsym = some E → evs.count (.shift E) ≤ 1) := by
  obtain ⟨h1, h2⟩ := loop_consumes ht fuel false p q evs h ho
  exact ⟨h1, fun E hE => by simpa using h2 E hE⟩

/-- C68, symbols.  The tables have been made from a grammar whose rules have at most 128 symbols on
their right-hand sides.  Whatever tokens the parser is given, each symbol put on the stack is used by
the rule that is reduced next with it, or destroyed, or it is the start symbol when the parser
accepts, or it is still on the stack; and only one of these. -/
theorem C68_symbols (g : Gram) (u : Usable g) (hrhs : ∀ r ∈ g.rules, r.rhs.length ≤ 128) (fb : Nat → Option Nat) (compress : Bool) (T : Tables)
    (h : Generates g fb compress T) (c : PConf) (fuel : Nat) (ts : List Nat) (p : PState) (evs : List Ev)
    (hp : parseTokens T c fuel ts .init = some (p, evs)) :
    T.ruleLhs = g.ruleList.map (fun r => g.index r.lhs) ∧ T.ruleNRhs = g.ruleList.map (fun r => r.rhs.length) ∧ Uses T [] evs p.symbols := by
  obtain ⟨m, F, A, cs, h⟩ := h
  have hR := h.reported u
  refine ⟨hR.ruleLhs, hR.ruleNRhs, ?_⟩
  have hT : RuleLens T := by
    refine ⟨by rw [hR.ruleLhs, hR.ruleNRhs, List.length_map, List.length_map], ?_⟩
    rw [hR.ruleNRhs]
    intro n hn
    obtain ⟨r, hr, rfl⟩ := List.mem_map.mp hn
    refine hrhs r ?_
    exact (mem_ruleList u.rules_lt r).mp hr
  exact (uses_tokens hT ts .init p evs hp (by simp [PState.init])).1

theorem Uses.nil {T : Tables} {s s' : List Nat} (h : Uses T s [] s') : s' = s := by
  generalize hl : ([] : List Ev) = l at h
  cases h with
  | done => rfl
  | _ => cases hl

/-- When the parser has accepted or failed or its stack has overflowed, no symbols are left. -/
theorem C68_symbols_end {T : Tables} {s s' : List Nat} {evs : List Ev} {e : Ev} (h : Uses T s (evs ++ [e]) s')
    (he : e = .accept ∨ e = .failed ∨ e = .overflow) : s' = [] := by
  generalize hl : evs ++ [e] = l at h
  induction h generalizing evs with
  | done => simp at hl
  | _ =>
    rename_i h ih
    cases evs with
    | nil =>
      simp only [List.nil_append, List.cons.injEq] at hl
      obtain ⟨rfl, rfl⟩ := hl
      first
        | (rcases he with he | he | he <;> cases he; done)
        | exact h.nil
    | cons x evs =>
      simp only [List.cons_append, List.cons.injEq] at hl
      exact ih hl.2

/-- C68, tokens, does not hold in full: a token met when the stack is full is neither put on the stack nor
destroyed.  Here there is room for one symbol, and `PLUS` (1) is lost. -/
theorem C68_tokens_violated : Usable exExpr ∧ ∃ T, Generates exExpr (fun _ => none) true T ∧
    ∀ c : PConf, c.depth = some 2 → c.track = false →
      ∃ p q, parseTokens T c 20 [3] .init = some (p, [.shift 3]) ∧ parseToken T c 20 p 1 = some (q, [.reduce 3, .pop 5, .overflow]) := by
  have u : Usable exExpr := usable_of (by decide +kernel)
  refine ⟨u, ?_⟩
  have hm : (makeTables true exExpr (fun _ => none) 20).isSome = true := by decide +kernel
  obtain ⟨T, hT⟩ := Option.isSome_iff_exists.mp hm
  refine ⟨T, generates_of u hT, ?_⟩
  rintro ⟨d, nr, tr, nd⟩ h1 h2
  simp only at h1 h2
  subst h1 h2
  have k : ∀ nr nd : Bool, (makeTables true exExpr (fun _ => none) 20).bind (fun T =>
      (parseTokens T ⟨some 2, nr, false, nd⟩ 20 [3] .init).bind fun x => (parseToken T ⟨some 2, nr, false, nd⟩ 20 x.1 1).map fun y => (x.2, y.2)) =
      some ([.shift 3], [.reduce 3, .pop 5, .overflow]) := by
    decide +kernel
  have k := k nr nd
  rw [hT, Option.bind_some] at k
  obtain ⟨⟨p, e⟩, k1, k2⟩ := Option.bind_eq_some_iff.mp k
  obtain ⟨⟨q, e'⟩, k3, k4⟩ := Option.map_eq_some_iff.mp k2
  simp only [Prod.mk.injEq] at k4
  obtain ⟨rfl, rfl⟩ := k4
  exact ⟨p, q, k1, k3⟩

/-- The hypotheses of `C68_symbols` are met by the grammar with an error symbol, and symbols are used, destroyed
and left. -/
example : Usable exErr ∧ (∀ r ∈ exErr.rules, r.rhs.length ≤ 128) ∧ (∃ T, Generates exErr (fun _ => none) true T) ∧
    (makeTables true exErr (fun _ => none) 20).bind (fun T => (parseTokens T ⟨none, false, false, false⟩ 20 [1, 3, 2, 3, 2, 2] .init).map fun x =>
      (x.2, x.1.symbols)) =
      some ([.shift 1, .syntaxError 3, .shift 5, .discard 3, .shift 2, .pop 2, .pop 5, .shift 5, .discard 3, .shift 2, .shift 2], [2, 2, 5, 1]) := by
  refine ⟨usable_of (by decide +kernel), by decide, ?_, by decide +kernel⟩
  have hm : (makeTables true exErr (fun _ => none) 20).isSome = true := by decide +kernel
  obtain ⟨T, hT⟩ := Option.isSome_iff_exists.mp hm
  exact ⟨T, generates_of (usable_of (by decide +kernel)) hT⟩

end Verif.Lemon
