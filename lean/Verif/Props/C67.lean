import Verif.Proofs.LemonErr
import Verif.Props.C39
/-
C67: which errors a parser made by lemon reports.  C68: what becomes of tokens and symbols.
-/
set_option autoImplicit false
namespace Verif.Lemon
open Verif.Spec

/-! ### C67 -/

/-- C67 for parsers without an error symbol (and with error recovery).  The parser, whose tables may
be any, has been given the tokens `ts`, maybe those of several inputs, and is given one more.  Its
stack has not overflowed.  An error is met in the last call, that is, the token is thrown away, if and
only if one of two things holds: it is reported, or since an earlier error neither three tokens have been
shifted nor the parser has accepted or failed.  Nothing else is reported, and nothing twice. -/
theorem C67_partial (T : Tables) (hE : T.errsym = none) (c : PConf) (hc : c.noRecovery = false) (fuel : Nat) (ts : List Nat)
    (p q : PState) (evs evs' : List Ev) (t : Nat) (hp : parseTokens T c fuel ts .init = some (p, evs)) (ho : .overflow ∉ evs)
    (hq : parseToken T c fuel p t = some (q, evs')) (ho' : .overflow ∉ evs') :
    (∀ s, .syntaxError s ∈ evs' ↔ s = t ∧ .discard t ∈ evs' ∧ Calm none (fun e => e = .accept ∨ e = .failed) 3 evs) ∧
    evs'.count (.syntaxError t) ≤ 1 := by
  have ht : ∀ t, T.errsym ≠ some t := by simp [hE]
  have h1 := tokens_cnt (.inl hc) ts .init p evs (fun t _ => ht t) hp ho
  obtain ⟨h2, h3⟩ := loop_report (ht t) fuel false p q evs' hq ho'
  refine ⟨fun s => ?_, h3⟩
  rw [h2 s]
  have h4 : Allows T c p.errcnt ↔ Calm none (fun e => e = .accept ∨ e = .failed) 3 evs := by
    have h5 := (cnt_calm (E := none) evs).2 3 (by decide)
    have h6 : Calm none (Ends none) 3 evs ↔ Calm none (fun e => e = .accept ∨ e = .failed) 3 evs := by
      simp only [Calm, Ends, true_and]
    rw [← h6, h5, h1, hE]
    simp only [Allows, hE, if_true, hc, Bool.false_eq_true, false_or]
    simp [PState.init]
  have h7 : (∃ e ∈ evs', e.disturbs T.errsym = true) ↔ .discard t ∈ evs' := by
    obtain ⟨⟨e, he, hf⟩, _⟩ := loop_consumes (ht t) fuel false p q evs' hq ho'
    constructor
    · rintro ⟨x, hx, hd⟩
      have hm : x ∈ evs'.filter (Ev.consumes T.errsym) := by
        refine List.mem_filter.mpr ⟨hx, ?_⟩
        cases x <;> simp_all [Ev.disturbs, Ev.consumes]
      have hxe : x = e := by rw [hf] at hm; simpa using hm
      subst hxe
      rcases he with rfl | rfl | rfl
      · simp [Ev.disturbs, hE] at hd
      · exact hx
      · simp [Ev.disturbs] at hd
    · intro h
      exact ⟨_, h, rfl⟩
  rw [h4, h7]

/-- C67 for parsers with an error symbol `E`.  An error shows in the last call when the token is thrown
away or `E` is put on the stack.  It is reported if and only if since each earlier error at least *four*
tokens have been shifted, or the parser has accepted.  That the parser has failed in between does
not matter.  (Both differ from the claim, see `C67_violated`.) -/
theorem C67_errsym_partial (T : Tables) (E : Nat) (hE : T.errsym = some E) (c : PConf) (fuel : Nat) (ts : List Nat) (hts : E ∉ ts)
    (p q : PState) (evs evs' : List Ev) (t : Nat) (ht : t ≠ E) (hp : parseTokens T c fuel ts .init = some (p, evs)) (ho : .overflow ∉ evs)
    (hq : parseToken T c fuel p t = some (q, evs')) (ho' : .overflow ∉ evs') :
    (∀ s, .syntaxError s ∈ evs' ↔ s = t ∧ (.discard t ∈ evs' ∨ .shift E ∈ evs') ∧ Calm (some E) (fun e => e = .accept) 4 evs) ∧
    evs'.count (.syntaxError t) ≤ 1 := by
  have ht' : T.errsym ≠ some t := by rw [hE]; simpa using Ne.symm ht
  have h1 := tokens_cnt (.inr (by simp [hE])) ts .init p evs (fun t h e => hts (by rw [hE] at e; cases e; exact h)) hp ho
  obtain ⟨h2, h3⟩ := loop_report ht' fuel false p q evs' hq ho'
  refine ⟨fun s => ?_, h3⟩
  rw [h2 s]
  have h4 : Allows T c p.errcnt ↔ Calm (some E) (fun e => e = .accept) 4 evs := by
    have h5 := (cnt_calm (E := some E) evs).2 4 (by decide)
    have h6 : Calm (some E) (Ends (some E)) 4 evs ↔ Calm (some E) (fun e => e = .accept) 4 evs := by
      simp [Calm, Ends]
    rw [← h6, h5, h1, hE]
    simp only [Allows, hE, reduceCtorEq, if_false]
    simp only [PState.init]
    omega
  have h7 : (∃ e ∈ evs', e.disturbs T.errsym = true) ↔ .discard t ∈ evs' ∨ .shift E ∈ evs' := by
    obtain ⟨⟨e, he, hf⟩, _⟩ := loop_consumes ht' fuel false p q evs' hq ho'
    constructor
    · rintro ⟨x, hx, hd⟩
      cases x with
      | discard s =>
        have hm : .discard s ∈ evs'.filter (Ev.consumes T.errsym) := List.mem_filter.mpr ⟨hx, rfl⟩
        rw [hf, List.mem_singleton] at hm
        subst hm
        simp only [reduceCtorEq, Ev.discard.injEq, false_or, or_false] at he
        subst he
        exact .inl hx
      | shift X =>
        simp only [Ev.disturbs, hE, beq_iff_eq, Option.some.injEq] at hd
        subst hd
        exact .inr hx
      | _ => simp [Ev.disturbs] at hd
    · rintro (h | h)
      · exact ⟨_, h, rfl⟩
      · exact ⟨_, h, by simp [Ev.disturbs, hE]⟩
  rw [h4, h7]

/-- `S ::= X error Y Y Y Y.`  `$ X Y Z` are 0…3, `S` is 4, `error` is 5. -/
def exErr : Gram where
  nterm := 4
  mts := []
  nsym := 6
  rules := [⟨4, [1, 5, 2, 2, 2, 2], none, true⟩]
  start := 4
  errsym := some 5
  wildcard := none
  prec := fun _ => -1
  assoc := fun _ => .UNK

/-- C67 does not hold for grammars with an error symbol.  In `X Z Y Y Y Z` there is an error at the first
`Z`, three tokens are shifted, and the error at the second `Z` is not reported.  And when the parser has
failed for the input `Z`, an error at the first token of the next input is not reported. -/
theorem C67_violated : Usable exErr ∧ ∃ T, Generates exErr (fun _ => none) true T ∧
    ∀ c : PConf, c.depth = none → c.track = false →
      (∃ p q, parseTokens T c 20 [1, 3, 2, 2, 2] .init = some (p, [.shift 1, .syntaxError 3, .shift 5, .discard 3, .shift 2, .shift 2, .shift 2]) ∧
        parseToken T c 20 p 3 = some (q, [.pop 2, .pop 2, .pop 2, .pop 5, .shift 5, .discard 3])) ∧
      (∃ p q, parseTokens T c 20 [3] .init = some (p, [.syntaxError 3, .discard 3, .failed]) ∧
        parseToken T c 20 p 3 = some (q, [.discard 3, .failed])) := by
  have u : Usable exErr := usable_of (by decide +kernel)
  refine ⟨u, ?_⟩
  have hm : (makeTables true exErr (fun _ => none) 20).isSome = true := by decide +kernel
  obtain ⟨T, hT⟩ := Option.isSome_iff_exists.mp hm
  refine ⟨T, generates_of u hT, ?_⟩
  rintro ⟨d, nr, tr, nd⟩ h1 h2
  simp only at h1 h2
  subst h1 h2
  have k : ∀ nr nd : Bool, (makeTables true exErr (fun _ => none) 20).bind (fun T =>
      (parseTokens T ⟨none, nr, false, nd⟩ 20 [1, 3, 2, 2, 2] .init).bind fun x => (parseToken T ⟨none, nr, false, nd⟩ 20 x.1 3).map fun y => (x.2, y.2)) =
      some ([.shift 1, .syntaxError 3, .shift 5, .discard 3, .shift 2, .shift 2, .shift 2], [.pop 2, .pop 2, .pop 2, .pop 5, .shift 5, .discard 3]) := by
    decide +kernel
  have k' : ∀ nr nd : Bool, (makeTables true exErr (fun _ => none) 20).bind (fun T =>
      (parseTokens T ⟨none, nr, false, nd⟩ 20 [3] .init).bind fun x => (parseToken T ⟨none, nr, false, nd⟩ 20 x.1 3).map fun y => (x.2, y.2)) =
      some ([.syntaxError 3, .discard 3, .failed], [.discard 3, .failed]) := by
    decide +kernel
  have k := k nr nd
  have k' := k' nr nd
  rw [hT, Option.bind_some] at k k'
  obtain ⟨⟨p, e⟩, k1, k2⟩ := Option.bind_eq_some_iff.mp k
  obtain ⟨⟨q, e'⟩, k3, k4⟩ := Option.map_eq_some_iff.mp k2
  obtain ⟨⟨p', f⟩, j1, j2⟩ := Option.bind_eq_some_iff.mp k'
  obtain ⟨⟨q', f'⟩, j3, j4⟩ := Option.map_eq_some_iff.mp j2
  simp only [Prod.mk.injEq] at k4 j4
  obtain ⟨rfl, rfl⟩ := k4
  obtain ⟨rfl, rfl⟩ := j4
  exact ⟨⟨p, q, k1, k3⟩, p', q', j1, j3⟩

/-- `C67_partial` for the expression grammar.  After the error at the second `PLUS` of `ID PLUS PLUS` one
at once is not reported; one after three tokens is. -/
example : (makeTables true exExpr (fun _ => none) 20).bind (fun T => (parseTokens T ⟨none, false, false, false⟩ 20 [3, 1, 1, 1] .init).map Prod.snd) =
      some [.shift 3, .reduce 3, .shift 1, .syntaxError 1, .discard 1, .discard 1] ∧
    (makeTables true exExpr (fun _ => none) 20).bind (fun T => (parseTokens T ⟨none, false, false, false⟩ 20 [3, 1, 1, 3, 1, 3, 3] .init).map Prod.snd) =
      some [.shift 3, .reduce 3, .shift 1, .syntaxError 1, .discard 1, .shift 3, .reduce 3, .reduce 1, .shift 1, .shift 3, .reduce 3,
        .reduce 1, .syntaxError 3, .discard 3] := by
  decide +kernel

/-- `C67_errsym_partial` for this grammar: the error after four tokens is reported. -/
example : (makeTables true exErr (fun _ => none) 20).bind (fun T => (parseTokens T ⟨none, false, false, false⟩ 20 [1, 3, 2, 2, 2, 2, 3] .init).map Prod.snd) =
      some [.shift 1, .syntaxError 3, .shift 5, .discard 3, .shift 2, .shift 2, .shift 2, .shift 2, .syntaxError 3,
        .pop 2, .pop 2, .pop 2, .pop 2, .pop 5, .shift 5, .discard 3] := by
  decide +kernel

end Verif.Lemon
