import Verif.Proofs.GenDriver
import Verif.Props.C15
/-
C17 — the generated parser is sound (byacc/yaccpar.skel, btyaccpar.skel).
-/
set_option autoImplicit false
namespace Verif.Byacc
open Spec

/-- C17: the parser generated from any grammar (with or without conflicts): if it accepts without
having reported a syntax error, the tokens of the input (up to the end marker) are a sentence of
the grammar; the reductions performed are, reversed, a rightmost derivation of it; and the value
on the stack is that of the parse tree built by these reductions, where the action of a rule sees
the values of its right-hand side and the default value `$1` (or zero for an empty rule).
`tokensOf`, `reductions` and `shifts` read off the input and the log; `PureActs` excludes actions
with `YYERROR`, `YYACCEPT`, `YYABORT`, and actions looking below their own rule. -/
theorem C17_sound (lp : Bool) (ntokens nsyms : Nat) (rs : List SrcRule)
    (h : UserRules ntokens nsyms (rs.map SrcRule.rule)) (h2 : 2 ≤ ntokens) (g : Gram)
    (hg : g = packGrammar lp ntokens nsyms (rs.map SrcRule.p) (encPitem rs))
    (sp : SymPrec) (lemon : Bool) (srExpect rrExpect : Int) (sv : List Int) (hsv : SymVals ntokens nsyms sv)
    (per : Nat) (hper : per = 2 ∨ per = 3) :
    ∃ o, generate g sp lemon srExpect rrExpect = some o ∧ ∀ t, outputTables per g sv o = .ok t →
      ∀ (V : Type) (P : Driver V) (fa : Nat → V → List V → V), P.t = t → PureActs P fa → 2 ≤ P.init →
      ∀ (size : Nat) (u : V) (input : List (Int × V)) (n : Nat) (c : Cfg V), (size = 0 ∨ 2 ≤ size) →
        P.run n (P.start size u input) = .done .accept c → Ev.report ∉ c.log →
        let G := augCFG ntokens (rs.map SrcRule.rule)
        ∃ (ps : List Nat) (w : List (Nat × V)) (q : Nat) (v : V),
          tokensOf input = w.map (fun p => (sv.getD p.1 0, p.2)) ∧
          G.Sentence (ntokens + 1) (w.map Prod.fst) ∧
          reductions c.log = ps.reverse ∧
          shifts c.log = (w.map fun p => sv.getD p.1 0).reverse ∧
          G.Rightmost ps.reverse [ntokens + 1] (w.map Prod.fst) ∧
          c.stack = [(q, v), (0, u)] ∧
          Builds G (fun r vs => fa r (vs.headD P.zero) vs) ps [ntokens + 1] w [v] := by
  obtain ⟨o, ho, K⟩ := generate_ok lp ntokens nsyms rs h g hg sp lemon srExpect rrExpect
  have hnt : g.ntokens = ntokens := K.ctx.packs.ntok
  have hns : g.nsyms = nsyms := by rw [hg]; rfl
  refine ⟨o, ho, ?_⟩
  intro t ht V P fa hPt hact hinit size u input n c hsz hrun hrep G
  have hsv' : SymVals g.ntokens g.nsyms sv := by rw [hnt, hns]; exact hsv
  have TO := outputTables_ok K (by omega) hsv' ht
  have T := tabSound K hsv' (by omega) TO
  rw [← hPt] at T
  let f : Nat → List V → V := fun r vs => fa r (vs.headD P.zero) vs
  let Inv : Cfg V → Prop := fun c => Base (ShiftsTo o.aut) (max (P.start size u input).size P.max) c ∧
    (.report ∈ c.log ∨ Good G (ShiftsTo o.aut) (fun X => sv.getD X 0) f u input c)
  have hs2 : 2 ≤ (P.start size u input).size := by
    simp only [Driver.start]; split <;> omega
  have hstart : Inv (P.start size u input) := by
    refine ⟨start_base P size u input _ hs2 (Nat.le_max_left _ _), .inr ⟨rfl, rfl, [], [], [], [], .nil, rfl, .nil, rfl, rfl, rfl⟩⟩
  have hstep : ∀ c c', Inv c → P.step c = .next c' → Inv c' := by
    rintro c c' ⟨B, H⟩ hs
    have hb := T.step_base B (Nat.le_max_right _ _)
    rw [hs] at hb
    refine ⟨hb, ?_⟩
    rcases H with H | H
    · have := step_log (P := P) c
      rw [hs] at this
      exact .inl (this.subset H)
    · have := T.step_good B hact (f := f) rfl H
      rw [hs] at this
      exact this
  obtain ⟨c0, ⟨B, H⟩, hs⟩ := (run_inv Inv hstep n _ hstart).2 _ _ hrun
  rcases H with H | H
  · have := step_log (P := P) c0
    rw [hs] at this
    exact absurd (this.subset H) hrep
  · have := T.step_good B hact (f := f) rfl H
    rw [hs] at this
    obtain ⟨ps, w, q, v, hb, h1, h2, h3, h4⟩ := this
    have hG : G.ntok = ntokens := rfl
    rw [hG] at hb
    have hr := hb.rightmost
    refine ⟨ps, w, q, v, h4, ⟨?_, Rightmost.derives hr⟩, h2, h3, hr, h1, hb⟩
    intro x hx
    obtain ⟨p, hp, rfl⟩ := List.mem_map.1 hx
    exact hb.toks p hp

/-- The driver with given tables, the actions `$1 + $3`, `$1 * $3` and the default action, and the
stack sizes of the skeleton. -/
def calcP (t : Tables) : Driver Int where
  t := t
  act := fun r d st => .val (match r with
    | 1 => st.getD 2 0 + st.getD 0 0
    | 2 => st.getD 2 0 * st.getD 0 0
    | _ => d)
  zero := 0
  init := 200
  max := 10000

/-- Run for `n` steps: the outcome, the values on the stack, and the log. -/
def outcome {V : Type} (P : Driver V) (n : Nat) (u : V) (input : List (Int × V)) : Option (Halt × List V × List Ev) :=
  match P.run n (P.start 0 u input) with
  | .done h c => some (h, c.stack.map Prod.snd, c.log)
  | .next _ => none

/-- `2 + 3 * 4` is accepted with value 14. -/
example : (c15T.bind fun t => outcome (calcP t) 20 0 [(257, 2), (43, 0), (257, 3), (42, 0), (257, 4)]) =
    some (.accept, [14, 0], [.reduce 1, .reduce 2, .reduce 3, .shift 257, .shift 42, .reduce 3, .shift 257, .shift 43,
      .reduce 3, .shift 257]) := by decide +kernel

/-- `2 + * 3` is reported and rejected. -/
example : (c15T.bind fun t => outcome (calcP t) 20 0 [(257, 2), (43, 0), (42, 0), (257, 3)]) =
    some (.abort, [0], [.pop, .pop, .report, .shift 43, .reduce 3, .shift 257]) := by decide +kernel

end Verif.Byacc
