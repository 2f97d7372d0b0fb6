import Verif.Proofs.SoundCtx
import Verif.Proofs.GenDriver
import Verif.Props.C17
/-
C81 — actions that look at the stack (byacc/yaccpar.skel, btyaccpar.skel).
-/
set_option autoImplicit false
namespace Verif.Byacc
open Spec

/-- C81: the parser generated from any grammar, with actions that compute values from whatever is on the stack: symbols before the rule (`$0`,
`$-1`, ...) and actions within a rule do just that.  If it accepts without having reported a syntax error, the tokens of the input are a sentence, and the
value on the stack is the one computed from left to right along the parse tree, each action seeing the values of its right-hand side and those of the
trees to the left of it.  (`ValueActs` excludes `YYERROR`, `YYACCEPT` and `YYABORT`.) -/
theorem C81_left_to_right (lp : Bool) (ntokens nsyms : Nat) (rs : List SrcRule)
    (h : UserRules ntokens nsyms (rs.map SrcRule.rule)) (h2 : 2 ≤ ntokens) (g : Gram)
    (hg : g = packGrammar lp ntokens nsyms (rs.map SrcRule.p) (encPitem rs))
    (sp : SymPrec) (lemon : Bool) (srExpect rrExpect : Int) (sv : List Int) (hsv : SymVals ntokens nsyms sv)
    (per : Nat) (hper : per = 2 ∨ per = 3) :
    ∃ o, generate g sp lemon srExpect rrExpect = some o ∧ ∀ t, outputTables per g sv o = .ok t →
      ∀ (V : Type) (P : Driver V) (f : Nat → V → List V → V), P.t = t → ValueActs P f → 2 ≤ P.init →
      ∀ (size : Nat) (u : V) (input : List (Int × V)) (n : Nat) (c : Cfg V), (size = 0 ∨ 2 ≤ size) →
        P.run n (P.start size u input) = .done .accept c → Ev.report ∉ c.log →
        let G := augCFG ntokens (rs.map SrcRule.rule)
        ∃ (ps : List Nat) (w : List (Nat × V)) (q : Nat) (v : V),
          tokensOf input = w.map (fun p => (sv.getD p.1 0, p.2)) ∧
          G.Sentence (ntokens + 1) (w.map Prod.fst) ∧
          reductions c.log = ps.reverse ∧
          shifts c.log = (w.map fun p => sv.getD p.1 0).reverse ∧
          G.Rightmost ps.reverse [ntokens + 1] (w.map Prod.fst) ∧
          c.stack = [(q, v), (0, u)] ∧
          BuildsIn G P.zero f [u] ps [ntokens + 1] w [v] := by
  obtain ⟨o, ho, K⟩ := generate_ok lp ntokens nsyms rs h g hg sp lemon srExpect rrExpect
  have hnt : g.ntokens = ntokens := K.ctx.packs.ntok
  have hns : g.nsyms = nsyms := by rw [hg]; rfl
  refine ⟨o, ho, ?_⟩
  intro t ht V P f hPt hact hinit size u input n c hsz hrun hrep G
  have hsv' : SymVals g.ntokens g.nsyms sv := by rw [hnt, hns]; exact hsv
  have TO := outputTables_ok K (by omega) hsv' ht
  have T := tabSound K hsv' (by omega) TO
  rw [← hPt] at T
  let Inv : Cfg V → Prop := fun c => Base (ShiftsTo o.aut) (max (P.start size u input).size P.max) c ∧
    (.report ∈ c.log ∨ GoodIn G (ShiftsTo o.aut) (fun X => sv.getD X 0) P.zero f u input c)
  have hs2 : 2 ≤ (P.start size u input).size := by
    simp only [Driver.start]; split <;> omega
  have hstart : Inv (P.start size u input) := by
    refine ⟨start_base P size u input _ hs2 (Nat.le_max_left _ _), .inr ⟨rfl, rfl, [], [], [], [], .nil, rfl, .nil _, rfl, rfl, rfl⟩⟩
  have hstep : ∀ c c', Inv c → P.step c = .next c' → Inv c' := by
    rintro c c' ⟨B, H⟩ hs
    have hb := T.step_base B (Nat.le_max_right _ _)
    rw [hs] at hb
    refine ⟨hb, ?_⟩
    rcases H with H | H
    · have := step_log (P := P) c
      rw [hs] at this
      exact .inl (this.subset H)
    · have := T.step_goodIn B hact rfl H
      rw [hs] at this
      exact this
  obtain ⟨c0, ⟨B, H⟩, hs⟩ := (run_inv Inv hstep n _ hstart).2 _ _ hrun
  rcases H with H | H
  · have := step_log (P := P) c0
    rw [hs] at this
    exact absurd (this.subset H) hrep
  · have := T.step_goodIn B hact rfl H
    rw [hs] at this
    obtain ⟨ps, w, q, v, hb, h1, h2, h3, h4⟩ := this
    have hG : G.ntok = ntokens := rfl
    rw [hG] at hb
    have hb' := hb.builds
    have hr := hb'.rightmost
    rw [List.map_map] at hr
    refine ⟨ps, w, q, v, h4, ⟨?_, Rightmost.derives hr⟩, h2, h3, hr, h1, hb⟩
    intro x hx
    obtain ⟨p, hp, rfl⟩ := List.mem_map.1 hx
    exact hb'.toks (p.1, ()) (List.mem_map.2 ⟨p, hp, rfl⟩)

/-- A driver whose action for numbers looks two places below: in `a + b` at `a` when `b` is reduced. -/
def c81P (t : Tables) : Driver Int where
  t := t
  act := fun r d st => .val (match r with
    | 1 => st.getD 2 0 + st.getD 0 0
    | 2 => st.getD 2 0 * st.getD 0 0
    | _ => d + 10 * st.getD 2 0)
  zero := 0
  init := 200
  max := 10000

/-- the hypothesis on actions holds -/
example (t : Tables) : ValueActs (c81P t) (fun r d st => match r with
    | 1 => st.getD 2 0 + st.getD 0 0
    | 2 => st.getD 2 0 * st.getD 0 0
    | _ => d + 10 * st.getD 2 0) := fun _ _ _ => rfl

/-- `2 + 3 * 4`: the values of the numbers are 2, `3 + 10 * 2` and `4 + 10 * 23` -/
example : (c15T.bind fun t => (outcome (c81P t) 20 0 [(257, 2), (43, 0), (257, 3), (42, 0), (257, 4)]).map fun x => (x.1, x.2.1)) =
    some (.accept, [2 + 23 * 234, 0]) := by decide +kernel

end Verif.Byacc
