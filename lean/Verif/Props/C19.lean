import Verif.Props.C17
import Verif.Props.C11
/-
C19 — stack discipline of the generated parser (byacc/yaccpar.skel, btyaccpar.skel).
-/
set_option autoImplicit false
namespace Verif.Byacc
open Spec

/-- C19: in every parse of a generated parser, whatever its actions do and whatever the input:
the cells in use fit the allocation at every moment; the allocation never exceeds the larger of
its initial size and `YYMAXDEPTH`; no write is outside it, no read below it; the parser stops with
an overflow report only when all cells are in use and the allocation has reached `YYMAXDEPTH`.

Partial: the claim that the allocation never exceeds `YYMAXDEPTH` holds only if the initial size
(200) does not exceed it; see `C19_maximum_violated`. -/
theorem C19_stack_partial (lp : Bool) (ntokens nsyms : Nat) (rs : List SrcRule)
    (h : UserRules ntokens nsyms (rs.map SrcRule.rule)) (h2 : 2 ≤ ntokens) (g : Gram)
    (hg : g = packGrammar lp ntokens nsyms (rs.map SrcRule.p) (encPitem rs))
    (sp : SymPrec) (lemon : Bool) (srExpect rrExpect : Int) (sv : List Int) (hsv : SymVals ntokens nsyms sv)
    (per : Nat) (hper : per = 2 ∨ per = 3) :
    ∃ o, generate g sp lemon srExpect rrExpect = some o ∧ ∀ t, outputTables per g sv o = .ok t →
      ∀ (V : Type) (P : Driver V), P.t = t → 2 ≤ P.init →
      ∀ (size : Nat) (u : V) (input : List (Int × V)) (n : Nat), (size = 0 ∨ 2 ≤ size) →
        let start := if size = 0 then P.init else size
        (∀ c, P.run n (P.start size u input) = .next c →
          0 < c.stack.length ∧ c.stack.length ≤ c.size ∧ c.size ≤ max start P.max ∧ (start ≤ P.max → c.size ≤ P.max)) ∧
        (∀ halt c, P.run n (P.start size u input) = .done halt c →
          halt ≠ .underflow ∧ halt ≠ .badWrite ∧ c.stack.length ≤ c.size ∧ c.size ≤ max start P.max ∧
          (start ≤ P.max → c.size ≤ P.max) ∧
          (halt = .overflow → c.stack.length = c.size ∧ P.max ≤ c.size)) := by
  obtain ⟨o, ho, K⟩ := generate_ok lp ntokens nsyms rs h g hg sp lemon srExpect rrExpect
  have hnt : g.ntokens = ntokens := K.ctx.packs.ntok
  have hns : g.nsyms = nsyms := by rw [hg]; rfl
  refine ⟨o, ho, ?_⟩
  intro t ht V P hPt hinit size u input n hsz start
  have hsv' : SymVals g.ntokens g.nsyms sv := by rw [hnt, hns]; exact hsv
  have T := tabSound K hsv' (by omega) (outputTables_ok K (by omega) hsv' ht)
  rw [← hPt] at T
  have hs2 : 2 ≤ (P.start size u input).size := by
    simp only [Driver.start]; split <;> omega
  have hss : (P.start size u input).size = start := rfl
  have hR := run_inv (P := P) (Base (ShiftsTo o.aut) (max start P.max))
    (fun c c' B hs => by
      have := T.step_base B (Nat.le_max_right _ _)
      rw [hs] at this
      exact this) n (P.start size u input)
    (start_base P size u input _ hs2 (by rw [hss]; exact Nat.le_max_left _ _))
  refine ⟨?_, ?_⟩
  · intro c hc
    have B := hR.1 c hc
    obtain ⟨γ, hγ⟩ := B.spell
    have hl := hγ.length
    rw [List.length_map] at hl
    exact ⟨by omega, B.fits, B.bnd, fun hle => by have := B.bnd; omega⟩
  · intro halt c hc
    obtain ⟨c0, B, hs⟩ := hR.2 halt c hc
    have := T.step_base B (Nat.le_max_right _ _)
    rw [hs] at this
    obtain ⟨r1, r2, r3, r4, r5⟩ := this
    exact ⟨r1, r2, r4, r5, fun hle => by omega, r3⟩

/-- `2 + 3 * 4` needs six cells; with four it is an overflow, with a doubled allocation it is not. -/
example : (c15T.map fun t => [4, 5, 6, 8].map fun mx =>
      (outcome { calcP t with init := 2, max := mx } 20 0 [(257, 2), (43, 0), (257, 3), (42, 0), (257, 4)]).map (·.1)) =
    some [some .overflow, some .overflow, some .accept, some .accept] := by decide +kernel

/-- C19, violated part: with `YYMAXDEPTH` 2 (any value below 200) the stack is allocated with 200
cells and more than `YYMAXDEPTH` of them are used. -/
theorem C19_maximum_violated : ∃ (lp : Bool) (ntokens nsyms : Nat) (rs : List SrcRule) (sp : SymPrec) (sv : List Int)
    (o : Generated) (t : Tables) (P : Driver Int) (input : List (Int × Int)) (n : Nat) (c : Cfg Int),
    generate (packGrammar lp ntokens nsyms (rs.map SrcRule.p) (encPitem rs)) sp false (-1) (-1) = some o ∧
    outputTables 3 (packGrammar lp ntokens nsyms (rs.map SrcRule.p) (encPitem rs)) sv o = .ok t ∧
    P.t = t ∧ P.init = 200 ∧ P.max = 2 ∧
    P.run n (P.start 0 0 input) = .next c ∧ P.max < c.size ∧ P.max < c.stack.length := by
  have hev : (genWith 20 c09G c09SP false (-1) (-1)).bind (fun o =>
      match outputTables 3 c09G c15SV o with
      | .ok t => (match (({ calcP t with init := 200, max := 2 } : Driver Int).run 3
            (({ calcP t with init := 200, max := 2 } : Driver Int).start 0 0 [(257, 2), (43, 0)])) with
          | .next c => some (decide (2 < c.size) && decide (2 < c.stack.length))
          | .done _ _ => none)
      | _ => none) = some true := by decide +kernel
  cases hg : genWith 20 c09G c09SP false (-1) (-1) with
  | none => rw [hg] at hev; simp at hev
  | some o =>
    rw [hg] at hev
    simp only [Option.bind_some] at hev
    split at hev
    · rename_i t ht
      split at hev
      · rename_i c hc
        simp only [Option.some.injEq, Bool.and_eq_true, decide_eq_true_eq] at hev
        exact ⟨false, 5, 7, c09Rules, c09SP, c15SV, o, t, { calcP t with init := 200, max := 2 }, _, 3, c,
          generate_of_genWith hg (by decide), ht, rfl, rfl, rfl, hc, hev.1, hev.2⟩
      · cases hev
    · cases hev

end Verif.Byacc
