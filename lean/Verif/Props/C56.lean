import Verif.Proofs.Unique
import Verif.Proofs.Forever
import Verif.Props.C18
/-
C56 — a grammar without reported conflicts is unambiguous and its parser ends (byacc).
-/
set_option autoImplicit false
namespace Verif.Byacc
open Spec

/-- C56, the part that holds: if no precedence is used, no conflicts are reported *and the accepting
state has no reduction at the end of the input*, every sentence has one rightmost derivation.
Missing: grammars with such a reduction, see `C56_violated`; and the end of every parse, of which
`C20_recovery_is_bounded` and `C18_complete` give parts. -/
theorem C56_unambiguous_partial (lp : Bool) (ntokens nsyms : Nat) (rs : List SrcRule)
    (h : UserRules ntokens nsyms (rs.map SrcRule.rule)) (g : Gram)
    (hg : g = packGrammar lp ntokens nsyms (rs.map SrcRule.p) (encPitem rs))
    (sp : SymPrec) (lemon : Bool) (srExpect rrExpect : Int)
    (hsp : ∀ p ∈ sp.prec, p = 0) (hrp : ∀ p ∈ g.rprec, p = 0) :
    ∃ o, generate g sp lemon srExpect rrExpect = some o ∧
      (o.parser.SRtotal = 0 → o.parser.RRtotal = 0 →
        (∀ x ∈ o.parser.rows.getD o.parser.final [], x.symbol = 0 → x.code ≠ .REDUCE) →
        ∀ w ps ps' : List Nat, (∀ t ∈ w, t < ntokens) →
          (augCFG ntokens (rs.map SrcRule.rule)).Rightmost ps [ntokens + 1] w →
          (augCFG ntokens (rs.map SrcRule.rule)).Rightmost ps' [ntokens + 1] w → ps = ps') := by
  obtain ⟨o, ho, -, hiff⟩ := C11_no_precedence lp ntokens nsyms rs h g hg sp lemon srExpect rrExpect hsp hrp
  obtain ⟨o', ho', K⟩ := generate_ok lp ntokens nsyms rs h g hg sp lemon srExpect rrExpect
  rw [ho] at ho'
  simp only [Option.some.injEq] at ho'
  subst ho'
  refine ⟨o, ho, ?_⟩
  intro hSR hRR hfin w ps ps' hw h1 h2
  have hy : Yields _ [ntokens + 1] w := yields_iff.2 ⟨hw, Rightmost.derives h1⟩
  have hne := yields_ne_zero (wf_aug h) hy (by
    intro X hX
    simp only [List.mem_singleton] at hX
    subst hX
    exact ⟨by omega, by simp [augCFG]⟩)
  exact unambiguous K (hiff.1 (by omega)) hfin h1 h2 hw (fun h0 => hne 0 h0 rfl)

/-- The hypotheses hold for `s: 'a' s 'b' | ;`. -/
example : (genWith 20 c18G c18SP false (-1) (-1)).map (fun o => (o.parser.SRtotal, o.parser.RRtotal,
    decide (∀ x ∈ o.parser.rows.getD o.parser.final [], x.symbol = 0 → x.code ≠ .REDUCE))) = some (0, 0, true) := by decide +kernel

/-- `a: a | 'x'` (`$end` 0, error 1, 'x' 2, `$accept` 3, a 4) -/
def c56B (i : Nat) : Bucket := ⟨i, decide (i < 3), 0, .TOKEN⟩
def c56Rules : List SrcRule := [⟨c56B 4, [c56B 4], UNDEFINED, .TOKEN⟩, ⟨c56B 4, [c56B 2], UNDEFINED, .TOKEN⟩]
def c56G : Gram := packGrammar false 3 5 (c56Rules.map SrcRule.p) (encPitem c56Rules)
def c56SP : SymPrec := ⟨List.replicate 5 0, List.replicate 5 .TOKEN⟩
def c56SV : List Int := [0, 256, 120, -1, 0]

/-- C56 is violated by `a: a | 'x'`: no conflict is reported, but `x` has two derivations, and the
generated parser never ends on `x x`. -/
theorem C56_violated : UserRules 3 5 (c56Rules.map SrcRule.rule) ∧ (∀ p ∈ c56SP.prec, p = 0) ∧ (∀ p ∈ c56G.rprec, p = 0) ∧
    (augCFG 3 (c56Rules.map SrcRule.rule)).Rightmost [2] [4] [2] ∧
    (augCFG 3 (c56Rules.map SrcRule.rule)).Rightmost [1, 2] [4] [2] ∧
    ∃ o t, generate c56G c56SP false (-1) (-1) = some o ∧ o.parser.SRtotal = 0 ∧ o.parser.RRtotal = 0 ∧
      outputTables 3 c56G c56SV o = .ok t ∧
      ∀ n, ∃ c, (calcP t).run n ((calcP t).start 0 0 [(120, 1), (120, 2)]) = .next c := by
  refine ⟨?_, by decide, by decide +kernel, ?_, ?_, ?_⟩
  · refine ⟨by decide, by decide, ?_⟩
    intro A α h
    simp [c56Rules, SrcRule.rule, c56B] at h
    rcases h with ⟨rfl, rfl⟩ | ⟨rfl, rfl⟩ <;> simp
  · exact .step (δ := []) (z := []) (A := 4) (α := [2]) rfl (by simp) (.refl _)
  · exact .step (δ := []) (z := []) (A := 4) (α := [4]) rfl (by simp)
      (.step (δ := []) (z := []) (A := 4) (α := [2]) rfl (by simp) (.refl _))
  · have hev : (genWith 20 c56G c56SP false (-1) (-1)).bind (fun o =>
        match outputTables 3 c56G c56SV o with
        | .ok t => (match (calcP t).run 3 ((calcP t).start 0 0 [(120, 1), (120, 2)]) with
            | .next c => some (o.parser.SRtotal, o.parser.RRtotal, decide (((calcP t).step c).strip = .next c.strip))
            | _ => none)
        | _ => none) = some (0, 0, true) := by decide +kernel
    cases hg : genWith 20 c56G c56SP false (-1) (-1) with
    | none => rw [hg] at hev; simp at hev
    | some o =>
      rw [hg] at hev
      simp only [Option.bind_some] at hev
      split at hev
      · rename_i t ht
        split at hev
        · rename_i c hc
          simp only [Option.some.injEq, Prod.mk.injEq, decide_eq_true_eq] at hev
          exact ⟨o, t, generate_of_genWith hg (by decide), hev.1, hev.2.1, ht, never_ends hc hev.2.2⟩
        · cases hev
      · cases hev

end Verif.Byacc
