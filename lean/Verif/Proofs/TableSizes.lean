import Verif.Proofs.Tables
/-
The sizes of the arrays of a generated parser.
-/
set_option autoImplicit false
namespace Verif.Byacc
open Spec

/-- the sizes of the arrays, for `n` states, `nv` nonterminals and `nr` rules -/
structure TableSizes (n nv nr : Nat) (t : Tables) : Prop where
  lhs : t.lhs.length = nr
  len : t.len.length = nr
  defred : t.defred.length = n
  sindex : t.sindex.length = n
  rindex : t.rindex.length = n
  dgoto : t.dgoto.length = nv
  gindex : t.gindex.length = nv
  table : t.table.length = t.size + 1
  check : t.check.length = t.size + 1

variable {g : Gram} {G : CFG} {sp : SymPrec} {lemon : Bool} {e1 e2 : Int} {o : Generated}

theorem outputTables_sizes (K : GenOK g G sp lemon e1 e2 o) {per : Nat} (hper : 2 ≤ per) {sv : List Int}
    (hsv : SymVals g.ntokens g.nsyms sv) {t : Tables} (ht : outputTables per g sv o = .ok t) :
    TableSizes o.aut.nstates (g.nsyms - (g.ntokens + 1)) G.rules.length t ∧ 0 < o.aut.nstates ∧ g.ntokens + 1 < g.nsyms := by
  obtain ⟨v1, v2, v3, v4, v5, v6, v7⟩ := vectors_spec K hper hsv
  have hle : 2 * o.aut.nstates ≤ per * o.aut.nstates := Nat.mul_le_mul_right _ hper
  have hps := packTable_spec (vs := (vectors per g sv o).2) o.aut.nstates v2
  have hfin := findFinalState_spec K.ctx
  have hns : g.ntokens + 1 < g.nsyms := by
    obtain ⟨h1, h2⟩ := (shiftsTo_iff K.ctx.aut).1 hfin
    have := (acc_range K.ctx.aut K.ctx.wf h1).2
    omega
  refine ⟨?_, K.ctx.aut.sizes.1, hns⟩
  unfold outputTables at ht
  simp only at ht
  rcases hps with h | ⟨h, -⟩ | ⟨p, h, H⟩
  · rw [h] at ht; cases ht
  · rw [h] at ht; cases ht
  rw [h] at ht
  simp only [Out.bind] at ht
  split at ht
  · cases ht
  simp only [Out.ok.injEq] at ht
  have hb := H.baselen
  have hl := H.highlt
  have hst := H.sized.t
  have hsc := H.sized.c
  have hnr := K.ctx.packs.nrules
  have hr0 : 0 < G.rules.length := (List.getElem?_eq_some_iff.1 K.ctx.wf.acc).1
  have hnv : g.nvars = g.nsyms - g.ntokens := rfl
  subst ht
  refine ⟨?_, ?_, ?_, ?_, ?_, v6, ?_, ?_, ?_⟩
  · simp only [List.length_cons, List.length_map, List.length_range']; omega
  · simp only [List.length_cons, List.length_map, List.length_range']; omega
  · simp
  · simp only [List.length_take]; omega
  · simp only [List.length_take, List.length_drop]; omega
  · simp only [List.length_take, List.length_drop]; omega
  · simp only [List.length_take]; omega
  · simp only [List.length_take]; omega

end Verif.Byacc
