import Verif.Proofs.Lalr
import Verif.Props.C05
/-
C08 — the lookahead sets are the LALR(1) lookaheads (byacc/lalr.c).
-/
set_option autoImplicit false
namespace Verif.Byacc
open Spec

/-- The three output arrays describe lookahead sets of the reductions of `a`: the slots
`lookaheads[s] .. lookaheads[s+1]-1` belong to the reductions of state `s`, in order. -/
structure LASlots (a : LR0) (out : LalrOut) : Prop where
  sizes : out.lookaheads.length = a.states.length + 1 ∧ out.LA.length = out.ruleno.length ∧
    out.lookaheads[a.states.length]? = some out.ruleno.length
  slots : ∀ (s : Nat) (rd : List Nat), a.reds[s]? = some rd → ∃ b, out.lookaheads[s]? = some b ∧
    out.lookaheads[s+1]? = some (b + rd.length) ∧
    ∀ (j rule : Nat), rd[j]? = some rule → out.ruleno[b + j]? = some rule

/-- C08: for every grammar the computation succeeds, and the lookahead row of the reduction by
rule `r` in state `q` contains token `t` exactly when `t` is an LALR(1) lookahead: some prefix
leading to that state makes the LR(1) item with that lookahead valid. -/
theorem C08_lalr_lookaheads (lp : Bool) (ntokens nsyms : Nat) (rs : List SrcRule)
    (h : UserRules ntokens nsyms (rs.map SrcRule.rule)) (g : Gram)
    (hg : g = packGrammar lp ntokens nsyms (rs.map SrcRule.p) (encPitem rs)) :
    ∃ a N out, generateStates g = some a ∧ setNullable g = some N ∧ lalr g a N = some out ∧ LASlots a out ∧
      ∀ (q : Nat) (rd : List Nat) (b j r A : Nat) (α : List Nat) (row : List Word),
        a.reds[q]? = some rd → out.lookaheads[q]? = some b → rd[j]? = some (r+2) →
        out.LA[b + j]? = some row → (augCFG ntokens (rs.map SrcRule.rule)).rules[r]? = some (A, α) →
        (∃ γ, Path (ShiftsTo a) 0 γ q) ∧
        ∀ γ, Path (ShiftsTo a) 0 γ q → ∀ t,
          (BIT row t = true ↔ LalrLA (augCFG ntokens (rs.map SrcRule.rule)) byaccInit γ r α.length t) := by
  subst hg
  obtain ⟨a, ha, H⟩ := C04_automaton lp ntokens nsyms rs h
  have hp := packs_packGrammar lp ntokens nsyms rs
  have hwf := wf_aug h
  obtain ⟨N, hN, -, hnul⟩ := setNullable_spec _ _ hp hwf
  have C : GCtx _ _ a _ := ⟨H, isAuto H, hp, hwf, gotoOK H hp hwf⟩
  obtain ⟨out, ho, o1, o2, o3, o4, o5⟩ := C.lalr hnul
  obtain ⟨la1, la2⟩ := lookaheadsOf_spec a
  have hlaget : ∀ s, s ≤ a.nstates → out.lookaheads[s]? = some (base (redsLen a) s) := by
    intro s hs
    rw [o1]
    have := la2 s hs
    rw [List.getD_eq_getElem?_getD, List.getElem?_eq_getElem (by omega)] at this
    rw [List.getElem?_eq_getElem (by omega)]
    simpa using this
  have hrds : ∀ (s : Nat) (rd : List Nat), a.reds[s]? = some rd → s < a.nstates ∧ a.redsOf s = rd := by
    intro s rd hs
    have h1 := (List.getElem?_eq_some_iff.mp hs).1
    rw [H.sizes.2.2] at h1
    exact ⟨h1, by unfold LR0.redsOf; rw [List.getD_eq_getElem?_getD, hs]; rfl⟩
  refine ⟨a, N, out, ha, hN, ho, ⟨⟨by rw [o1, la1]; rfl, by rw [o3, o2], ?_⟩, ?_⟩, ?_⟩
  · rw [show a.states.length = a.nstates from rfl, hlaget _ (Nat.le_refl _), o2]
    exact congrArg some (laRuleno_spec a a.nstates).1.symm
  · intro s rd hs
    obtain ⟨h1, h2⟩ := hrds s rd hs
    refine ⟨base (redsLen a) s, hlaget s (by omega), ?_, ?_⟩
    · rw [hlaget (s+1) (by omega)]; simp only [base, redsLen, h2]
    · intro j rule hj
      rw [o2]
      exact (laRuleno_spec a a.nstates).2 s j rule h1 (by rw [h2]; exact hj)
  · intro q rd b j r A α row' hq hb hj hrow hr
    obtain ⟨h1, h2⟩ := hrds q rd hq
    rw [hlaget q (by omega)] at hb
    simp only [Option.some.injEq] at hb
    subst hb
    have hslot : IsSlot a (base (redsLen a) q + j) q (r+2) := ⟨h1, j, rfl, by rw [h2]; exact hj⟩
    refine ⟨C.A.path_to q h1, ?_⟩
    intro γ hγ t
    have hred : r + 2 ∈ a.redsOf q := by rw [h2]; exact List.mem_of_getElem? hj
    obtain ⟨d, hd, A', α', hr', rfl⟩ := (redsOf_iff H h1).mp hred
    rw [hr] at hr'
    simp only [Option.some.injEq, Prod.mk.injEq] at hr'
    obtain ⟨rfl, rfl⟩ := hr'
    rw [← laSet_lalr C.A hwf hr hγ hd, ← o5 _ q r t hslot]
    have : Verif.Byacc.row out.LA (base (redsLen a) q + j) = row' := by
      simp [Verif.Byacc.row, List.getD_eq_getElem?_getD, hrow]
    rw [this]

/-- Example `s: l '2' s | l ;  l: '3' | ` (s = 5, l = 6): the reduction of the empty `l` in
state 0 has lookaheads `$end` and '2'. -/
def c08B (i : Nat) : Bucket := ⟨i, decide (i < 4), 0, .TOKEN⟩
def c08Rules : List SrcRule :=
  [⟨c08B 5, [c08B 6, c08B 2, c08B 5], UNDEFINED, .TOKEN⟩, ⟨c08B 5, [c08B 6], UNDEFINED, .TOKEN⟩,
   ⟨c08B 6, [c08B 3], UNDEFINED, .TOKEN⟩, ⟨c08B 6, [], UNDEFINED, .TOKEN⟩]
def c08G : Gram := packGrammar false 4 7 (c08Rules.map SrcRule.p) (encPitem c08Rules)

example : UserRules 4 7 (c08Rules.map SrcRule.rule) := by
  refine ⟨by decide, by decide, ?_⟩
  intro A α h
  simp [c08Rules, SrcRule.rule, c08B] at h
  rcases h with ⟨rfl, rfl⟩ | ⟨rfl, rfl⟩ | ⟨rfl, rfl⟩ | ⟨rfl, rfl⟩ <;> simp

example : ((genLoop c08G (setFirstDerives c08G) 20 (initialLR0 c08G)).bind fun a =>
      (setNullable c08G).bind fun N => (lalr c08G a N).map fun o => (a.reds, o)) =
    some ([[6], [5], [], [4], [6], [3]],
      ⟨[0, 1, 2, 2, 3, 4, 5], [6, 5, 4, 6, 3], [[5#64], [5#64], [1#64], [5#64], [1#64]]⟩) := by
  decide +kernel

end Verif.Byacc
