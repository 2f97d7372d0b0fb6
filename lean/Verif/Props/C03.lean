import Verif.Proofs.LR0
import Verif.Props.C02
/-
C03 — closure of an item set is exact and sorted (byacc/closure.c).
-/
set_option autoImplicit false
namespace Verif.Byacc
open Spec Relation

/-- C03: for every grammar and every sorted kernel of item positions (`ritem` index
`rrhs[r+2] + d` for item `(r,d)`), the list computed by `closure` is strictly increasing, and
it contains a position iff that is a kernel position or the start of a rule `r'` whose left
side `C` is reachable, by repeatedly taking first right-hand-side symbols, from a symbol `B`
after the dot of some kernel item `(r,d)`. -/
theorem C03_closure (lp : Bool) (ntokens nsyms : Nat) (rs : List SrcRule)
    (h : UserRules ntokens nsyms (rs.map SrcRule.rule)) (K : List Nat) (hK : K.Pairwise (· < ·))
    (hpos : ∀ k ∈ K, ∃ r d, IsItem (augCFG ntokens (rs.map SrcRule.rule)) r d ∧
      k = (packGrammar lp ntokens nsyms (rs.map SrcRule.p) (encPitem rs)).rhs (r+2) + d) :
    let g := packGrammar lp ntokens nsyms (rs.map SrcRule.p) (encPitem rs)
    let G := augCFG ntokens (rs.map SrcRule.rule)
    (closure g (setFirstDerives g) K).Pairwise (· < ·) ∧
    ∀ p, p ∈ closure g (setFirstDerives g) K ↔
      (p ∈ K ∨ ∃ r d B C r' η, g.rhs (r+2) + d ∈ K ∧ DotBefore G r d B ∧
        ReflTransGen (fun X Y => ∃ β, (X, Y :: β) ∈ G.rules) B C ∧
        G.rules[r']? = some (C, η) ∧ p = g.rhs (r'+2)) := by
  intro g G
  have hp : Packs g G := packs_packGrammar lp ntokens nsyms rs
  have hwf : WF G g.nsyms := wf_aug h
  have hK1 : ItemPos g K := by
    intro k hk
    obtain ⟨r, d, hi, rfl⟩ := hpos k hk
    exact ⟨pos_pos hp hi, pos_lt hp hi⟩
  obtain ⟨h1, h2⟩ := closure_spec hp hwf K hK (fun k hk => item_lt_nsyms hp hwf (hK1 k hk).1 (hK1 k hk).2)
  refine ⟨h1, fun p => ?_⟩
  rw [h2 p]
  refine or_congr Iff.rfl ?_
  constructor
  · rintro ⟨i, ⟨k, hk, A, B, r', η, hA, -, hAB, rfl, hr'⟩, rfl⟩
    obtain ⟨r, d, hi, rfl⟩ := hpos k hk
    exact ⟨r, d, A, B, r', η, hk, (dotBefore_iff hp hi).mpr hA, hAB, hr', rfl⟩
  · rintro ⟨r, d, B, C, r', η, hk, hB, hBC, hr', rfl⟩
    refine ⟨r'+2, ⟨_, hk, B, C, r', η, (dotBefore_iff hp hB.isItem).mp hB, ?_, hBC, rfl, hr'⟩, rfl⟩
    have hC := (hwf.lhs hr').1
    rcases ReflTransGen.cases_head hBC with rfl | ⟨D, ⟨β, hD⟩, -⟩
    · exact hC
    · exact (hwf.mem hD).1

/-- The closure as the smallest set of items containing the kernel and, with an item having
its dot before `B`, every rule of `B`. -/
theorem C03_closure_least (lp : Bool) (ntokens nsyms : Nat) (rs : List SrcRule)
    (h : UserRules ntokens nsyms (rs.map SrcRule.rule)) (K : List Nat) (hK : K.Pairwise (· < ·))
    (hpos : ∀ k ∈ K, ∃ r d, IsItem (augCFG ntokens (rs.map SrcRule.rule)) r d ∧
      k = (packGrammar lp ntokens nsyms (rs.map SrcRule.p) (encPitem rs)).rhs (r+2) + d) :
    let g := packGrammar lp ntokens nsyms (rs.map SrcRule.p) (encPitem rs)
    let G := augCFG ntokens (rs.map SrcRule.rule)
    ∀ r d, (IsItem G r d ∧ g.rhs (r+2) + d ∈ closure g (setFirstDerives g) K) ↔
      Closed G (fun r d => IsItem G r d ∧ g.rhs (r+2) + d ∈ K) r d := by
  intro g G
  have hp : Packs g G := packs_packGrammar lp ntokens nsyms rs
  have hwf : WF G g.nsyms := wf_aug h
  have hK1 : ItemPos g K := by
    intro k hk
    obtain ⟨r, d, hi, rfl⟩ := hpos k hk
    exact ⟨pos_pos hp hi, pos_lt hp hi⟩
  exact (closure_items hp hwf K hK hK1).2.2

/-- Example: the grammar of C02; the kernel of the start state is position 1 (`$accept: . s
$end`), its closure adds the rules of `s`, `a` and `c` but not those of `b`. -/
def c03G : Gram := packGrammar false 3 8 (c02Rules.map SrcRule.p) (encPitem c02Rules)

example : closure c03G (setFirstDerives c03G) [1] = [1, 4, 10, 12, 13] := by decide +kernel
example : [1].Pairwise (· < ·) ∧ ∀ k ∈ [1], ∃ r d, IsItem (augCFG 3 (c02Rules.map SrcRule.rule)) r d ∧
    k = c03G.rhs (r+2) + d :=
  ⟨by decide, by
    intro k hk
    simp only [List.mem_singleton] at hk
    subst hk
    exact ⟨0, 0, ⟨_, _, rfl, Nat.zero_le _⟩, by decide +kernel⟩⟩

end Verif.Byacc
