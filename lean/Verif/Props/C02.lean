import Verif.Proofs.Nullable
/-
C02 — nullable symbols are exactly those deriving the empty string (byacc/lr0.c).
-/
set_option autoImplicit false
namespace Verif.Byacc
open Spec

/-- A list of user rules is acceptable for `pack_grammar`: left sides are nonterminals other
than `$accept` (index `ntokens`), right sides use neither `$end` (0) nor `$accept`.  This is
what `pack_symbols` (byacc/reader.c:3750-3929) establishes: `$end` and `$accept` are not in
the symbol table, so no rule can mention them. -/
def UserRules (ntokens nsyms : Nat) (rules : List (Nat × List Nat)) : Prop :=
  1 ≤ ntokens ∧ ntokens + 2 ≤ nsyms ∧
  ∀ A α, (A, α) ∈ rules → ntokens < A ∧ A < nsyms ∧ ∀ X ∈ α, 0 < X ∧ X < nsyms ∧ X ≠ ntokens

theorem wf_aug {ntokens nsyms : Nat} {rules : List (Nat × List Nat)}
    (h : UserRules ntokens nsyms rules) : WF (augCFG ntokens rules) nsyms := by
  obtain ⟨h1, h2, h3⟩ := h
  refine ⟨h1, by simp [augCFG], h2, ?_⟩
  intro r A α hr hα
  obtain ⟨k, rfl⟩ : ∃ k, r = k + 1 := ⟨r - 1, by omega⟩
  simp only [augCFG, List.getElem?_cons_succ] at hα
  exact h3 A α (List.mem_of_getElem? hα)

/-- C02: for every grammar `set_nullable` terminates and marks a symbol iff the symbol derives
the empty string. -/
theorem C02_nullable (lp : Bool) (ntokens nsyms : Nat) (rs : List SrcRule)
    (h : UserRules ntokens nsyms (rs.map SrcRule.rule)) :
    ∃ N, setNullable (packGrammar lp ntokens nsyms (rs.map SrcRule.p) (encPitem rs)) = some N ∧
      ∀ A, nul N A = true ↔ (augCFG ntokens (rs.map SrcRule.rule)).Nullable [A] := by
  have hp := packs_packGrammar lp ntokens nsyms rs
  obtain ⟨N, h1, -, h3⟩ := setNullable_spec _ _ hp (wf_aug h)
  refine ⟨N, h1, fun A => ?_⟩
  rw [h3, nullable_iff]
  simp

/-- `s: a b; a: c; b: a a; c: ;` (token 2; s = 4, a = 5, b = 6, c = 7): three passes are
needed since every symbol depends on a later rule. -/
def c02B (i : Nat) : Bucket := ⟨i, decide (i < 3), 0, .TOKEN⟩
def c02Rules : List SrcRule :=
  [⟨c02B 4, [c02B 5, c02B 6], UNDEFINED, .TOKEN⟩, ⟨c02B 6, [c02B 5, c02B 5], UNDEFINED, .TOKEN⟩,
   ⟨c02B 5, [c02B 7], UNDEFINED, .TOKEN⟩, ⟨c02B 7, [], UNDEFINED, .TOKEN⟩,
   ⟨c02B 7, [c02B 2], UNDEFINED, .TOKEN⟩]

example : UserRules 3 8 (c02Rules.map SrcRule.rule) := by
  refine ⟨by decide, by decide, ?_⟩
  intro A α h
  simp [c02Rules, SrcRule.rule, c02B] at h
  rcases h with ⟨rfl, rfl⟩ | ⟨rfl, rfl⟩ | ⟨rfl, rfl⟩ | ⟨rfl, rfl⟩ | ⟨rfl, rfl⟩ <;> simp

example : setNullable (packGrammar false 3 8 (c02Rules.map SrcRule.p) (encPitem c02Rules)) =
    some [false, false, false, false, true, true, true, true] := by decide +kernel

end Verif.Byacc
