import Verif.Lemon.Exit
import Verif.Spec.LemonExit
import Verif.Props.C33
import Verif.Proofs.Licensed
/-
Lemmas for C118.
-/
set_option autoImplicit false
namespace Verif.Lemon
open Verif.Spec Verif.Spec.GFile

theorem atoiDigits_append {ds t : List Nat} (hd : ∀ c ∈ ds, 48 ≤ c ∧ c ≤ 57) (ht : ∀ c ∈ t.head?, ¬ (48 ≤ c ∧ c ≤ 57)) (n : Nat) :
    atoiDigits n (ds ++ t) = ds.foldl (fun n c => 10 * n + (c - 48)) n := by
  induction ds generalizing n with
  | nil =>
    cases t with
    | nil => rfl
    | cons c t => rw [List.nil_append, atoiDigits, if_neg (ht c (by simp))]; rfl
  | cons c ds ih =>
    rw [List.cons_append, atoiDigits, if_pos (hd c (by simp)), ih (fun c h => hd c (by simp [h]))]
    rfl

theorem reads_atoi {t : List Nat} {i : Int} (h : BeginsWith t i) : atoi t = i := by
  have sp : ∀ c : Nat, isSpace c = true ↔ (c = 32 ∨ 9 ≤ c ∧ c ≤ 13) := by intro c; simp [isSpace]
  induction h with
  | @blank c t i hc _ ih =>
    rw [← ih, atoi, List.dropWhile_cons_of_pos ((sp c).mpr hc)]; rfl
  | @digits ds t h0 hd ht =>
    obtain ⟨c, ds, rfl⟩ := List.exists_cons_of_ne_nil h0
    have := hd c (by simp)
    rw [atoi, List.cons_append, List.dropWhile_cons_of_neg (by rw [sp]; omega), atoiSign, if_neg (by omega), if_neg (by omega), ← List.cons_append,
      atoiDigits_append hd ht]
  | @plus ds t hd ht =>
    rw [atoi, List.dropWhile_cons_of_neg (by rw [sp]; omega), atoiSign, if_neg (by omega), if_pos rfl, atoiDigits_append hd ht]
  | @minus ds t hd ht =>
    rw [atoi, List.dropWhile_cons_of_neg (by rw [sp]; omega), atoiSign, if_pos rfl, atoiDigits_append hd ht]
  | @none t ht =>
    cases t with
    | nil => rfl
    | cons c t =>
      obtain ⟨h1, h2, h3, h4, h5⟩ := ht c (by simp)
      rw [atoi, List.dropWhile_cons_of_neg (by rw [sp]; omega), atoiSign, if_neg h3, if_neg h2, atoiDigits, if_neg h1]
      rfl

theorem reads_total (t : List Nat) : ∃ i, BeginsWith t i := by
  have dig : ∀ t : List Nat, ∃ ds r, t = ds ++ r ∧ (∀ c ∈ ds, 48 ≤ c ∧ c ≤ 57) ∧ ∀ c ∈ r.head?, ¬ (48 ≤ c ∧ c ≤ 57) := by
    intro t
    induction t with
    | nil => exact ⟨[], [], rfl, by simp, by simp⟩
    | cons c t ih =>
      by_cases hc : 48 ≤ c ∧ c ≤ 57
      · obtain ⟨ds, r, rfl, h1, h2⟩ := ih
        exact ⟨c :: ds, r, rfl, by simpa [hc] using h1, h2⟩
      · exact ⟨[], c :: t, rfl, by simp, by simpa using hc⟩
  induction t with
  | nil => exact ⟨0, .none (by simp)⟩
  | cons c t ih =>
    by_cases h1 : c = 32 ∨ 9 ≤ c ∧ c ≤ 13
    · obtain ⟨i, hi⟩ := ih
      exact ⟨i, .blank h1 hi⟩
    · by_cases h2 : 48 ≤ c ∧ c ≤ 57
      · obtain ⟨ds, r, rfl, h3, h4⟩ := dig t
        exact ⟨_, .digits (ds := c :: ds) (t := r) (by simp) (by simpa [h2] using h3) h4⟩
      · obtain ⟨ds, r, rfl, h3, h4⟩ := dig t
        by_cases h5 : c = 43
        · subst h5; exact ⟨_, .plus h3 h4⟩
        · by_cases h6 : c = 45
          · subst h6; exact ⟨_, .minus h3 h4⟩
          · refine ⟨0, .none ?_⟩
            intro c' hc'
            simp only [List.head?_cons, Option.mem_some_iff] at hc'
            subst hc'
            exact ⟨h2, h5, h6, fun h => h1 (.inl h), fun h => h1 (.inr h)⟩

theorem startErrors_zero (g : Gram) : startErrors g = 0 ↔ ∀ r ∈ g.rules, g.start ∉ r.rhs := by
  unfold startErrors
  rw [List.sum_eq_zero_iff_forall_eq_nat]
  simp only [List.mem_map, forall_exists_index, and_imp, forall_apply_eq_imp_iff₂, List.length_eq_zero_iff, List.filter_eq_nil_iff, beq_iff_eq]
  constructor
  · intro h r hr hs; exact h r hr _ hs rfl
  · rintro h r hr X hX rfl; exact h r hr hX

theorem cannotReduce_nil (g : Gram) (A : Acts) : cannotReduce g A.acts = [] ↔ ∀ r < g.rules.length, ∃ s t, (AType.REDUCE, r) ∈ A.on s t := by
  unfold cannotReduce
  rw [List.filter_eq_nil_iff]
  simp only [List.mem_range, Bool.not_eq_true', Bool.not_eq_false, List.any_eq_true, Bool.and_eq_true, beq_iff_eq]
  refine forall_congr' fun r => forall_congr' fun _ => ?_
  constructor
  · rintro ⟨l, hl, a, ha, h1, h2⟩
    obtain ⟨s, hs, rfl⟩ := List.getElem_of_mem hl
    refine ⟨s, a.sp, List.mem_map.mpr ⟨a, List.mem_filter.mpr ⟨List.mem_filter.mpr ⟨?_, by simp⟩, ?_⟩, by rw [h1, h2]⟩⟩
    · rw [List.getD_eq_getElem?_getD, List.getElem?_eq_getElem hs]; exact ha
    · simp [Act.live, h1, AType.settled]
  · rintro ⟨s, t, h⟩
    obtain ⟨a, ha, he⟩ := List.mem_map.mp h
    have ha := (List.mem_filter.mp (List.mem_filter.mp ha).1).1
    simp only [Prod.mk.injEq] at he
    rw [List.getD_eq_getElem?_getD] at ha
    cases hs : A.acts[s]? with
    | none => simp [hs] at ha
    | some l =>
      rw [hs] at ha
      exact ⟨l, List.mem_of_getElem? hs, a, ha, he.1, he.2⟩

/-- the rules as pairs -/
theorem mem_rule_iff {g : Gram} {A : Nat} {α : List Nat} : (A, α) ∈ g.rules.map (fun r => (r.lhs, r.rhs)) ↔ ∃ r : Nat, g.ext.rules[r]? = some (A, α) := by
  rw [List.mem_iff_getElem?]; rfl

theorem used_of_ctx {g : Gram} {γ z : List Nat} {r d : Nat} (h : Ctx g.ext (lemonInit g) γ r d z) : ∀ B α, g.ext.rules[r]? = some (B, α) →
    Used (g.rules.map fun r => (r.lhs, r.rhs)) g.start B := by
  induction h with
  | @init r hr =>
    intro B α h
    have h1 := ext_rule.mp h
    have h2 : (g.rule r).lhs = g.start := hr.2
    rw [← h1.2.1, h2]; exact .start
  | @clos γ r d z A α B r' η h hr hB hr' ih =>
    intro B' α' h'
    rw [hr'] at h'
    simp only [Option.some.injEq, Prod.mk.injEq] at h'
    obtain ⟨rfl, rfl⟩ := h'
    exact .rule (ih A α hr) (mem_rule_iff.mpr ⟨_, hr⟩) (List.mem_of_getElem? hB)
  | shift _ _ _ ih => exact ih

theorem used_mention {g : Gram} {A : Nat} (h : Used (g.rules.map fun r => (r.lhs, r.rhs)) g.start A) {α : List Nat} (hr : (A, α) ∈ g.rules.map fun r => (r.lhs, r.rhs))
    {X : Nat} (hX : X ∈ α) : ∃ γ r d z B β, Ctx g.ext (lemonInit g) γ r d z ∧ g.ext.rules[r]? = some (B, β) ∧ β[d]? = some X := by
  have adv : ∀ (d : Nat) {γ z : List Nat} {r B : Nat} {α : List Nat}, Ctx g.ext (lemonInit g) γ r 0 z → g.ext.rules[r]? = some (B, α) → d ≤ α.length →
      ∃ γ', Ctx g.ext (lemonInit g) γ' r d z := by
    intro d γ z r B α h hr hd
    exact ⟨_, by simpa [Nat.min_eq_left hd] using Ctx.advance h hr (α.take d) (α.drop d) (by simp)⟩
  have fin : ∀ {γ z : List Nat} {r A : Nat} {α : List Nat} {X : Nat}, Ctx g.ext (lemonInit g) γ r 0 z → g.ext.rules[r]? = some (A, α) → X ∈ α →
      ∃ γ r d z B β, Ctx g.ext (lemonInit g) γ r d z ∧ g.ext.rules[r]? = some (B, β) ∧ β[d]? = some X := by
    intro γ z r A α X h hr hX
    obtain ⟨d, hd, rfl⟩ := List.getElem_of_mem hX
    obtain ⟨γ', h'⟩ := adv d h hr (by omega)
    exact ⟨γ', r, d, z, A, α, h', hr, List.getElem?_eq_getElem hd⟩
  induction h generalizing α X with
  | start =>
    obtain ⟨r, hr⟩ := mem_rule_iff.mp hr
    have := ext_rule.mp hr
    exact fin (.init ⟨this.1, this.2.1⟩) hr hX
  | @rule A B β hA hr' hB ih =>
    obtain ⟨γ, r', d', z, C, δ, h1, h2, h3⟩ := ih hr' hB
    obtain ⟨r, hr⟩ := mem_rule_iff.mp hr
    exact fin (.clos h1 h2 h3 hr) hr hX

theorem noRuleErrors_zero {g : Gram} (wf : g.WF) (hn : g.nitems < 2 ^ 30) {m : Mach} {F : List TSet} (hm : Analysed g m F) :
    noRuleErrors g m = 0 ↔ ∀ A α, Used (g.rules.map fun r => (r.lhs, r.rhs)) g.start A → (A, α) ∈ g.rules.map (fun r => (r.lhs, r.rhs)) →
      ∀ X ∈ α, g.nlow ≤ X → g.errsym ≠ some X → ∃ r ∈ g.rules, r.lhs = X := by
  have auto := (hm.ok wf hn).isAuto hn
  have hnil : ∀ X, g.rulesOf X = [] ↔ ¬ ∃ r ∈ g.rules, r.lhs = X := by
    intro X
    rw [List.eq_nil_iff_forall_not_mem]
    constructor
    · rintro h ⟨r, hr, rfl⟩
      obtain ⟨i, hi, rfl⟩ := List.getElem_of_mem hr
      exact h i (mem_rulesOf.mpr ⟨hi, by simp [Gram.rule, List.getD_eq_getElem?_getD, hi]⟩)
    · rintro h r hr
      obtain ⟨h1, h2⟩ := mem_rulesOf.mp hr
      exact h ⟨g.rules[r], List.getElem_mem h1, by rw [← h2]; simp [Gram.rule, List.getD_eq_getElem?_getD, h1]⟩
  have hzero : noRuleErrors g m = 0 ↔ ∀ s r d X, m.Item s r d → g.next (r, d) = some X → g.nlow ≤ X → g.errsym ≠ some X → ∃ r ∈ g.rules, r.lhs = X := by
    unfold noRuleErrors
    rw [List.sum_eq_zero_iff_forall_eq_nat]
    simp only [List.mem_map, forall_exists_index, and_imp, forall_apply_eq_imp_iff₂, List.length_eq_zero_iff, List.filter_eq_nil_iff]
    constructor
    · rintro h s r d X ⟨st, hst, hi⟩ hX h1 h2
      obtain ⟨c, hc, hci⟩ := List.mem_map.mp hi
      have := h st (List.mem_of_getElem? hst) c hc
      rw [hci, hX] at this
      by_contra hcon
      have h3 := (hnil X).mpr hcon
      apply this
      simp only [Gram.isNT, h3, List.isEmpty_nil, Bool.and_true, Bool.and_eq_true, decide_eq_true_eq, bne_iff_ne]
      exact ⟨h1, fun h => h2 h.symm⟩
    · intro h st hst c hc hbad
      obtain ⟨s, hs, rfl⟩ := List.getElem_of_mem hst
      cases hX : g.next c.item with
      | none => rw [hX] at hbad; simp at hbad
      | some X =>
        rw [hX] at hbad
        simp only [Gram.isNT, List.isEmpty_iff, Bool.and_eq_true, decide_eq_true_eq, bne_iff_ne] at hbad
        obtain ⟨⟨h1, h2⟩, h3⟩ := hbad
        exact (hnil X).mp h2 (h s c.item.1 c.item.2 X ⟨_, List.getElem?_eq_getElem hs, List.mem_map_of_mem hc⟩ hX h1 fun h => h3 h.symm)
  rw [hzero]
  constructor
  · intro h A α hU hr X hX h1 h2
    obtain ⟨γ, r, d, z, B, α', h3, h4, h5⟩ := used_mention hU hr hX
    obtain ⟨s, h6, h7⟩ := auto.path_of_valid h3 (fun _ _ => trivial)
    refine h s r d X ((auto.item_valid h6 r d).mpr ⟨z, h3⟩) ?_ h1 h2
    rw [Gram.next, (ext_rule.mp h4).2.2, h5]
  · intro h s r d X hi hX h1 h2
    obtain ⟨st, hst, _⟩ := id hi
    obtain ⟨γ, hγ⟩ := auto.path_to s (List.getElem?_eq_some_iff.mp hst).1
    obtain ⟨z, hz⟩ := (auto.item_valid hγ r d).mp hi
    have hr : g.ext.rules[r]? = some ((g.rule r).lhs, (g.rule r).rhs) := ?_
    · exact h (g.rule r).lhs (g.rule r).rhs (used_of_ctx hz _ _ hr) (mem_rule_iff.mpr ⟨_, hr⟩) X (List.mem_of_getElem? hX) h1 h2
    refine ext_rule.mpr ⟨?_, rfl, rfl⟩
    by_contra hlt
    rw [Gram.next, Gram.rule, List.getD_eq_getElem?_getD, List.getElem?_eq_none (i := (r, d).1) (by simpa using hlt)] at hX
    simp at hX

end Verif.Lemon
