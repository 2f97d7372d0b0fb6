import Verif.Proofs.Msort
import Verif.Lemon.RuleNum
/-
C44  List sorting returns a sorted permutation.
C45  Rule renumbering puts rules with code first and keeps relative order.
-/
set_option autoImplicit false
namespace Verif.Lemon

/-- C44 for `msort` (configurations and actions).  Partial: lists of at least 2^30 elements are
excluded, see `C44_violated`. -/
theorem C44_msort_partial {α : Type} (cmp : α → α → Int) (tot : ∀ x y, cmp x y ≤ 0 ∨ cmp y x ≤ 0)
    (tr : ∀ x y z, cmp x y ≤ 0 → cmp y z ≤ 0 → cmp x z ≤ 0) (l : List α) (hl : l.length < 2 ^ 30) :
    (msort cmp l).Perm l ∧ (msort cmp l).Pairwise (fun x y => cmp x y ≤ 0) :=
  msortWith_spec (S := fun l => l.Pairwise (fun x y => cmp x y ≤ 0)) (isMerge_merge tot tr) (by simp) (by simp)
    (by decide) l hl

example : msort (fun x y : Nat => (x : Int) - y) [5, 3, 9, 1, 3, 7, 2] = [1, 2, 3, 3, 5, 7, 9] := by decide +kernel

/-- Without any property of the comparison the result is still a permutation of the input. -/
theorem C44_msort_perm_partial {α : Type} (cmp : α → α → Int) (l : List α) (hl : l.length < 2 ^ 30) :
    (msort cmp l).Perm l :=
  (msortWith_spec (isMerge_any cmp) trivial (fun _ => trivial) (by decide) l hl).1

/-- C44 fails for very long lists: the last bin is overwritten when it is already in use, so of a
list of 2^30 elements only half remain. -/
theorem C44_violated {α : Type} (cmp : α → α → Int) (l : List α) (hl : l.length = 2 ^ 30) :
    (msort cmp l).length = 2 ^ 29 ∧ ¬ (msort cmp l).Perm l := by
  have h : (msort cmp l).length = 2 ^ 29 := msortWith_loses cmp (by decide) l hl
  refine ⟨h, fun hp => ?_⟩
  have := hp.length_eq
  rw [h, hl] at this
  exact absurd this (by decide)

example : ∃ l : List Nat, l.length = 2 ^ 30 := ⟨List.replicate (2 ^ 30) 0, List.length_replicate ..⟩

/-- The same loss with two bins instead of thirty, computed. -/
example : msortWith (fun x y : Nat => (x : Int) - y) 2 [4, 3, 2, 1] = [1, 2] := by decide +kernel

/-- C44 for `Rule_sort`.  Partial: fewer than 2^32 rules. -/
theorem C44_rule_sort_partial {α : Type} (key : α → Int) (l : List α) (hl : l.length < 2 ^ 32) :
    (ruleSort key l).Perm l ∧ (ruleSort key l).Pairwise (fun x y => key x ≤ key y) :=
  ruleSortWith_spec key (by decide) l hl

example : ruleSort (fun x : Nat => (x : Int)) [5, 3, 9, 1, 3, 7, 2] = [1, 2, 3, 3, 5, 7, 9] := by decide +kernel

/-! ### C45 -/

theorem numberCoded_spec (cs : List Bool) : ∀ i : Nat,
    (numberCoded i cs).2 = i + cs.count true ∧ (numberCoded i cs).1.length = cs.length ∧
    ∀ k : Nat, (cs[k]? = some true → (numberCoded i cs).1[k]? = some ((i + (cs.take k).count true : Nat) : Int)) ∧
      (cs[k]? = some false → (numberCoded i cs).1[k]? = some (-1)) := by
  induction cs with
  | nil => intro i; simp [numberCoded]
  | cons c cs ih =>
    intro i
    unfold numberCoded
    cases c with
    | true =>
      obtain ⟨h1, h2, h3⟩ := ih (i+1)
      simp only [if_true]
      refine ⟨by simp [h1]; omega, by simp [h2], fun k => ?_⟩
      cases k with
      | zero => simp
      | succ k =>
        obtain ⟨h4, h5⟩ := h3 k
        simp only [List.getElem?_cons_succ, List.take_succ_cons, List.count_cons_self]
        exact ⟨fun h => by rw [h4 h]; congr 1; push_cast; omega, h5⟩
    | false =>
      obtain ⟨h1, h2, h3⟩ := ih i
      simp only [Bool.false_eq_true, if_false]
      refine ⟨by simp [h1], by simp [h2], fun k => ?_⟩
      cases k with
      | zero => simp
      | succ k =>
        obtain ⟨h4, h5⟩ := h3 k
        simp only [List.getElem?_cons_succ, List.take_succ_cons]
        exact ⟨fun h => by rw [h4 h]; simp, h5⟩

theorem numberOthers_spec (xs : List Int) : ∀ i : Nat, (numberOthers i xs).length = xs.length ∧
    ∀ (k : Nat) (x : Int), xs[k]? = some x →
      (numberOthers i xs)[k]? = some (if x < 0 then ((i + (xs.take k).countP (· < 0) : Nat) : Int) else x) := by
  induction xs with
  | nil => intro i; simp [numberOthers]
  | cons y xs ih =>
    intro i
    unfold numberOthers
    by_cases hy : y < 0
    · obtain ⟨h1, h2⟩ := ih (i+1)
      rw [if_pos hy]
      refine ⟨by simp [h1], fun k x hx => ?_⟩
      cases k with
      | zero => simp only [List.getElem?_cons_zero, Option.some.injEq] at hx; subst hx; simp [hy]
      | succ k =>
        simp only [List.getElem?_cons_succ] at hx ⊢
        rw [h2 k x hx, List.take_succ_cons, List.countP_cons_of_pos (by simpa using hy)]
        congr 2; push_cast; omega
    · obtain ⟨h1, h2⟩ := ih i
      rw [if_neg hy]
      refine ⟨by simp [h1], fun k x hx => ?_⟩
      cases k with
      | zero => simp only [List.getElem?_cons_zero, Option.some.injEq] at hx; subst hx; simp [hy]
      | succ k =>
        simp only [List.getElem?_cons_succ] at hx ⊢
        rw [h2 k x hx, List.take_succ_cons, List.countP_cons_of_neg (by simpa using hy)]

theorem countP_neg (cs : List Bool) (i k : Nat) :
    ((numberCoded i cs).1.take k).countP (· < 0) = (cs.take k).count false := by
  induction cs generalizing i k with
  | nil => simp [numberCoded]
  | cons c cs ih =>
    cases k with
    | zero => simp
    | succ k =>
      unfold numberCoded
      cases c with
      | true => simp only [if_true, List.take_succ_cons]; rw [List.countP_cons_of_neg (by simp)]; rw [ih]; simp
      | false => simp only [Bool.false_eq_true, if_false, List.take_succ_cons]; rw [List.countP_cons_of_pos (by simp), ih]; simp

/-- closed form of the numbering -/
theorem iRules_eq (code : List Bool) : (iRules code).length = code.length ∧ ∀ k : Nat,
    (code[k]? = some true → (iRules code)[k]? = some (((code.take k).count true : Nat) : Int)) ∧
    (code[k]? = some false → (iRules code)[k]? = some ((code.count true + (code.take k).count false : Nat) : Int)) := by
  obtain ⟨h1, h2, h3⟩ := numberCoded_spec code 0
  obtain ⟨g1, g2⟩ := numberOthers_spec (numberCoded 0 code).1 (numberCoded 0 code).2
  refine ⟨by rw [iRules, g1, h2], fun k => ⟨fun h => ?_, fun h => ?_⟩⟩
  · rw [iRules, g2 k _ ((h3 k).1 h), if_neg (by omega)]
    simp
  · rw [iRules, g2 k _ ((h3 k).2 h), if_pos (by omega), countP_neg, h1]
    simp

theorem count_take_lt {cs : List Bool} {b : Bool} {k l : Nat} (hk : cs[k]? = some b) (hkl : k < l) :
    (cs.take k).count b < (cs.take l).count b := by
  have h1 : cs.take (k+1) = cs.take k ++ [b] := by rw [List.take_add_one, hk]; rfl
  have h2 : (cs.take (k+1)).Sublist (cs.take l) := (List.take_prefix_take_left hkl).sublist
  have := h2.count_le b
  rw [h1] at this
  simp only [List.count_append, List.count_singleton_self] at this
  omega

theorem count_take_le (cs : List Bool) (b : Bool) (k : Nat) : (cs.take k).count b ≤ cs.count b :=
  (List.take_sublist k cs).count_le b

theorem count_take_lt' {cs : List Bool} {b : Bool} {k : Nat} (hk : cs[k]? = some b) :
    (cs.take k).count b < cs.count b := by
  have h := count_take_lt (l := cs.length) hk (List.getElem?_eq_some_iff.mp hk).1
  simpa using h

/-- C45, order: a rule with code comes before every rule without code; between two rules of the
same kind the one declared first has the lower number. -/
theorem C45_order (code : List Bool) (k l : Nat) (a b : Bool) (x y : Int) (hk : code[k]? = some a)
    (hl : code[l]? = some b) (hx : (iRules code)[k]? = some x) (hy : (iRules code)[l]? = some y) :
    x < y ↔ ((a = true ∧ b = false) ∨ (a = b ∧ k < l)) := by
  obtain ⟨-, h⟩ := iRules_eq code
  have hlt : ∀ {k l : Nat} {a : Bool}, code[k]? = some a → code[l]? = some a →
      ((code.take k).count a < (code.take l).count a ↔ k < l) := by
    intro k l a hk hl
    constructor
    · intro h
      by_contra hc
      rcases Nat.lt_or_eq_of_le (Nat.le_of_not_lt hc) with h' | h'
      · exact absurd (count_take_lt hl h') (by omega)
      · subst h'; omega
    · exact count_take_lt hk
  cases a <;> cases b
  · rw [(h k).2 hk] at hx; rw [(h l).2 hl] at hy
    simp only [Option.some.injEq] at hx hy; subst hx hy
    have := hlt hk hl
    simp only [Bool.false_eq_true, false_and, true_and, false_or]
    omega
  · rw [(h k).2 hk] at hx; rw [(h l).1 hl] at hy
    simp only [Option.some.injEq] at hx hy; subst hx hy
    have := count_take_lt' hl
    simp only [Bool.false_eq_true, false_and, or_self, iff_false]
    omega
  · rw [(h k).1 hk] at hx; rw [(h l).2 hl] at hy
    simp only [Option.some.injEq] at hx hy; subst hx hy
    have := count_take_lt' hk
    simp; omega
  · rw [(h k).1 hk] at hx; rw [(h l).1 hl] at hy
    simp only [Option.some.injEq] at hx hy; subst hx hy
    have := hlt hk hl
    simp only [Bool.true_eq_false, and_false, true_and, false_or]
    omega

example : iRules [false, true, false, true, true] = [3, 0, 4, 1, 2] := by decide +kernel

/-- C45, numbers: every rule gets a number, the numbers are 0 … n-1 and no two rules share one;
rules with code have exactly the numbers below `nruleWithAction`. -/
theorem C45_bijection (code : List Bool) :
    (iRules code).Perm ((List.range code.length).map fun i : Nat => (i : Int)) ∧
    ∀ (k : Nat) (a : Bool) (x : Int), code[k]? = some a → (iRules code)[k]? = some x →
      (a = true ↔ x < nruleWithAction code) := by
  obtain ⟨hlen, h⟩ := iRules_eq code
  have hget : ∀ k, k < code.length → ∃ a, code[k]? = some a := fun k hk => ⟨code[k], List.getElem?_eq_getElem hk⟩
  have hsum : code.count true + code.count false = code.length := by
    clear hlen h hget
    induction code with
    | nil => rfl
    | cons c cs ih => cases c <;> simp <;> omega
  have hrange : ∀ (k : Nat) (x : Int), (iRules code)[k]? = some x → 0 ≤ x ∧ x < code.length := by
    intro k x hx
    have hk : k < code.length := by rw [← hlen]; exact (List.getElem?_eq_some_iff.mp hx).1
    obtain ⟨a, ha⟩ := hget k hk
    cases a
    · rw [(h k).2 ha] at hx; simp only [Option.some.injEq] at hx; subst hx
      have := count_take_lt' ha; omega
    · rw [(h k).1 ha] at hx; simp only [Option.some.injEq] at hx; subst hx
      have := count_take_lt' ha; omega
  have hnd : (iRules code).Nodup := by
    rw [List.nodup_iff_getElem?_ne_getElem?]
    intro i j hij hj hc
    have hi' : i < code.length := by omega
    have hj' : j < code.length := by omega
    obtain ⟨a, ha⟩ := hget i hi'
    obtain ⟨b, hb⟩ := hget j hj'
    have hx := List.getElem?_eq_getElem (l := iRules code) (i := i) (by omega)
    have hy := List.getElem?_eq_getElem (l := iRules code) (i := j) (by omega)
    have e : (iRules code)[i] = (iRules code)[j] := by
      rw [hx, hy] at hc; simpa using hc
    have h1 := C45_order code i j a b _ _ ha hb hx hy
    have h2 := C45_order code j i b a _ _ hb ha hy hx
    rw [e] at h1 h2
    simp only [lt_self_iff_false, false_iff] at h1 h2
    cases a <;> cases b <;> simp at h1 h2 <;> omega
  refine ⟨?_, ?_⟩
  · have hnd2 : ((List.range code.length).map fun i : Nat => (i : Int)).Nodup :=
      List.nodup_range.map Nat.cast_injective
    refine List.Subperm.perm_of_length_le (List.subperm_of_subset hnd ?_) (by simp [hlen])
    intro x hx
    obtain ⟨k, hk, rfl⟩ := List.getElem_of_mem hx
    obtain ⟨h1, h2⟩ := hrange k _ (List.getElem?_eq_getElem hk)
    rw [List.mem_map]
    exact ⟨((iRules code)[k]).toNat, by rw [List.mem_range]; omega, by omega⟩
  · intro k a x ha hx
    have hn : nruleWithAction code = code.count true := by
      unfold nruleWithAction
      rw [(numberCoded_spec code 0).1]; simp
    rw [hn]
    cases a
    · rw [(h k).2 ha] at hx; simp only [Option.some.injEq] at hx; subst hx; simp
    · rw [(h k).1 ha] at hx; simp only [Option.some.injEq] at hx; subst hx
      have := count_take_lt' ha; simp; omega

example : (iRules [false, true]).Perm [0, 1] := (C45_bijection [false, true]).1

/-- C45, table order: after sorting, the rule at position `i` is the one numbered `i`. -/
theorem C45_table_partial (code : List Bool) (hn : code.length < 2 ^ 32) :
    (sortedRules code).Perm (List.range code.length) ∧
    (sortedRules code).map (fun r => (iRules code).getD r 0) =
      (List.range code.length).map fun i : Nat => (i : Int) := by
  obtain ⟨h1, h2⟩ := C44_rule_sort_partial (fun r => (iRules code).getD r 0) (List.range code.length) (by simpa using hn)
  refine ⟨h1, ?_⟩
  have hlen := (iRules_eq code).1
  have e : (List.range code.length).map (fun r => (iRules code).getD r 0) = iRules code := by
    apply List.ext_getElem
    · simp [hlen]
    · intro i h3 h4
      simp [List.getD_eq_getElem?_getD, List.getElem?_eq_getElem h4]
  have hp : ((sortedRules code).map fun r => (iRules code).getD r 0).Perm
      ((List.range code.length).map fun i : Nat => (i : Int)) := by
    refine (h1.map _).trans ?_
    rw [e]; exact (C45_bijection code).1
  refine List.Perm.eq_of_pairwise (le := fun x y : Int => x ≤ y) (fun a b _ _ h h' => le_antisymm h h') ?_ ?_ hp
  · rw [List.pairwise_map]; exact h2
  · rw [List.pairwise_map]
    exact List.pairwise_lt_range.imp fun h => by exact_mod_cast Nat.le_of_lt h

example : sortedRules [false, true, false, true, true] = [1, 3, 4, 0, 2] := by decide +kernel

end Verif.Lemon
