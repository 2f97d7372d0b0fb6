import Verif.Proofs.ByaccLang
/-
Auxiliary facts: the numbers of actions.
-/
set_option autoImplicit false
namespace Verif.Byacc.Rd
open Spec Spec.YText

/-! where actions are -/

theorem precOnly_action (x : List El) (b : Bool) (ps : List Part) (y : List El) : precOnly (x ++ .action b ps :: y) = false := by
  unfold precOnly
  rw [List.all_append, List.all_cons]
  simp

theorem steps_at (b : Bool) (ps : List Part) (y : List El) (hy : precOnly y = false) (x : List El) : ∀ n,
    (stepsOf n (x ++ .action b ps :: y))[(elFilter x).length]? = some (.act (n + actionsIn x + 1)) := by
  induction x with
  | nil => intro n; rw [List.nil_append, stepsOf, if_neg (by simp [hy])]; rfl
  | cons e x ih =>
    intro n
    cases e with
    | sym z =>
      have e1 : elFilter (.sym z :: x) = .sym z :: elFilter x := rfl
      have e2 : actionsIn (.sym z :: x) = actionsIn x := rfl
      rw [List.cons_append, stepsOf, e1, e2, List.length_cons, List.getElem?_cons_succ]; exact ih n
    | prec z => exact ih n
    | action b' ps' =>
      have e1 : elFilter (.action b' ps' :: x) = .action b' ps' :: elFilter x := rfl
      have e2 : actionsIn (.action b' ps' :: x) = actionsIn x + 1 := rfl
      rw [List.cons_append, stepsOf, e1, e2, if_neg (by rw [precOnly_action]; simp), List.length_cons, List.getElem?_cons_succ, ih (n + 1)]
      congr 2; omega

theorem inner_at (b : Bool) (ps : List Part) (y : List El) (hy : precOnly y = true) (x : List El) :
    innerActions (x ++ .action b ps :: y) = actionsIn x := by
  induction x with
  | nil => rw [List.nil_append, innerActions_cons]; simp only [if_pos hy]; rfl
  | cons e x ih =>
    rw [List.cons_append, innerActions_cons]
    cases e with
    | sym z => exact ih
    | prec z => exact ih
    | action b' ps' =>
      simp only
      rw [if_neg (by rw [precOnly_action]; simp), ih]; rfl

theorem steps_length (b : Bool) (ps : List Part) (y : List El) (hy : precOnly y = true) (x : List El) : ∀ n,
    (stepsOf n (x ++ .action b ps :: y)).length = (elFilter x).length := by
  induction x with
  | nil => intro n; rw [List.nil_append, stepsOf, if_pos hy]; rfl
  | cons e x ih =>
    intro n
    cases e with
    | sym z => rw [List.cons_append, stepsOf, List.length_cons, ih n]; rfl
    | prec z => exact ih n
    | action b' ps' => rw [List.cons_append, stepsOf, if_neg (by rw [precOnly_action]; simp), List.length_cons, ih (n + 1)]; rfl

theorem actsIn_at {us : List Use} {l : Sym} {n : Nat} {tags tags' : Bool} {pre rest : List El} {acts : List (Nat × List Nat)}
    (h : ActsIn us l n tags pre rest acts tags') : ∀ x b ps y, rest = x ++ .action b ps :: y → ∃ o t1 t2,
      (n + actionsIn (pre ++ x) + 1, (if b then [9] else []) ++ o) ∈ acts ∧ PartsOut ⟨declaredTag us l.key, elTags us l (pre ++ x)⟩ t1 ps o t2 := by
  induction h with
  | done tags a => intro x b ps y e; simp at e
  | sym tags tags' z a rest acts _ ih =>
    intro x b ps y e
    cases x with
    | nil => cases e
    | cons e' x =>
      simp only [List.cons_append, List.cons.injEq] at e
      obtain ⟨rfl, e⟩ := e
      have := ih x b ps y e
      rwa [List.append_assoc] at this
  | prec tags tags' z a rest acts _ ih =>
    intro x b ps y e
    cases x with
    | nil => cases e
    | cons e' x =>
      simp only [List.cons_append, List.cons.injEq] at e
      obtain ⟨rfl, e⟩ := e
      have := ih x b ps y e
      rwa [List.append_assoc] at this
  | action tags tags' tags'' tb ps o a rest acts hp _ ih =>
    intro x b ps y e
    cases x with
    | nil =>
      simp only [List.nil_append, List.cons.injEq, El.action.injEq] at e
      obtain ⟨⟨rfl, rfl⟩, rfl⟩ := e
      exact ⟨o, tags, tags', by simp, by simpa using hp⟩
    | cons e' x =>
      simp only [List.cons_append, List.cons.injEq] at e
      obtain ⟨rfl, e⟩ := e
      obtain ⟨o', t1, t2, h1, h2⟩ := ih x b ps y e
      rw [List.append_assoc] at h1 h2
      exact ⟨o', t1, t2, List.mem_cons_of_mem _ h1, h2⟩

theorem actsIn_mem {us : List Use} {l : Sym} {n : Nat} {tags tags' : Bool} {pre rest : List El} {acts : List (Nat × List Nat)}
    (h : ActsIn us l n tags pre rest acts tags') : acts.map Prod.fst = (List.range (actionsIn rest)).map fun i => n + actionsIn pre + i + 1 := by
  induction h with
  | done tags a => rfl
  | sym tags tags' z a rest acts _ ih =>
    have e1 : actionsIn (a ++ [.sym z]) = actionsIn a := by unfold actionsIn; simp
    rw [ih, e1]; rfl
  | prec tags tags' z a rest acts _ ih =>
    have e1 : actionsIn (a ++ [.prec z]) = actionsIn a := by unfold actionsIn; simp
    rw [ih, e1]; rfl
  | action tags tags' tags'' tb ps o a rest acts hp _ ih =>
    have e1 : actionsIn (a ++ [.action tb ps]) = actionsIn a + 1 := by unfold actionsIn; simp
    have e2 : actionsIn (.action tb ps :: rest) = actionsIn rest + 1 := rfl
    rw [List.map_cons, ih, e1, e2, List.range_succ_eq_map, List.map_cons, List.map_map]
    refine congrArg (_ :: ·) (List.map_congr_left fun i _ => ?_)
    simp only [Function.comp]; omega

theorem actsOf_at {us : List Use} {n : Nat} {tags tags' : Bool} {alts : List Alt} {acts : List (Nat × List Nat)} (h : ActsOf us n tags alts acts tags') :
    ∀ m a, (m, a) ∈ numbered n alts → ∀ x b ps y, a.rhs = x ++ .action b ps :: y → ∃ o t1 t2,
      (m + actionsIn x + 1, (if b then [9] else []) ++ o) ∈ acts ∧ PartsOut ⟨declaredTag us a.lhs.key, elTags us a.lhs x⟩ t1 ps o t2 := by
  induction h with
  | nil => intro m a hm; cases hm
  | cons n tags tags' tags'' a as acts more h1 _ ih =>
    intro m a' hm x b ps y e
    rcases List.mem_cons.1 hm with he | hm
    · obtain ⟨rfl, rfl⟩ := Prod.mk.inj he
      obtain ⟨o, t1, t2, h2, h3⟩ := actsIn_at h1 x b ps y e
      exact ⟨o, t1, t2, List.mem_append_left _ h2, h3⟩
    · obtain ⟨o, t1, t2, h2, h3⟩ := ih m a' hm x b ps y e
      exact ⟨o, t1, t2, List.mem_append_right _ h2, h3⟩

/-- the numbers of the actions in rules -/
def actNumbers (n : Nat) (alts : List Alt) : List Nat :=
  (numbered n alts).flatMap fun p => (List.range (actionsIn p.2.rhs)).map fun i => p.1 + i + 1

theorem actsOf_numbers {us : List Use} {n : Nat} {tags tags' : Bool} {alts : List Alt} {acts : List (Nat × List Nat)}
    (h : ActsOf us n tags alts acts tags') : acts.map Prod.fst = actNumbers n alts := by
  induction h with
  | nil => rfl
  | cons n tags tags' tags'' a as acts more h1 _ ih =>
    rw [List.map_append, ih, actsIn_mem h1]
    rfl

theorem inner_le (a : List El) : actionsIn a ≤ innerActions a + 1 := by
  unfold innerActions
  split <;> omega

theorem actNumbers_lt (alts : List Alt) : ∀ n, (∀ m ∈ actNumbers n alts, n < m) ∧ (actNumbers n alts).Pairwise (· < ·) := by
  induction alts with
  | nil => intro n; exact ⟨by simp [actNumbers, numbered], .nil⟩
  | cons a as ih =>
    intro n
    obtain ⟨h1, h2⟩ := ih (n + innerActions a.rhs + 1)
    have e : actNumbers n (a :: as) = ((List.range (actionsIn a.rhs)).map fun i => n + i + 1) ++ actNumbers (n + innerActions a.rhs + 1) as := rfl
    have hle := inner_le a.rhs
    rw [e]
    constructor
    · intro m hm
      rcases List.mem_append.1 hm with hm | hm
      · obtain ⟨i, -, rfl⟩ := List.mem_map.1 hm; omega
      · have := h1 m hm; omega
    · refine List.pairwise_append.2 ⟨?_, h2, ?_⟩
      · rw [List.pairwise_map]
        exact List.Pairwise.imp (fun h => by omega) List.pairwise_lt_range
      · intro m hm m' hm'
        obtain ⟨i, hi, rfl⟩ := List.mem_map.1 hm
        have := List.mem_range.1 hi
        have := h1 m' hm'
        omega

end Verif.Byacc.Rd
