import Verif.Byacc.Backtrack
import Verif.Proofs.Tables
/-
`remove_conflicts` with backtracking: how its marks are related to those without, and how many
there are.
-/
set_option autoImplicit false
namespace Verif.Byacc
open Spec

/-- The same action; an action that is kept without backtracking (0) may be marked 1. -/
def MarkRel (a b : Action) : Prop :=
  b.supp 0 = a.supp 0 ∧ (b.suppressed = a.suppressed ∨ (a.suppressed = 0 ∧ b.suppressed = 1))

theorem MarkRel.refl (a : Action) : MarkRel a a := ⟨rfl, .inl rfl⟩

theorem MarkRel.supp {a b : Action} (h : MarkRel a b) (n : Nat) : MarkRel (a.supp n) (b.supp n) :=
  ⟨h.1, .inl rfl⟩

theorem MarkRel.start {a b : Action} (h : MarkRel a b) : MarkRel a b.startBacktrack := by
  obtain ⟨h1, h2⟩ := h
  unfold Action.startBacktrack
  split
  · rename_i h0
    exact ⟨h1, .inr ⟨by omega, rfl⟩⟩
  · exact ⟨h1, h2⟩

theorem MarkRel.fields {a b : Action} (h : MarkRel a b) :
    b.symbol = a.symbol ∧ b.number = a.number ∧ b.prec = a.prec ∧ b.code = a.code ∧ b.assoc = a.assoc := by
  have := h.1
  simp only [Action.supp, Action.mk.injEq] at this
  exact ⟨this.1, this.2.1, this.2.2.1, this.2.2.2.1, this.2.2.2.2.1⟩

structure CRRel (c d : CR) : Prop where
  before : List.Forall₂ MarkRel c.before d.before
  pref : List.Forall₂ MarkRel c.pref.toList d.pref.toList
  between : List.Forall₂ MarkRel c.between d.between
  symbol : d.symbol = c.symbol
  sr : d.sr = c.sr
  rr : d.rr = c.rr

theorem forall₂_snoc {α β : Type} {R : α → β → Prop} {l : List α} {m : List β} {a : α} {b : β} (h : List.Forall₂ R l m)
    (h' : R a b) : List.Forall₂ R (l ++ [a]) (m ++ [b]) :=
  List.rel_append h (.cons h' .nil)

theorem CRRel.visited {c d : CR} (h : CRRel c d) : List.Forall₂ MarkRel c.visited d.visited :=
  List.rel_append h.before (List.rel_append h.pref h.between)

theorem CRRel.step {lemon fin : Bool} {c d : CR} (h : CRRel c d) (p : Action) :
    CRRel (crStep lemon fin c p) (crStepB lemon fin d p) := by
  unfold crStep crStepB
  rw [h.symbol]
  have hstart : List.Forall₂ MarkRel c.pref.toList (d.startBacktrack.pref).toList := by
    have := h.pref
    unfold CR.startBacktrack
    cases hc : c.pref with
    | none => rw [hc] at this; cases hd : d.pref with
      | none => exact .nil
      | some y => rw [hd] at this; cases this
    | some x => rw [hc] at this; cases hd : d.pref with
      | none => rw [hd] at this; cases this
      | some y =>
        rw [hd] at this
        cases this with
        | cons h1 _ => exact .cons h1.start .nil
  split
  · exact ⟨h.visited, .cons (.refl p) .nil, .nil, rfl, h.sr, h.rr⟩
  · split
    · exact ⟨h.before, hstart, forall₂_snoc h.between (.refl _), h.symbol, by simp only; rw [h.sr], h.rr⟩
    · have hpref := h.pref
      cases hc : c.pref with
      | none =>
        rw [hc] at hpref
        cases hd : d.pref with
        | some y => rw [hd] at hpref; cases hpref
        | none =>
          simp only
          exact ⟨h.before, by simp only [CR.keep]; rw [hc, hd]; exact .nil, forall₂_snoc h.between (.refl _), h.symbol, h.sr, h.rr⟩
      | some x =>
        rw [hc] at hpref
        cases hd : d.pref with
        | none => rw [hd] at hpref; cases hpref
        | some y =>
          rw [hd] at hpref
          have hxy : MarkRel x y := by cases hpref with | cons h1 _ => exact h1
          obtain ⟨-, -, f3, f4, f5⟩ := hxy.fields
          have hrep : CRRel (c.replace x p) (d.replace y p) :=
            ⟨List.rel_append h.before (.cons (hxy.supp 2) h.between), .cons (.refl p) .nil, .nil, h.symbol, h.sr, h.rr⟩
          have hkeep : ∀ z, CRRel (c.keep z) (d.keep z) := fun z =>
            ⟨h.before, h.pref, forall₂_snoc h.between (.refl z), h.symbol, h.sr, h.rr⟩
          simp only [f3, f4, f5]
          split
          · split
            · split
              · exact hrep
              · split
                · exact hkeep _
                · split
                  · exact hrep
                  · split
                    · exact hkeep _
                    · exact ⟨h.before, .cons (hxy.supp 2) .nil, forall₂_snoc h.between (.refl _), h.symbol, h.sr, h.rr⟩
            · exact ⟨h.before, by simp only [CR.keep]; exact hstart, forall₂_snoc h.between (.refl _), h.symbol, by simp only; rw [h.sr], h.rr⟩
          · split
            · exact hrep
            · split
              · exact hkeep _
              · exact ⟨h.before, by simp only [CR.keep]; exact hstart, forall₂_snoc h.between (.refl _), h.symbol, h.sr, by simp only; rw [h.rr]⟩

theorem crRow_rel (lemon fin : Bool) (acts : List Action) : CRRel (crRow lemon fin acts) (crRowB lemon fin acts) := by
  unfold crRow crRowB
  have : ∀ (acts : List Action) (c d : CR), CRRel c d → CRRel (acts.foldl (crStep lemon fin) c) (acts.foldl (crStepB lemon fin) d) := by
    intro acts
    induction acts with
    | nil => intro c d h; exact h
    | cons p acts ih => intro c d h; exact ih _ _ (h.step p)
  exact this acts _ _ ⟨.nil, .nil, .nil, rfl, rfl, rfl⟩

/-! ### number of marks -/

/-- the actions marked 1 -/
def markedOnes (l : List Action) : List Action := l.filter (fun x => x.suppressed == 1)

/-- entries needed for the conflict lists of a row: an entry for each action, and two more for each token -/
def weight (l : List Action) : Nat := (markedOnes l).length + 2 * ((markedOnes l).map Action.symbol).toFinset.card

theorem weight_perm {l m : List Action} (h : l.Perm m) : weight l = weight m := by
  unfold weight
  have h1 : (markedOnes l).Perm (markedOnes m) := h.filter _
  rw [h1.length_eq, List.toFinset_eq_of_perm _ _ (h1.map _)]

theorem weight_cons_not (x : Action) (l : List Action) (h : x.suppressed ≠ 1) : weight (x :: l) = weight l := by
  unfold weight markedOnes
  rw [List.filter_cons_of_neg (by simpa using h)]

theorem weight_cons_le (x : Action) (l : List Action) : weight l ≤ weight (x :: l) := by
  by_cases h : x.suppressed = 1
  · unfold weight markedOnes
    rw [List.filter_cons_of_pos (by simpa using h)]
    simp only [List.length_cons, List.map_cons, List.toFinset_cons]
    have := Finset.card_le_card (Finset.subset_insert x.symbol ((l.filter (fun x => x.suppressed == 1)).map Action.symbol).toFinset)
    omega
  · rw [weight_cons_not x l h]

theorem weight_cons_mark (x : Action) (l : List Action) (h : x.suppressed = 1) : weight (x :: l) ≤ weight l + 3 := by
  unfold weight markedOnes
  rw [List.filter_cons_of_pos (by simpa using h)]
  simp only [List.length_cons, List.map_cons, List.toFinset_cons]
  have := Finset.card_insert_le x.symbol ((l.filter (fun x => x.suppressed == 1)).map Action.symbol).toFinset
  omega

/-- a second mark for the same token -/
theorem weight_cons_mark' (x : Action) (l : List Action) (h : x.suppressed = 1)
    (hx : ∃ y ∈ l, y.suppressed = 1 ∧ y.symbol = x.symbol) : weight (x :: l) = weight l + 1 := by
  unfold weight markedOnes
  rw [List.filter_cons_of_pos (by simpa using h)]
  simp only [List.length_cons, List.map_cons, List.toFinset_cons]
  rw [Finset.insert_eq_of_mem]
  · omega
  · obtain ⟨y, hy, h1, h2⟩ := hx
    simp only [List.mem_toFinset, List.mem_map, List.mem_filter]
    exact ⟨y, ⟨hy, by simpa using h1⟩, h2⟩

/-- the first mark for a token -/
theorem weight_cons_new (x : Action) (l : List Action) (h : x.suppressed = 1)
    (hx : ∀ y ∈ l, y.suppressed = 1 → y.symbol ≠ x.symbol) : weight (x :: l) = weight l + 3 := by
  unfold weight markedOnes
  rw [List.filter_cons_of_pos (by simpa using h)]
  simp only [List.length_cons, List.map_cons, List.toFinset_cons]
  rw [Finset.card_insert_of_notMem]
  · omega
  · simp only [List.mem_toFinset, List.mem_map, List.mem_filter, not_exists, not_and]
    rintro y ⟨hy, h1⟩
    exact hx y hy (by simpa using h1)

/-- The marks fit into four entries for each counted conflict. -/
structure CRW (c : CR) : Prop where
  pref : ∀ q, c.pref = some q → (q.symbol : Int) = c.symbol
  le : weight c.visited ≤ 4 * (c.sr + c.rr)

theorem visited_keep (c : CR) (p : Action) : (c.keep p).visited = c.visited ++ [p] := by
  simp [CR.visited, CR.keep]

theorem weight_snoc (l : List Action) (x : Action) : weight (l ++ [x]) = weight (x :: l) :=
  weight_perm (List.perm_append_singleton x l)

theorem weight_pref (c : CR) (q : Action) (h : c.pref = some q) : weight c.visited = weight (q :: (c.before ++ c.between)) := by
  apply weight_perm
  unfold CR.visited
  rw [h]
  exact List.perm_middle

theorem CRW.conflict {c : CR} (h : CRW c) (p : Action) (hp : (p.symbol : Int) = c.symbol) :
    weight (c.startBacktrack.keep (p.supp 1)).visited ≤ 4 * (c.sr + c.rr + 1) := by
  rw [visited_keep, weight_snoc]
  have hle := h.le
  cases hc : c.pref with
  | none =>
    have : c.startBacktrack = c := by
      unfold CR.startBacktrack
      rw [hc]
      cases c
      simp only at hc
      subst hc
      rfl
    rw [this]
    have := weight_cons_mark (p.supp 1) c.visited rfl
    omega
  | some q =>
    have hq := h.pref q hc
    rw [weight_pref c q hc] at hle
    have e : c.startBacktrack.pref = some q.startBacktrack := by simp [CR.startBacktrack, hc]
    have hw : weight (p.supp 1 :: c.startBacktrack.visited) = weight (p.supp 1 :: q.startBacktrack :: (c.before ++ c.between)) := by
      apply weight_perm
      unfold CR.visited
      rw [e]
      exact List.Perm.cons _ List.perm_middle
    rw [hw]
    unfold Action.startBacktrack
    split
    · rename_i h0
      have h1 := weight_cons_mark (q.supp 1) (c.before ++ c.between) rfl
      have h2 := weight_cons_mark' (p.supp 1) (q.supp 1 :: (c.before ++ c.between)) rfl
        ⟨q.supp 1, by simp, rfl, by simp only [Action.supp]; omega⟩
      rw [weight_cons_not q _ (by omega)] at hle
      omega
    · have h1 := weight_cons_mark (p.supp 1) (q :: (c.before ++ c.between)) rfl
      omega

theorem CRW.step {lemon fin : Bool} {c : CR} (h : CRW c) (p : Action) (hp : p.suppressed = 0) :
    CRW (crStepB lemon fin c p) := by
  have hle := h.le
  unfold crStepB
  by_cases hsym : (p.symbol : Int) ≠ c.symbol
  · rw [if_pos hsym]
    refine ⟨?_, ?_⟩
    · intro q hq; cases hq; rfl
    · have : CR.visited { c with before := c.visited, pref := some p, between := [], symbol := (p.symbol : Int) } = c.visited ++ [p] := rfl
      rw [this, weight_snoc, weight_cons_not p _ (by omega)]
      exact hle
  rw [if_neg hsym]
  have hsym : (p.symbol : Int) = c.symbol := by omega
  have hcf := h.conflict p hsym
  have hprefB : ∀ q, c.startBacktrack.pref = some q → (q.symbol : Int) = c.symbol := by
    intro q hq
    simp only [CR.startBacktrack, Option.map_eq_some_iff] at hq
    obtain ⟨q0, h0, rfl⟩ := hq
    have := h.pref q0 h0
    unfold Action.startBacktrack
    split <;> exact this
  split
  · refine ⟨hprefB, ?_⟩
    have e : CR.visited { c.startBacktrack.keep (p.supp 1) with sr := c.sr + 1 } = (c.startBacktrack.keep (p.supp 1)).visited := rfl
    rw [e]
    simp only [CR.keep, CR.startBacktrack] at hcf ⊢
    omega
  · cases hc : c.pref with
    | none =>
      simp only
      refine ⟨?_, ?_⟩
      · intro q hq
        simp only [CR.keep] at hq
        rw [hc] at hq; cases hq
      · rw [visited_keep, weight_snoc, weight_cons_not p _ (by omega)]
        exact hle
    | some q =>
      have hq := h.pref q hc
      have hkeep : CRW (c.keep (p.supp 2)) := by
        refine ⟨h.pref, ?_⟩
        rw [visited_keep, weight_snoc, weight_cons_not _ _ (by simp [Action.supp])]
        exact hle
      have hrep : CRW (c.replace q p) := by
        refine ⟨?_, ?_⟩
        · intro q' hq'; cases hq'; exact hsym
        · have e : (c.replace q p).visited = (c.before ++ q.supp 2 :: c.between) ++ [p] := by
            simp [CR.visited, CR.replace]
          rw [e, weight_snoc, weight_cons_not p _ (by omega), weight_perm List.perm_middle,
            weight_cons_not _ _ (by simp [Action.supp])]
          rw [weight_pref c q hc] at hle
          have := weight_cons_le q (c.before ++ c.between)
          simp only [CR.replace]
          omega
      have hcan : CRW { c.keep (p.supp 2) with pref := some (q.supp 2) } := by
        refine ⟨?_, ?_⟩
        · intro q' hq'; cases hq'; exact hq
        · rw [weight_pref _ (q.supp 2) rfl, weight_cons_not _ _ (by simp [Action.supp])]
          simp only [CR.keep]
          rw [← List.append_assoc, weight_snoc, weight_cons_not _ _ (by simp [Action.supp])]
          rw [weight_pref c q hc] at hle
          have := weight_cons_le q (c.before ++ c.between)
          omega
      have hsr : CRW { c.startBacktrack.keep (p.supp 1) with sr := c.sr + 1 } := by
        refine ⟨hprefB, ?_⟩
        have e : CR.visited { c.startBacktrack.keep (p.supp 1) with sr := c.sr + 1 } = (c.startBacktrack.keep (p.supp 1)).visited := rfl
        rw [e]
        simp only [CR.keep, CR.startBacktrack] at hcf ⊢
        omega
      have hrr : CRW { c.startBacktrack.keep (p.supp 1) with rr := c.rr + 1 } := by
        refine ⟨hprefB, ?_⟩
        have e : CR.visited { c.startBacktrack.keep (p.supp 1) with rr := c.rr + 1 } = (c.startBacktrack.keep (p.supp 1)).visited := rfl
        rw [e]
        simp only [CR.keep, CR.startBacktrack] at hcf ⊢
        omega
      simp only
      split
      · split
        · split
          · exact hrep
          · split
            · exact hkeep
            · split
              · exact hrep
              · split
                · exact hkeep
                · exact hcan
        · exact hsr
      · split
        · exact hrep
        · split
          · exact hkeep
          · exact hrr

theorem crRowB_weight (lemon fin : Bool) (acts : List Action) (h0 : ∀ x ∈ acts, x.suppressed = 0) :
    weight (crRowB lemon fin acts).visited ≤ 4 * ((crRowB lemon fin acts).sr + (crRowB lemon fin acts).rr) := by
  unfold crRowB
  have : ∀ (acts : List Action) (c : CR), (∀ x ∈ acts, x.suppressed = 0) → CRW c → CRW (acts.foldl (crStepB lemon fin) c) := by
    intro acts
    induction acts with
    | nil => intro c _ h; exact h
    | cons p acts ih => intro c h0 h; exact ih _ (fun x hx => h0 x (by simp [hx])) (h.step p (h0 p (by simp)))
  exact (this acts _ h0 ⟨by simp, by simp [CR.visited, weight, markedOnes]⟩).le

end Verif.Byacc
