import Verif.Proofs.BtTables
/-
The marks of a token whose actions are not decided by precedence.
-/
set_option autoImplicit false
namespace Verif.Byacc
open Spec

/-- number of actions on token `X` -/
def onTok (X : Nat) (l : List Action) : Nat := l.countP (fun x => x.symbol == X)

theorem onTok_append (X : Nat) (l m : List Action) : onTok X (l ++ m) = onTok X l + onTok X m := List.countP_append

theorem onTok_zero {X : Nat} {l : List Action} : onTok X l = 0 ↔ ∀ x ∈ l, x.symbol ≠ X := by
  unfold onTok
  rw [List.countP_eq_zero]
  simp

/-- Marks of the actions on `X` read so far. -/
structure GroupB (X : Nat) (c : CR) : Prop where
  marks : ∀ x ∈ c.visited, x.symbol = X → x.suppressed = if 2 ≤ onTok X c.visited then 1 else 0
  here : c.symbol = X → (∀ x ∈ c.before, x.symbol ≠ X) ∧ (∃ q, c.pref = some q ∧ q.symbol = X) ∧ ∀ x ∈ c.between, x.symbol = X
  away : c.symbol ≠ X → ∀ q, c.pref = some q → q.symbol ≠ X
  away' : c.symbol ≠ X → ∀ x ∈ c.between, x.symbol ≠ X

theorem supp_symbol (x : Action) (n : Nat) : (x.supp n).symbol = x.symbol := rfl

theorem startBacktrack_symbol (x : Action) : x.startBacktrack.symbol = x.symbol := by
  unfold Action.startBacktrack; split <;> rfl

/-- steps on other tokens -/
theorem crStepB_other {lemon fin : Bool} {c : CR} {p : Action} (X : Nat) (h : (p.symbol : Int) = c.symbol) (hX : p.symbol ≠ X)
    (hp : ∀ q, c.pref = some q → q.symbol ≠ X) (hb : ∀ x ∈ c.between, x.symbol ≠ X) :
    (crStepB lemon fin c p).symbol = c.symbol ∧
    (∀ q, (crStepB lemon fin c p).pref = some q → q.symbol ≠ X) ∧ (∀ x ∈ (crStepB lemon fin c p).between, x.symbol ≠ X) ∧
    (∀ x, x.symbol = X → (x ∈ (crStepB lemon fin c p).before ↔ x ∈ c.before)) ∧
    onTok X (crStepB lemon fin c p).before = onTok X c.before := by
  have hkeep : ∀ n, ∀ x ∈ c.between ++ [p.supp n], x.symbol ≠ X := by
    intro n x hx
    rcases List.mem_append.1 hx with hx | hx
    · exact hb x hx
    · simp at hx; subst hx; exact hX
  have hst : ∀ q, c.startBacktrack.pref = some q → q.symbol ≠ X := by
    intro q hq
    simp only [CR.startBacktrack, Option.map_eq_some_iff] at hq
    obtain ⟨q0, h0, rfl⟩ := hq
    rw [startBacktrack_symbol]; exact hp q0 h0
  unfold crStepB
  rw [if_neg (by simpa using h)]
  split
  · exact ⟨rfl, hst, hkeep 1, fun _ _ => Iff.rfl, rfl⟩
  · cases hc : c.pref with
    | none =>
      simp only
      refine ⟨rfl, ?_, ?_, fun _ _ => Iff.rfl, rfl⟩
      · intro q hq; exact hp q hq
      · intro x hx
        rcases List.mem_append.1 hx with hx | hx
        · exact hb x hx
        · simp at hx; subst hx; exact hX
    | some q =>
      have hq := hp q hc
      have hrep : ((c.replace q p).symbol = c.symbol ∧ (∀ q', (c.replace q p).pref = some q' → q'.symbol ≠ X) ∧
          (∀ x ∈ (c.replace q p).between, x.symbol ≠ X) ∧ (∀ x, x.symbol = X → (x ∈ (c.replace q p).before ↔ x ∈ c.before)) ∧
          onTok X (c.replace q p).before = onTok X c.before) := by
        refine ⟨rfl, ?_, ?_, ?_, ?_⟩
        · intro q' hq'; simp only [CR.replace, Option.some.injEq] at hq'; subst hq'; exact hX
        · intro x hx; simp [CR.replace] at hx
        · intro x hx
          simp only [CR.replace, List.mem_append, List.mem_cons]
          constructor
          · rintro (h1 | rfl | h1)
            · exact h1
            · exact absurd hx hq
            · exact absurd hx (hb x h1)
          · exact .inl
        · simp only [CR.replace]
          rw [onTok_append]
          have : onTok X (q.supp 2 :: c.between) = 0 := by
            rw [onTok_zero]
            intro x hx
            rcases List.mem_cons.1 hx with rfl | hx
            · exact hq
            · exact hb x hx
          omega
      have hkp : ((c.keep (p.supp 2)).symbol = c.symbol ∧ (∀ q', (c.keep (p.supp 2)).pref = some q' → q'.symbol ≠ X) ∧
          (∀ x ∈ (c.keep (p.supp 2)).between, x.symbol ≠ X) ∧ (∀ x, x.symbol = X → (x ∈ (c.keep (p.supp 2)).before ↔ x ∈ c.before)) ∧
          onTok X (c.keep (p.supp 2)).before = onTok X c.before) :=
        ⟨rfl, hp, hkeep 2, fun _ _ => Iff.rfl, rfl⟩
      simp only
      split
      · split
        · split
          · exact hrep
          · split
            · exact hkp
            · split
              · exact hrep
              · split
                · exact hkp
                · refine ⟨rfl, ?_, hkeep 2, fun _ _ => Iff.rfl, rfl⟩
                  intro q' hq'
                  simp only [Option.some.injEq] at hq'
                  subst hq'; exact hq
        · exact ⟨rfl, hst, hkeep 1, fun _ _ => Iff.rfl, rfl⟩
      · split
        · exact hrep
        · split
          · exact hkp
          · exact ⟨rfl, hst, hkeep 1, fun _ _ => Iff.rfl, rfl⟩

/-- a step on `X` -/
theorem crStepB_same {lemon fin : Bool} {c : CR} {p q : Action} (h : (p.symbol : Int) = c.symbol) (hq : c.pref = some q)
    (hnp : ¬ (0 < q.prec ∧ 0 < p.prec ∧ (q.code = .SHIFT ∨ lemon = true))) :
    (crStepB lemon fin c p).before = c.before ∧ (crStepB lemon fin c p).pref = some q.startBacktrack ∧
    (crStepB lemon fin c p).between = c.between ++ [p.supp 1] ∧ (crStepB lemon fin c p).symbol = c.symbol := by
  have hst : c.startBacktrack.pref = some q.startBacktrack := by simp [CR.startBacktrack, hq]
  unfold crStepB
  rw [if_neg (by simpa using h)]
  split
  · exact ⟨rfl, hst, rfl, rfl⟩
  · rw [hq]
    simp only
    by_cases hc : q.code = .SHIFT
    · rw [if_pos hc, if_neg]
      · exact ⟨rfl, hst, rfl, rfl⟩
      · intro hh
        simp only [Bool.and_eq_true, decide_eq_true_eq] at hh
        exact hnp ⟨hh.1, hh.2, .inl hc⟩
    · rw [if_neg hc, if_neg, if_neg]
      · exact ⟨rfl, hst, rfl, rfl⟩
      all_goals
        intro hh
        simp only [Bool.and_eq_true, decide_eq_true_eq] at hh
        exact hnp ⟨hh.1.2.1, hh.1.2.2, .inr hh.1.1⟩

theorem visited_mem {c : CR} {x : Action} : x ∈ c.visited ↔ x ∈ c.before ∨ c.pref = some x ∨ x ∈ c.between := by
  unfold CR.visited
  simp only [List.mem_append, Option.mem_toList]

theorem onTok_visited (X : Nat) (c : CR) : onTok X c.visited = onTok X c.before + (onTok X c.pref.toList + onTok X c.between) := by
  unfold CR.visited
  rw [onTok_append, onTok_append]

theorem GroupB.step {lemon fin : Bool} {X : Nat} {c : CR} {p : Action} (H : GroupB X c) (hp0 : p.suppressed = 0)
    (hnew : (p.symbol : Int) ≠ c.symbol → p.symbol = X → ∀ x ∈ c.visited, x.symbol ≠ X)
    (hnp : p.symbol = X → ∀ q, c.pref = some q → q.symbol = X → ¬ (0 < q.prec ∧ 0 < p.prec ∧ (q.code = .SHIFT ∨ lemon = true))) :
    GroupB X (crStepB lemon fin c p) := by
  by_cases hs : (p.symbol : Int) ≠ c.symbol
  · have e : crStepB lemon fin c p = { c with before := c.visited, pref := some p, between := [], symbol := (p.symbol : Int) } := by
      unfold crStepB; rw [if_pos hs]
    have ev : (crStepB lemon fin c p).visited = c.visited ++ [p] := by rw [e]; rfl
    by_cases hX : p.symbol = X
    · have hn := hnew hs hX
      have h0 : onTok X c.visited = 0 := onTok_zero.2 hn
      have h1 : onTok X (crStepB lemon fin c p).visited ≤ 1 := by
        rw [ev, onTok_append, h0]
        unfold onTok
        simp [List.countP_cons]
        split <;> omega
      refine ⟨?_, ?_, ?_, ?_⟩
      · intro x hx hxX
        rw [if_neg (by omega)]
        rw [ev] at hx
        rcases List.mem_append.1 hx with hx | hx
        · exact absurd hxX (hn x hx)
        · simp at hx; subst hx; exact hp0
      · intro _
        rw [e]
        exact ⟨hn, ⟨p, rfl, hX⟩, by simp⟩
      · intro h
        rw [e] at h
        simp only at h
        rw [hX] at h
        exact absurd rfl h
      · intro h
        rw [e] at h
        simp only at h
        rw [hX] at h
        exact absurd rfl h
    · have h1 : onTok X (crStepB lemon fin c p).visited = onTok X c.visited := by
        rw [ev, onTok_append]
        have : onTok X [p] = 0 := onTok_zero.2 (by simpa using hX)
        omega
      refine ⟨?_, ?_, ?_, ?_⟩
      · intro x hx hxX
        rw [h1]
        rw [ev] at hx
        rcases List.mem_append.1 hx with hx | hx
        · exact H.marks x hx hxX
        · simp at hx; subst hx; exact absurd hxX hX
      · intro h
        rw [e] at h
        simp only at h
        omega
      · intro _ q hq
        rw [e] at hq
        simp only [Option.some.injEq] at hq
        subst hq; exact hX
      · intro _ x hx
        rw [e] at hx
        simp at hx
  · have hs : (p.symbol : Int) = c.symbol := by omega
    by_cases hX : p.symbol = X
    · obtain ⟨b1, ⟨q, hq, hqX⟩, b3⟩ := H.here (by omega)
      obtain ⟨f1, f2, f3, f4⟩ := crStepB_same (lemon := lemon) (fin := fin) hs hq (hnp hX q hq hqX)
      have hcnt : 2 ≤ onTok X (crStepB lemon fin c p).visited := by
        rw [onTok_visited, f2, f3, onTok_append]
        have h1 : onTok X (some q.startBacktrack).toList = 1 := by
          simp [onTok, startBacktrack_symbol, hqX]
        have h2 : onTok X [p.supp 1] = 1 := by simp [onTok, supp_symbol, hX]
        omega
      have hcm : ∀ x ∈ c.between, x.suppressed = 1 := by
        intro x hx
        have := H.marks x (visited_mem.2 (.inr (.inr hx))) (b3 x hx)
        rw [this, if_pos]
        rw [onTok_visited, hq]
        have h1 : onTok X (some q).toList = 1 := by simp [onTok, hqX]
        have h2 : 0 < onTok X c.between := by
          rcases Nat.eq_zero_or_pos (onTok X c.between) with h | h
          · exact absurd (b3 x hx) (onTok_zero.1 h x hx)
          · exact h
        omega
      have hqm : q.startBacktrack.suppressed = 1 := by
        have := H.marks q (visited_mem.2 (.inr (.inl hq))) hqX
        unfold Action.startBacktrack
        split
        · rfl
        · rename_i h
          rw [this] at h ⊢
          split at h
          · rename_i h'; rw [if_pos h']
          · exact absurd rfl h
      refine ⟨?_, ?_, ?_, ?_⟩
      · intro x hx hxX
        rw [if_pos hcnt]
        rw [visited_mem, f1, f2, f3] at hx
        rcases hx with hx | hx | hx
        · exact absurd hxX (b1 x hx)
        · simp only [Option.some.injEq] at hx; subst hx; exact hqm
        · rcases List.mem_append.1 hx with hx | hx
          · exact hcm x hx
          · simp at hx; subst hx; rfl
      · intro _
        refine ⟨by rw [f1]; exact b1, ⟨_, f2, by rw [startBacktrack_symbol]; exact hqX⟩, ?_⟩
        intro x hx
        rw [f3] at hx
        rcases List.mem_append.1 hx with hx | hx
        · exact b3 x hx
        · simp at hx; subst hx; exact hX
      · intro h; rw [f4] at h; omega
      · intro h; rw [f4] at h; omega
    · have hne : c.symbol ≠ X := by omega
      obtain ⟨f1, f2, f3, f4, f5⟩ := crStepB_other (lemon := lemon) (fin := fin) X hs hX (H.away hne) (H.away' hne)
      have hz : ∀ d : CR, (∀ q, d.pref = some q → q.symbol ≠ X) → (∀ x ∈ d.between, x.symbol ≠ X) → onTok X d.visited = onTok X d.before := by
        intro d h1 h2
        rw [onTok_visited]
        have e1 : onTok X d.pref.toList = 0 := onTok_zero.2 (fun x hx => h1 x (by simpa using hx))
        have e2 : onTok X d.between = 0 := onTok_zero.2 h2
        omega
      refine ⟨?_, ?_, fun _ => f2, fun _ => f3⟩
      · intro x hx hxX
        rw [hz _ f2 f3, f5, ← hz c (H.away hne) (H.away' hne)]
        rcases visited_mem.1 hx with hx | hx | hx
        · exact H.marks x (visited_mem.2 (.inl ((f4 x hxX).1 hx))) hxX
        · exact absurd hxX (f2 x hx)
        · exact absurd hxX (f3 x hx)
      · intro h; rw [f1] at h; exact absurd h hne

/-- The marks of a token none of whose actions are comparable by precedence: all actions are marked
if there are two or more, none otherwise. -/
theorem crRowB_group {lemon fin : Bool} {X : Nat} {acts : List Action} (hs : acts.Pairwise ActLt) (h0 : ∀ x ∈ acts, x.suppressed = 0)
    (hnp : ∀ x ∈ acts, ∀ y ∈ acts, x.symbol = X → y.symbol = X → x ≠ y → y.code = .REDUCE → ¬ (0 < x.prec ∧ 0 < y.prec ∧ (x.code = .SHIFT ∨ lemon = true))) :
    ∀ x ∈ (crRowB lemon fin acts).visited, x.symbol = X → x.suppressed = if 2 ≤ onTok X (crRowB lemon fin acts).visited then 1 else 0 := by
  have key : ∀ (rest pre : List Action) (c : CR), pre ++ rest = acts → GroupB X c → (c.visited.map (fun x => x.supp 0)) = pre →
      (∀ x ∈ c.visited, (x.symbol : Int) ≤ c.symbol) → (c.visited = [] → c.symbol = -1) →
      (c.symbol = -1 ∨ ∃ x ∈ pre, (x.symbol : Int) = c.symbol) →
      GroupB X (rest.foldl (crStepB lemon fin) c) := by
    intro rest
    induction rest with
    | nil => intro pre c _ H _ _ _ _; exact H
    | cons p rest ih =>
      intro pre c he H hv hle hem hsym
      have hp : p ∈ acts := by rw [← he]; simp
      have hlt : ∀ x ∈ pre, ActLt x p := by
        intro x hx
        rw [← he] at hs
        exact (List.pairwise_append.1 hs).2.2 x hx p (by simp)
      have hvp : ∀ x ∈ c.visited, x.supp 0 ∈ pre := fun x hx => by rw [← hv]; exact List.mem_map.2 ⟨x, hx, rfl⟩
      have hstep : GroupB X (crStepB lemon fin c p) := by
        refine H.step (h0 p hp) ?_ ?_
        · intro hne hX x hx hxX
          have h1 := hlt _ (hvp x hx)
          have h2 := hle x hx
          have h3 : x.symbol ≤ p.symbol := by unfold ActLt at h1; simp only [supp_symbol] at h1; omega
          rcases hsym with h4 | ⟨y, hy, h4⟩
          · omega
          · have h5 := hlt y hy
            unfold ActLt at h5
            omega
        · intro hX q hq hqX hh
          have hqv : q.supp 0 ∈ acts := by
            rw [← he]; exact List.mem_append_left _ (hvp q (visited_mem.2 (.inr (.inl hq))))
          have h1 := hlt _ (hvp q (visited_mem.2 (.inr (.inl hq))))
          have hred : p.code = .REDUCE := by
            unfold ActLt at h1
            simp only [supp_symbol] at h1
            rcases h1 with h1 | ⟨-, h1 | h1⟩
            · omega
            · exact h1.2
            · exact h1.2.1
          refine hnp _ hqv p hp hqX hX ?_ hred ⟨hh.1, hh.2.1, hh.2.2⟩
          intro e
          rw [e] at h1
          unfold ActLt at h1
          rw [hred] at h1
          simp at h1
      have hrel : (crStepB lemon fin c p).symbol = (p.symbol : Int) := by
        by_cases hne : (p.symbol : Int) ≠ c.symbol
        · unfold crStepB; rw [if_pos hne]
        · have hne : (p.symbol : Int) = c.symbol := by omega
          rw [hne]
          unfold crStepB
          rw [if_neg (by simpa using hne)]
          split
          · rfl
          · cases c.pref with
            | none => rfl
            | some q => simp only; split <;> (repeat' split) <;> rfl
      have hvs : ((crStepB lemon fin c p).visited.map (fun x => x.supp 0)) = pre ++ [p] := by
        have hps : p.supp 0 = p := supp_zero (h0 p hp)
        have hps' : ∀ n, (p.supp n).supp 0 = p := fun n => hps
        rw [← hv]
        unfold crStepB
        split
        · simp only [CR.visited, List.map_append, Option.toList_some, List.map_cons, List.map_nil, List.append_nil, hps]
        · split
          · cases hq : c.pref with
            | none => simp only [CR.visited, CR.keep, CR.startBacktrack, hq, Option.map_none, List.map_append, Option.toList_none, List.map_nil, List.map_cons, hps', List.append_assoc, List.nil_append]
            | some q =>
              have : q.startBacktrack.supp 0 = q.supp 0 := by unfold Action.startBacktrack; split <;> rfl
              simp only [CR.visited, CR.keep, CR.startBacktrack, hq, Option.map_some, List.map_append, Option.toList_some, List.map_cons, List.map_nil, hps', this, List.append_assoc]
          · cases hq : c.pref with
            | none => simp only [CR.visited, CR.keep, hq, List.map_append, Option.toList_none, List.map_nil, List.map_cons, hps, List.append_assoc, List.nil_append]
            | some q =>
              have h1 : q.startBacktrack.supp 0 = q.supp 0 := by unfold Action.startBacktrack; split <;> rfl
              have h2 : (q.supp 2).supp 0 = q.supp 0 := rfl
              simp only
              split
              · split
                · split
                  · simp only [CR.visited, CR.replace, hq, List.map_append, Option.toList_some, List.map_nil, List.map_cons, hps, h2, List.append_assoc, List.nil_append, List.cons_append, List.append_nil]
                  · split
                    · simp only [CR.visited, CR.keep, hq, List.map_append, Option.toList_some, List.map_nil, List.map_cons, hps', List.append_assoc, List.nil_append, List.cons_append, List.append_nil]
                    · split
                      · simp only [CR.visited, CR.replace, hq, List.map_append, Option.toList_some, List.map_nil, List.map_cons, hps, h2, List.append_assoc, List.nil_append, List.cons_append, List.append_nil]
                      · split
                        · simp only [CR.visited, CR.keep, hq, List.map_append, Option.toList_some, List.map_nil, List.map_cons, hps', List.append_assoc, List.nil_append, List.cons_append, List.append_nil]
                        · simp only [CR.visited, CR.keep, hq, List.map_append, Option.toList_some, List.map_nil, List.map_cons, hps', h2, List.append_assoc, List.nil_append, List.cons_append, List.append_nil]
                · simp only [CR.visited, CR.keep, CR.startBacktrack, hq, Option.map_some, List.map_append, Option.toList_some, List.map_cons, List.map_nil, hps', h1, List.append_assoc]
              · split
                · simp only [CR.visited, CR.replace, hq, List.map_append, Option.toList_some, List.map_nil, List.map_cons, hps, h2, List.append_assoc, List.nil_append, List.cons_append, List.append_nil]
                · split
                  · simp only [CR.visited, CR.keep, hq, List.map_append, Option.toList_some, List.map_nil, List.map_cons, hps', List.append_assoc, List.nil_append, List.cons_append, List.append_nil]
                  · simp only [CR.visited, CR.keep, CR.startBacktrack, hq, Option.map_some, List.map_append, Option.toList_some, List.map_cons, List.map_nil, hps', h1, List.append_assoc]
      refine ih (pre ++ [p]) _ (by rw [← he]; simp) hstep hvs ?_ ?_ ?_
      · intro x hx
        rw [hrel]
        have : x.supp 0 ∈ pre ++ [p] := by rw [← hvs]; exact List.mem_map.2 ⟨x, hx, rfl⟩
        rcases List.mem_append.1 this with h | h
        · have := hlt _ h
          unfold ActLt at this
          simp only [supp_symbol] at this
          omega
        · simp at h
          rw [← h]
          simp [supp_symbol]
      · intro h
        rw [h] at hvs
        simp at hvs
      · exact .inr ⟨p, by simp, hrel.symm⟩
  have := key acts [] ⟨[], none, [], -1, 0, 0⟩ (by simp) ⟨by simp [CR.visited], by simp, by simp, by simp⟩ (by simp [CR.visited])
    (by simp [CR.visited]) (fun _ => rfl) (.inl rfl)
  exact this.marks

/-- a counted conflict leaves a mark -/
theorem crRowB_marked (lemon fin : Bool) (acts : List Action)
    (h : 0 < (crRowB lemon fin acts).sr + (crRowB lemon fin acts).rr) : ∃ x ∈ (crRowB lemon fin acts).visited, x.suppressed = 1 := by
  have key : ∀ (rest : List Action) (c : CR), (0 < c.sr + c.rr → ∃ x ∈ c.before ++ c.between, x.suppressed = 1) →
      (0 < (rest.foldl (crStepB lemon fin) c).sr + (rest.foldl (crStepB lemon fin) c).rr →
        ∃ x ∈ (rest.foldl (crStepB lemon fin) c).before ++ (rest.foldl (crStepB lemon fin) c).between, x.suppressed = 1) := by
    intro rest
    induction rest with
    | nil => intro c h; exact h
    | cons p rest ih =>
      intro c hc
      refine ih _ ?_
      have hkeep : ∀ p', 0 < c.sr + c.rr → ∃ x ∈ c.before ++ (c.between ++ [p']), x.suppressed = 1 := by
        intro p' h
        obtain ⟨x, hx, h'⟩ := hc h
        refine ⟨x, ?_, h'⟩
        simp only [List.mem_append] at hx ⊢
        tauto
      have hconf : ∃ x ∈ c.before ++ (c.between ++ [p.supp 1]), x.suppressed = 1 := ⟨p.supp 1, by simp, rfl⟩
      have hrep : ∀ q, 0 < c.sr + c.rr → ∃ x ∈ (c.before ++ q :: c.between) ++ [], x.suppressed = 1 := by
        intro q h
        obtain ⟨x, hx, h'⟩ := hc h
        refine ⟨x, ?_, h'⟩
        simp only [List.mem_append, List.mem_cons] at hx ⊢
        tauto
      unfold crStepB
      split
      · intro h
        obtain ⟨x, hx, h'⟩ := hc h
        refine ⟨x, ?_, h'⟩
        simp only [List.append_nil]
        rw [visited_mem]
        simp only [List.mem_append] at hx
        tauto
      · split
        · exact fun _ => hconf
        · cases c.pref with
          | none => exact hkeep p
          | some q =>
            simp only
            split
            · split
              · split
                · exact hrep _
                · split
                  · exact hkeep _
                  · split
                    · exact hrep _
                    · split
                      · exact hkeep _
                      · exact hkeep _
              · exact fun _ => hconf
            · split
              · exact hrep _
              · split
                · exact hkeep _
                · exact fun _ => hconf
  obtain ⟨x, hx, h'⟩ := key acts ⟨[], none, [], -1, 0, 0⟩ (by simp) h
  refine ⟨x, ?_, h'⟩
  rw [visited_mem]
  rcases List.mem_append.1 hx with h | h
  · exact .inl h
  · exact .inr (.inr h)

end Verif.Byacc
