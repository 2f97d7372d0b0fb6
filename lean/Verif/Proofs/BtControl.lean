import Verif.Proofs.Complete
import Verif.Proofs.GenDriver
import Verif.Byacc.BtSkel
import Verif.Spec.Choice
/-
The control of a backtracking parser: states and tokens only.
-/
set_option autoImplicit false
namespace Verif.Byacc
open Spec Relation

/-- The states on the stack (top first) and the codes of the tokens to come, or the end. -/
inductive Ctl where
  | run (ss : List Nat) (ts : List Int)
  | acc

/-- What happens next. -/
inductive CRes where
  | next (k : Ctl)
  | conf (e : Nat)
  | err
  | fin

def Tables.redC (t : Tables) (ss : List Nat) (ts : List Int) (r : Nat) : Ctl :=
  match ss.drop (t.len.getD r 0).toNat with
  | [] => .run [] ts
  | s :: below =>
    if s = 0 ∧ t.lhs.getD r 0 = 0 then
      if ts.head? = some 0 then .acc else .run (t.final :: s :: below) ts
    else .run (t.gotoOf s (t.lhs.getD r 0) :: s :: below) ts

def Tables.moveC (t : Tables) (ss : List Nat) (ts : List Int) : Choice → Ctl
  | .shift s => .run (s :: ss) ts.tail
  | .reduce r => t.redC ss ts r

def BTables.stepC (t : BTables) : Ctl → CRes
  | .acc => .fin
  | .run [] _ => .err
  | .run (s :: ss) ts =>
    if t.defred.getD s 0 ≠ 0 then .next (t.redC (s :: ss) ts (t.defred.getD s 0))
    else
      match t.conflictOn s (ts.headD 0) with
      | some e => .conf e
      | none =>
        match t.shiftOn s (ts.headD 0) with
        | some q => .next (.run (q :: s :: ss) ts.tail)
        | none =>
          match t.reduceOn s (ts.headD 0) with
          | some r => .next (t.redC (s :: ss) ts r)
          | none => .err

/-- The list of rules at `e`. -/
def BTables.rulesAt (t : BTables) (e : Nat) : List Nat :=
  ((t.ctable.drop (e + 1)).takeWhile (fun a => decide (0 ≤ a))).map Int.toNat

/-- What is at place `ctry` of the list at `e`. -/
def BTables.AltAt (t : BTables) (e ctry : Nat) : Choice → Prop
  | .shift s => ctry = e ∧ t.ctable.getD e (-1) = s
  | .reduce r => ∃ i, (t.rulesAt e)[i]? = some r ∧ ctry = e + 1 + i

theorem BTables.rulesAt_get (t : BTables) (e i : Nat) (hi : i ≤ (t.rulesAt e).length) :
    (∀ r, (t.rulesAt e)[i]? = some r → t.ctable.getD (e + 1 + i) (-1) = r) ∧
    ((t.rulesAt e).length = i → t.ctable.getD (e + 1 + i) (-1) < 0) := by
  unfold BTables.rulesAt at *
  rw [List.length_map] at *
  have hg : ∀ l : List Int, ∀ i, i ≤ (l.takeWhile (fun a => decide (0 ≤ a))).length →
      (∀ r : Nat, ((l.takeWhile (fun a => decide (0 ≤ a))).map Int.toNat)[i]? = some r → l.getD i (-1) = r) ∧
      ((l.takeWhile (fun a => decide (0 ≤ a))).length = i → l.getD i (-1) < 0) := by
    intro l
    induction l with
    | nil => intro i hi; simp
    | cons a l ih =>
      intro i hi
      rw [List.takeWhile_cons] at *
      by_cases ha : (0 : Int) ≤ a
      · rw [if_pos (by simpa using ha)] at *
        rcases i with _ | i
        · refine ⟨?_, by simp⟩
          intro r hr
          simp at hr
          simp
          omega
        · obtain ⟨h1, h2⟩ := ih i (by simpa using hi)
          refine ⟨fun r hr => ?_, fun h => ?_⟩
          · simpa using h1 r (by simpa using hr)
          · simpa using h2 (by simpa using h)
      · rw [if_neg (by simpa using ha)] at *
        simp at hi
        subst hi
        simp
        omega
  have := hg (t.ctable.drop (e + 1)) i hi
  rw [show (t.ctable.drop (e + 1)).getD i (-1) = t.ctable.getD (e + 1 + i) (-1) by
    simp only [List.getD_eq_getElem?_getD, List.getElem?_drop]] at this
  exact this

/-- an alternative is where the tables say -/
theorem BTables.AltAt.get {t : BTables} {e ctry : Nat} {ch : Choice} (h : t.AltAt e ctry ch) :
    0 ≤ t.ctable.getD ctry (-1) ∧ (match ch with
      | .shift s => ctry = e ∧ (t.ctable.getD ctry (-1)).toNat = s
      | .reduce r => ctry ≠ e ∧ (t.ctable.getD ctry (-1)).toNat = r) := by
  cases ch with
  | shift s =>
    obtain ⟨rfl, h⟩ := h
    refine ⟨by rw [h]; omega, rfl, by rw [h]; rfl⟩
  | reduce r =>
    obtain ⟨i, hi, rfl⟩ := h
    have hl : i < (t.rulesAt e).length := (List.getElem?_eq_some_iff.1 hi).1
    have := (t.rulesAt_get e i (by omega)).1 r hi
    exact ⟨by rw [this]; omega, by omega, by rw [this]; rfl⟩

/-- after an alternative there is another, or the end of the list -/
theorem BTables.AltAt.succ {t : BTables} {e ctry : Nat} {ch : Choice} (h : t.AltAt e ctry ch) :
    (0 ≤ t.ctable.getD (ctry + 1) (-1) ∧ t.AltAt e (ctry + 1) (.reduce (t.ctable.getD (ctry + 1) (-1)).toNat)) ∨
    (t.ctable.getD (ctry + 1) (-1) < 0 ∧ ∀ ctry' ch', t.AltAt e ctry' ch' → ctry' ≤ ctry) := by
  have key : ∃ i, ctry + 1 = e + 1 + i ∧ i ≤ (t.rulesAt e).length := by
    cases ch with
    | shift s => obtain ⟨rfl, -⟩ := h; exact ⟨0, rfl, Nat.zero_le _⟩
    | reduce r =>
      obtain ⟨i, hi, rfl⟩ := h
      have hl : i < (t.rulesAt e).length := (List.getElem?_eq_some_iff.1 hi).1
      exact ⟨i + 1, by omega, by omega⟩
  obtain ⟨i, e1, hi⟩ := key
  obtain ⟨g1, g2⟩ := t.rulesAt_get e i hi
  rw [e1]
  rcases Nat.lt_or_ge i (t.rulesAt e).length with hl | hl
  · left
    have hr : (t.rulesAt e)[i]? = some (t.rulesAt e)[i] := List.getElem?_eq_getElem hl
    have := g1 _ hr
    refine ⟨by rw [this]; omega, i, ?_, rfl⟩
    rw [this, hr]; rfl
  · right
    refine ⟨g2 (by omega), ?_⟩
    intro ctry' ch' h'
    cases ch' with
    | shift s => obtain ⟨rfl, -⟩ := h'; omega
    | reduce r =>
      obtain ⟨j, hj, rfl⟩ := h'
      have hl : j < (t.rulesAt e).length := (List.getElem?_eq_some_iff.1 hj).1
      omega

theorem altAt_of_lists {t : BTables} {e : Nat} {sh : Int} {rules : List Nat} (h : Lists t.ctable e sh rules) :
    t.ctable.getD e (-1) = sh ∧ t.rulesAt e = rules := by
  obtain ⟨rest, hrest⟩ := h
  have h0 : t.ctable.drop e = sh :: (rules.map (fun r : Nat => (r : Int)) ++ ([-1] ++ rest)) := by
    rw [← hrest]; simp
  refine ⟨?_, ?_⟩
  · rw [List.getD_eq_getElem?_getD, ← List.head?_drop, h0]; rfl
  · unfold BTables.rulesAt
    rw [← List.drop_drop, h0, List.drop_succ_cons, List.drop_zero]
    clear h0 hrest
    induction rules with
    | nil => simp
    | cons r l ih =>
      rw [List.map_cons, List.cons_append, List.takeWhile_cons, if_pos (by simp), List.map_cons, ih]
      simp

/-- steps without a choice -/
inductive Det (t : BTables) : Ctl → Ctl → Prop
  | refl (k : Ctl) : Det t k k
  | head {k k1 k2 : Ctl} (h : t.stepC k = .next k1) (h' : Det t k1 k2) : Det t k k2

theorem Det.tail {t : BTables} {k k1 k2 : Ctl} (h : Det t k k1) (h' : t.stepC k1 = .next k2) : Det t k k2 := by
  induction h with
  | refl => exact .head h' (.refl _)
  | head h0 _ ih => exact .head h0 (ih h')

theorem Det.trans {t : BTables} {k k1 k2 : Ctl} (h : Det t k k1) (h' : Det t k1 k2) : Det t k k2 := by
  induction h with
  | refl => exact h'
  | head h0 _ ih => exact .head h0 (ih h')

/-- steps to a choice are unique -/
theorem Det.step_of_conf {t : BTables} {k k1 k2 : Ctl} {e : Nat} (h : Det t k k1) (hc : t.stepC k1 = .conf e) (hs : t.stepC k = .next k2) :
    Det t k2 k1 := by
  cases h with
  | refl => rw [hs] at hc; cases hc
  | head h0 h' => rw [h0] at hs; cases hs; exact h'

theorem Det.eq_of_conf {t : BTables} {k k1 : Ctl} {e : Nat} (h : Det t k k1) (hc : t.stepC k = .conf e) : k1 = k := by
  cases h with
  | refl => rfl
  | head h0 _ => rw [h0] at hc; cases hc

/-- The choice made at a saved state. -/
structure Chose (t : BTables) (ss : List Nat) (ts : List Int) (ctry : Nat) (k : Ctl) : Prop where
  ex : ∃ e ch, t.stepC (.run ss ts) = .conf e ∧ t.AltAt e ctry ch ∧ k = t.moveC ss ts ch

theorem Chose.unique {t : BTables} {ss : List Nat} {ts : List Int} {ctry : Nat} {k k' : Ctl} (h : Chose t ss ts ctry k)
    (h' : Chose t ss ts ctry k') : k = k' := by
  obtain ⟨e, ch, h1, h2, rfl⟩ := h
  obtain ⟨e', ch', h1', h2', rfl⟩ := h'
  rw [h1] at h1'
  cases h1'
  have g1 := h2.get.2
  have g2 := h2'.get.2
  cases ch <;> cases ch' <;> simp only at g1 g2
  · rw [← g1.2, ← g2.2]
  · exact absurd g1.1 g2.1
  · exact absurd g2.1 g1.1
  · rw [← g1.2, ← g2.2]

section
variable {σ : Type} (t : BTables) (ctl : σ → List Nat × List Int) (ctry : σ → Nat)

/-- The choices recorded, the latest first, lead to `k`. -/
inductive Chain : List σ → Ctl → Prop
  | one {s : σ} {k1 k : Ctl} (h : Chose t (ctl s).1 (ctl s).2 (ctry s) k1) (hd : Det t k1 k) : Chain [s] k
  | cons {s s' : σ} {l : List σ} {k1 k : Ctl} (h : Chose t (ctl s).1 (ctl s).2 (ctry s) k1) (hd : Det t k1 k)
      (hl : Chain (s' :: l) (.run (ctl s).1 (ctl s).2)) : Chain (s :: s' :: l) k

/-- From `k` the choices recorded, the earliest first, are met one after the other, and then `E` holds. -/
inductive PathTo (E : Ctl → Prop) : List σ → Ctl → Prop
  | nil {k : Ctl} (h : E k) : PathTo E [] k
  | cons {s : σ} {l : List σ} {k k1 : Ctl} (hd : Det t k (.run (ctl s).1 (ctl s).2))
      (h : Chose t (ctl s).1 (ctl s).2 (ctry s) k1) (hl : PathTo E l k1) : PathTo E (s :: l) k

variable {t ctl ctry} {E : Ctl → Prop}

theorem PathTo.back (hE : ∀ k k', t.stepC k = .next k' → E k' → E k) {l : List σ} {k k' : Ctl} (h : PathTo t ctl ctry E l k')
    (hd : Det t k k') : PathTo t ctl ctry E l k := by
  cases h with
  | nil h =>
    refine .nil ?_
    induction hd with
    | refl => exact h
    | head h0 _ ih => exact hE _ _ h0 (ih h)
  | cons hd' h hl => exact .cons (hd.trans hd') h hl

/-- following the recorded choices again -/
theorem Chain.path (hE : ∀ k k', t.stepC k = .next k' → E k' → E k) {saves : List σ} {k : Ctl} (h : Chain t ctl ctry saves k) :
    ∀ {path : List σ}, PathTo t ctl ctry E path k →
    ∃ s rest, saves.reverse = s :: rest ∧ PathTo t ctl ctry E (saves.reverse ++ path) (.run (ctl s).1 (ctl s).2) := by
  induction h with
  | @one s k1 k h hd =>
    intro path hp
    exact ⟨s, [], rfl, .cons (.refl _) h (hp.back hE hd)⟩
  | @cons s s' l k1 k h hd hl ih =>
    intro path hp
    obtain ⟨s0, rest, e, hp'⟩ := ih (path := s :: path) (.cons (.refl _) h (hp.back hE hd))
    refine ⟨s0, rest ++ [s], ?_, ?_⟩
    · rw [List.reverse_cons, e]; rfl
    · rw [List.reverse_cons (as := s' :: l), List.append_assoc]; exact hp'

/-- the next round while following the recorded choices -/
theorem PathTo.step {s : σ} {l : List σ} {k k' : Ctl} (h : PathTo t ctl ctry E (s :: l) k) (hs : t.stepC k = .next k') :
    PathTo t ctl ctry E (s :: l) k' := by
  cases h with
  | cons hd h hl =>
    obtain ⟨e, ch, h1, h2, h3⟩ := h.ex
    exact .cons (hd.step_of_conf h1 hs) h hl

end

/-- `k` can lead to acceptance. -/
inductive Win (t : BTables) : Ctl → Prop
  | acc : Win t .acc
  | next {k k' : Ctl} (h : t.stepC k = .next k') (h' : Win t k') : Win t k
  | conf {ss : List Nat} {ts : List Int} {k' : Ctl} (ctry : Nat) (h : Chose t ss ts ctry k') (h' : Win t k') : Win t (.run ss ts)

theorem Win.step {t : BTables} {k k' : Ctl} (h : Win t k) (hs : t.stepC k = .next k') : Win t k' := by
  cases h with
  | acc => cases hs
  | next h h' => rw [h] at hs; cases hs; exact h'
  | conf ctry h h' => obtain ⟨e, ch, h1, -⟩ := h.ex; rw [h1] at hs; cases hs

theorem Win.not_err {t : BTables} {k : Ctl} (h : Win t k) : t.stepC k ≠ .err := by
  cases h with
  | acc => simp [BTables.stepC]
  | next h h' => rw [h]; simp
  | conf ctry h h' => obtain ⟨e, ch, h1, -⟩ := h.ex; rw [h1]; simp

/-- a way to win along recorded choices -/
theorem PathTo.win {σ : Type} {t : BTables} {ctl : σ → List Nat × List Int} {ctry : σ → Nat} {l : List σ} {k : Ctl}
    (h : PathTo t ctl ctry (Win t) l k) : Win t k := by
  have aux : ∀ k k', Det t k k' → Win t k' → Win t k := by
    intro k k' hd hw
    induction hd with
    | refl => exact hw
    | head h0 _ ih => exact .next h0 (ih hw)
  induction h with
  | nil h => exact h
  | cons hd h hl ih => exact aux _ _ hd (.conf _ h ih)

end Verif.Byacc
