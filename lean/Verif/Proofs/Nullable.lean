import Verif.Byacc.LR0
import Verif.Proofs.Pack
import Verif.Proofs.Grammar
import Mathlib.Data.List.Count
namespace Verif.Byacc
open Spec

/-- Well-formed augmented grammar with `nsyms` symbols. -/
structure WF (G : CFG) (nsyms : Nat) : Prop where
  ntok : 1 ≤ G.ntok
  acc : G.rules[0]? = some (G.ntok, [G.ntok + 1, 0])
  size : G.ntok + 2 ≤ nsyms
  user : ∀ (r A : Nat) (α : List Nat), 1 ≤ r → G.rules[r]? = some (A, α) →
    G.ntok < A ∧ A < nsyms ∧ ∀ X ∈ α, 0 < X ∧ X < nsyms ∧ X ≠ G.ntok

theorem WF.lhs {G : CFG} {n : Nat} (h : WF G n) {r A : Nat} {α : List Nat}
    (hr : G.rules[r]? = some (A, α)) : G.ntok ≤ A ∧ A < n ∧ ∀ X ∈ α, X < n := by
  rcases Nat.eq_zero_or_pos r with rfl | hp
  · rw [h.acc] at hr
    simp only [Option.some.injEq, Prod.mk.injEq] at hr
    obtain ⟨rfl, rfl⟩ := hr
    have := h.size
    refine ⟨le_rfl, by omega, ?_⟩
    intro X hX; simp at hX; omega
  · have := h.user r A α hp hr
    exact ⟨by omega, this.2.1, fun X hX => (this.2.2 X hX).2.1⟩

theorem WF.mem {G : CFG} {n : Nat} (h : WF G n) {A : Nat} {α : List Nat}
    (hr : (A, α) ∈ G.rules) : G.ntok ≤ A ∧ A < n ∧ ∀ X ∈ α, X < n := by
  obtain ⟨i, hi, he⟩ := List.getElem_of_mem hr
  exact h.lhs (r := i) (by rw [List.getElem?_eq_getElem hi, he])

theorem Null.var {G : CFG} {n : Nat} (h : WF G n) {A : Nat} (hA : Null G A) : G.ntok ≤ A ∧ A < n := by
  cases hA with
  | mk hr _ => exact ⟨(h.mem hr).1, (h.mem hr).2.1⟩

theorem nul_set (N : List Bool) (l j : Nat) (hl : l < N.length) :
    nul (N.set l true) j = (nul N j || decide (j = l)) := by
  simp only [nul, List.getD_eq_getElem?_getD]
  by_cases h : j = l
  · subst h; simp [List.getElem?_set_self hl]
  · rw [List.getElem?_set_ne (by omega)]; simp [h]

theorem nullPass_syms (g : Gram) (α : List Nat) (rest : List Int) (e : Bool) (st : List Bool × Bool) :
    nullPass g (α.map (fun x : Nat => (x : Int)) ++ rest) e st =
      nullPass g rest (e && α.all (nul st.1)) st := by
  induction α generalizing e with
  | nil => simp
  | cons X α ih =>
    obtain ⟨N, d⟩ := st
    simp only [List.map_cons, List.cons_append]
    rw [nullPass, if_pos (by omega), ih]
    congr 1
    simp only [Int.toNat_natCast, List.all_cons]
    by_cases h : nul N X = true <;> simp [h]

/-- effect of one rule in a pass -/
def nullRule (st : List Bool × Bool) (r : Nat × List Nat) : List Bool × Bool :=
  if r.2.all (nul st.1) then
    if !(nul st.1 r.1) then (st.1.set r.1 true, false) else st
  else st

theorem nullPass_blocks (g : Gram) (i : Nat) (rs : List (Nat × List Nat)) (st : List Bool × Bool)
    (hl : ∀ k A α, rs[k]? = some (A, α) → g.lhs (i + k) = A) (hi : 0 < i) :
    nullPass g (blocks i rs) true st = rs.foldl nullRule st := by
  induction rs generalizing i st with
  | nil => simp [blocks, nullPass]
  | cons r rs ih =>
    simp only [blocks]
    rw [nullPass_syms, List.foldl_cons]
    obtain ⟨N, d⟩ := st
    have hl0 : g.lhs i = r.1 := hl 0 r.1 r.2 (by simp)
    have hih := fun st => ih (i+1) st (fun k A α hk => by
      have := hl (k+1) A α (by simpa using hk)
      rwa [show i + 1 + k = i + (k+1) by omega]) (by omega)
    rw [nullPass, if_neg (by omega)]
    simp only [Bool.true_and, neg_neg, Int.toNat_natCast, hl0]
    unfold nullRule
    simp only
    split
    · split
      · rw [hih]; rfl
      · rw [hih]; rfl
    · rw [hih]; rfl

/-- number of marked symbols -/
def marks (N : List Bool) : Nat := N.count true

theorem marks_set (N : List Bool) (l : Nat) (hl : l < N.length) (h : nul N l = false) :
    marks (N.set l true) = marks N + 1 := by
  unfold marks
  have : N[l] = false := by
    simpa [nul, List.getD_eq_getElem?_getD, List.getElem?_eq_getElem hl] using h
  rw [List.count_set hl]
  simp [this]

theorem nullFold (G : CFG) (n : Nat) (hwf : WF G n) (rs : List (Nat × List Nat)) (hrs : ∀ r ∈ rs, r ∈ G.rules)
    (N : List Bool) (d : Bool) (hlen : N.length = n) (hsound : ∀ A, nul N A = true → Null G A) :
    let st := rs.foldl nullRule (N, d)
    st.1.length = n ∧ (∀ A, nul st.1 A = true → Null G A) ∧
    ((st = (N, d) ∧ ∀ r ∈ rs, r.2.all (nul N) = true → nul N r.1 = true) ∨
     (st.2 = false ∧ marks N < marks st.1)) := by
  induction rs generalizing N d with
  | nil => exact ⟨hlen, hsound, Or.inl ⟨rfl, by simp⟩⟩
  | cons r rs ih =>
    simp only [List.foldl_cons]
    have hr : (r.1, r.2) ∈ G.rules := hrs r (by simp)
    have hlt := (hwf.mem hr).2.1
    have hrs' : ∀ r ∈ rs, r ∈ G.rules := fun r h => hrs r (by simp [h])
    by_cases h1 : r.2.all (nul N) = true
    · by_cases h2 : nul N r.1 = true
      · have e : nullRule (N, d) r = (N, d) := by simp [nullRule, h2]
        rw [e]
        obtain ⟨a, b, c⟩ := ih hrs' N d hlen hsound
        refine ⟨a, b, ?_⟩
        rcases c with ⟨c1, c2⟩ | c
        · refine Or.inl ⟨c1, ?_⟩
          intro r' hr'
          rcases List.mem_cons.mp hr' with rfl | hr'
          · intro _; exact h2
          · exact c2 r' hr'
        · exact Or.inr c
      · have h2' : nul N r.1 = false := by simpa using h2
        have e : nullRule (N, d) r = (N.set r.1 true, false) := by
          simp only [nullRule, h1, h2']; simp
        rw [e]
        have hs' : ∀ A, nul (N.set r.1 true) A = true → Null G A := by
          intro A hA
          rw [nul_set N _ _ (by omega)] at hA
          simp only [Bool.or_eq_true, decide_eq_true_eq] at hA
          rcases hA with hA | rfl
          · exact hsound A hA
          · refine .mk hr fun X hX => hsound X ?_
            exact List.all_eq_true.mp h1 X hX
        obtain ⟨a, b, c⟩ := ih hrs' (N.set r.1 true) false (by simpa using hlen) hs'
        refine ⟨a, b, Or.inr ?_⟩
        have hm := marks_set N r.1 (by omega) h2'
        rcases c with ⟨c1, _⟩ | ⟨c1, c2⟩
        · simp only [c1]; exact ⟨trivial, by omega⟩
        · exact ⟨c1, by omega⟩
    · have e : nullRule (N, d) r = (N, d) := by
        simp only [nullRule, h1]; simp
      rw [e]
      obtain ⟨a, b, c⟩ := ih hrs' N d hlen hsound
      refine ⟨a, b, ?_⟩
      rcases c with ⟨c1, c2⟩ | c
      · refine Or.inl ⟨c1, ?_⟩
        intro r' hr'
        rcases List.mem_cons.mp hr' with rfl | hr'
        · intro h; exact absurd h h1
        · exact c2 r' hr'
      · exact Or.inr c

theorem marks_le (N : List Bool) : marks N ≤ N.length := List.count_le_length

theorem nullLoop_spec (g : Gram) (G : CFG) (n : Nat) (hp : Packs g G) (hwf : WF G n) (fuel : Nat)
    (N : List Bool) (hlen : N.length = n) (hsound : ∀ A, nul N A = true → Null G A)
    (hf : n < fuel + marks N) :
    ∃ N', nullLoop g fuel N = some N' ∧ N'.length = n ∧ ∀ A, nul N' A = true ↔ Null G A := by
  induction fuel generalizing N with
  | zero => have := marks_le N; omega
  | succ fuel ih =>
    have hpass : nullPass g (g.ritem.drop 1) true (N, true) = G.rules.foldl nullRule (N, true) := by
      rw [hp.flat]
      simp only [List.drop_succ_cons, List.drop_zero]
      apply nullPass_blocks g
      · intro k A α hk
        have := hp.lhs k A α hk
        rwa [Nat.add_comm]
      · omega
    obtain ⟨a, b, c⟩ := nullFold G n hwf G.rules (fun r h => h) N true hlen hsound
    unfold nullLoop
    simp only [hpass]
    rcases c with ⟨c1, c2⟩ | ⟨c1, c2⟩
    · rw [c1]
      refine ⟨N, by simp, hlen, fun A => ⟨hsound A, ?_⟩⟩
      intro hA
      induction hA with
      | @mk A α hr hα ihA =>
        exact c2 (A, α) hr (List.all_eq_true.mpr fun X hX => ihA X hX)
    · rw [c1]
      simp only [Bool.false_eq_true, if_false]
      exact ih _ a b (by omega)

theorem setNullable_spec (g : Gram) (G : CFG) (hp : Packs g G) (hwf : WF G g.nsyms) :
    ∃ N, setNullable g = some N ∧ N.length = g.nsyms ∧ ∀ A, nul N A = true ↔ Null G A := by
  apply nullLoop_spec g G g.nsyms hp hwf
  · simp
  · intro A hA
    simp only [nul, List.getD_eq_getElem?_getD, List.getElem?_replicate] at hA
    split at hA <;> simp at hA
  · omega

end Verif.Byacc
