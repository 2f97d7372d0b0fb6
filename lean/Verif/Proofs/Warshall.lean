import Verif.Byacc.Warshall
import Verif.Proofs.Bits
import Mathlib.Logic.Relation
import Mathlib.Data.Nat.Basic
namespace Verif.Byacc

/-- A well-formed `n`-row matrix whose rows have `w` words. -/
def MatOK (R : List (List Word)) (n w : Nat) : Prop :=
  R.length = n ∧ ∀ i, i < n → (row R i).length = w

theorem row_set_self (R : List (List Word)) (j : Nat) (x : List Word) (h : j < R.length) :
    row (R.set j x) j = x := by
  simp [row, List.getD_eq_getElem?_getD, List.getElem?_set_self h]

theorem row_set_ne (R : List (List Word)) (j i : Nat) (x : List Word) (h : i ≠ j) :
    row (R.set j x) i = row R i := by
  simp only [row, List.getD_eq_getElem?_getD]
  rw [List.getElem?_set_ne (by omega)]

theorem warshallInner_spec {R : List (List Word)} {n w k : Nat} (h : MatOK R n w) (hk : k < n) :
    MatOK (warshallInner n k (k/64) (k%64) R) n w ∧
    ∀ i, i < n → ∀ m, BIT (row (warshallInner n k (k/64) (k%64) R) i) m =
      (BIT (row R i) m || (BIT (row R i) k && BIT (row R k) m)) := by
  have key := loop_inv (n := n) (s := R)
    (f := fun R j =>
      if rdw (row R j) (k/64) &&& (1#64 <<< (k%64)) != 0#64 then
        R.set j (orRow (row R j) (row R k)) else R)
    (fun p T => MatOK T n w ∧ ∀ i, i < n → ∀ m, BIT (row T i) m =
      if i < p then (BIT (row R i) m || (BIT (row R i) k && BIT (row R k) m))
      else BIT (row R i) m)
    ⟨h, by simp⟩ ?_
  · refine ⟨key.1, ?_⟩
    intro i hi m
    have := key.2 i hi m
    rw [if_pos hi] at this
    exact this
  · intro p T hp ⟨hT, hb⟩
    have hm64 : k % 64 < 64 := Nat.mod_lt _ (by decide)
    have htest : (rdw (row T p) (k/64) &&& (1#64 <<< (k%64)) != 0#64) = BIT (row R p) k := by
      rw [and_shift_ne_zero _ _ hm64, ← BIT_eq, hb p hp k]; simp
    simp only [htest]
    have hkrow : ∀ m, BIT (row T k) m = BIT (row R k) m := by
      intro m
      rw [hb k hk m]
      split
      · cases BIT (row R k) m <;> simp
      · rfl
    by_cases ht : BIT (row R p) k = true
    · rw [if_pos ht]
      have hlen : (row T p).length = (row T k).length := by rw [hT.2 p hp, hT.2 k hk]
      constructor
      · refine ⟨by rw [List.length_set]; exact hT.1, ?_⟩
        intro i hi
        by_cases hip : i = p
        · subst hip
          rw [row_set_self _ _ _ (by rw [hT.1]; exact hi), orRow_length _ _ hlen, hT.2 i hi]
        · rw [row_set_ne _ _ _ _ hip, hT.2 i hi]
      · intro i hi m
        by_cases hip : i = p
        · subst hip
          rw [row_set_self _ _ _ (by rw [hT.1]; exact hi), BIT_orRow _ _ hlen, hb i hi m, hkrow m]
          simp [ht]
        · rw [row_set_ne _ _ _ _ hip, hb i hi m]
          have : (i < p + 1) ↔ (i < p) := by omega
          simp only [this]
    · rw [if_neg ht]
      refine ⟨hT, ?_⟩
      intro i hi m
      rw [hb i hi m]
      by_cases hip : i = p
      · subst hip; simp at ht; simp [ht]
      · have : (i < p + 1) ↔ (i < p) := by omega
        simp only [this]

/-- reach with intermediate nodes below `k` -/
def W (r : Nat → Nat → Bool) : Nat → Nat → Nat → Bool
  | 0, i, j => r i j
  | k+1, i, j => W r k i j || (W r k i k && W r k k j)

theorem bumpCol_eq (k : Nat) : bumpCol (k/64, k%64) = ((k+1)/64, (k+1)%64) := by
  unfold bumpCol
  have h64 : k % 64 < 64 := Nat.mod_lt _ (by decide)
  simp only
  split
  · ext <;> simp <;> omega
  · ext <;> simp <;> omega

theorem transitiveClosure_W {R : List (List Word)} {n w : Nat} (h : MatOK R n w) :
    MatOK (transitiveClosure R n) n w ∧
    ∀ i, i < n → ∀ m, BIT (row (transitiveClosure R n) i) m =
      W (fun i j => BIT (row R i) j) n i m := by
  have key := loop_inv (n := n) (s := ((R, (0,0)) : List (List Word) × (Nat × Nat)))
    (f := fun (s : List (List Word) × (Nat × Nat)) k =>
      (warshallInner n k s.2.1 s.2.2 s.1, bumpCol s.2))
    (fun p s => MatOK s.1 n w ∧ s.2 = (p/64, p%64) ∧
      ∀ i, i < n → ∀ m, BIT (row s.1 i) m = W (fun i j => BIT (row R i) j) p i m)
    ⟨h, by simp, by intros; rfl⟩ ?_
  · exact ⟨key.1, key.2.2⟩
  · rintro p ⟨T, c⟩ hp ⟨hT, hc, hb⟩
    simp only at hT hc hb
    subst hc
    have := warshallInner_spec hT hp
    refine ⟨this.1, bumpCol_eq p, ?_⟩
    intro i hi m
    rw [this.2 i hi m, hb i hi m, hb i hi p, hb p hp m]
    rfl

theorem W_mono {r : Nat → Nat → Bool} {k : Nat} {i j : Nat} (h : W r k i j = true) :
    W r (k+1) i j = true := by simp [W, h]

theorem W_of_r {r : Nat → Nat → Bool} {i j : Nat} (h : r i j = true) (k : Nat) :
    W r k i j = true := by
  induction k with
  | zero => exact h
  | succ k ih => exact W_mono ih

theorem W_trans {r : Nat → Nat → Bool} (k : Nat) : ∀ {i m j : Nat}, m < k →
    W r k i m = true → W r k m j = true → W r k i j = true := by
  induction k with
  | zero => intro i m j h; omega
  | succ k ih =>
    intro i m j hm h1 h2
    by_cases hmk : m = k
    · subst hmk
      have a : W r m i m = true := by simp [W] at h1; grind
      have b : W r m m j = true := by simp [W] at h2; grind
      simp [W, a, b]
    · have hm' : m < k := by omega
      simp only [W, Bool.or_eq_true, Bool.and_eq_true] at h1 h2 ⊢
      rcases h1 with h1 | ⟨h1, h1'⟩ <;> rcases h2 with h2 | ⟨h2, h2'⟩
      · exact Or.inl (ih hm' h1 h2)
      · exact Or.inr ⟨ih hm' h1 h2, h2'⟩
      · exact Or.inr ⟨h1, ih hm' h1' h2⟩
      · exact Or.inr ⟨h1, h2'⟩

theorem W_sound {r : Nat → Nat → Bool} (n : Nat) (k : Nat) (hk : k ≤ n) : ∀ {i j : Nat}, i < n → j < n →
    W r k i j = true → Relation.TransGen (fun a b => a < n ∧ b < n ∧ r a b = true) i j := by
  induction k with
  | zero => intro i j hi hj h; exact .single ⟨hi, hj, h⟩
  | succ k ih =>
    intro i j hi hj h
    simp only [W, Bool.or_eq_true, Bool.and_eq_true] at h
    rcases h with h | ⟨h1, h2⟩
    · exact ih (by omega) hi hj h
    · exact (ih (by omega) hi (by omega) h1).trans (ih (by omega) (by omega) hj h2)

theorem W_iff {r : Nat → Nat → Bool} {n i j : Nat} (hi : i < n) (hj : j < n) :
    W r n i j = true ↔ Relation.TransGen (fun a b => a < n ∧ b < n ∧ r a b = true) i j := by
  constructor
  · exact W_sound n n le_rfl hi hj
  · intro h
    clear hj
    induction h with
    | single h => exact W_of_r h.2.2 n
    | tail _ h ih => exact W_trans n h.1 ih (W_of_r h.2.2 n)

theorem W_bounded {r : Nat → Nat → Bool} {n : Nat} (h : ∀ i j, i < n → n ≤ j → r i j = false)
    (k : Nat) (hk : k ≤ n) {i j : Nat} (hi : i < n) (hj : n ≤ j) : W r k i j = false := by
  induction k generalizing i with
  | zero => exact h i j hi hj
  | succ k ih =>
    simp [W, ih (by omega) hi, ih (by omega) (i := k) (by omega)]

theorem reflexiveTransitiveClosure_bits {R : List (List Word)} {n : Nat}
    (h : MatOK R n (wordsize n)) :
    MatOK (reflexiveTransitiveClosure R n) n (wordsize n) ∧
    ∀ i, i < n → ∀ m, BIT (row (reflexiveTransitiveClosure R n) i) m =
      (BIT (row (transitiveClosure R n) i) m || decide (i = m)) := by
  obtain ⟨hT, -⟩ := transitiveClosure_W h
  have key := loop_inv (n := n)
    (s := ((transitiveClosure R n, (0,0)) : List (List Word) × (Nat × Nat)))
    (f := fun (s : List (List Word) × (Nat × Nat)) k =>
      (s.1.set k ((row s.1 k).set s.2.1 (rdw (row s.1 k) s.2.1 ||| (1#64 <<< s.2.2))),
       bumpCol s.2))
    (fun p s => MatOK s.1 n (wordsize n) ∧ s.2 = (p/64, p%64) ∧
      ∀ i, i < n → ∀ m, BIT (row s.1 i) m =
        (BIT (row (transitiveClosure R n) i) m || decide (i < p ∧ i = m)))
    ⟨hT, by simp, by simp⟩ ?_
  · refine ⟨key.1, fun i hi m => ?_⟩
    have := key.2.2 i hi m
    simp only [hi, true_and] at this
    exact this
  · rintro p ⟨T, c⟩ hp ⟨hTo, hc, hb⟩
    simp only at hTo hc hb
    subst hc
    have hlt : p / 64 < (row T p).length := by rw [hTo.2 p hp]; exact wordsize_lt hp
    refine ⟨⟨by simp [hTo.1], ?_⟩, bumpCol_eq p, ?_⟩
    · intro i hi
      by_cases hip : i = p
      · subst hip
        simp only
        rw [row_set_self _ _ _ (by rw [hTo.1]; exact hi), List.length_set, hTo.2 i hi]
      · simp only
        rw [row_set_ne _ _ _ _ hip, hTo.2 i hi]
    · intro i hi m
      by_cases hip : i = p
      · subst hip
        simp only
        rw [row_set_self _ _ _ (by rw [hTo.1]; exact hi),
          BIT_setword _ _ _ _ hlt (Nat.mod_lt _ (by decide)), hb i hi m, Nat.div_add_mod]
        simp; congr 1; rw [Bool.eq_iff_iff]; simp; exact eq_comm
      · simp only
        rw [row_set_ne _ _ _ _ hip, hb i hi m]
        congr 1; rw [Bool.eq_iff_iff]; simp; omega

end Verif.Byacc
