import Verif.Byacc.Bits
import Mathlib.Tactic.ByContra
import Mathlib.Order.Basic
namespace Verif.Byacc

theorem and63 (n : Nat) : n &&& (64 - 1) = n % 64 := Nat.and_two_pow_sub_one_eq_mod n 6

theorem and_one_ne_zero (x : Word) : (x &&& 1#64 != 0#64) = x.getLsbD 0 := by
  rw [Bool.eq_iff_iff]
  simp only [bne_iff_ne, ne_eq]
  constructor
  · intro h
    by_contra hc
    apply h
    apply BitVec.eq_of_getLsbD_eq
    intro i hi
    rcases Nat.eq_zero_or_pos i with rfl | hp
    · simp at hc; simp [hc]
    · have : (1#64).getLsbD i = false := by
        simp [BitVec.getLsbD_one]; omega
      simp [this]
  · intro h hc
    have := congrArg (fun y => BitVec.getLsbD y 0) hc
    simp at this h; simp [h] at this

theorem and_shift_ne_zero (x : Word) (i : Nat) (hi : i < 64) :
    (x &&& (1#64 <<< i) != 0#64) = x.getLsbD i := by
  rw [Bool.eq_iff_iff]
  simp only [bne_iff_ne, ne_eq]
  constructor
  · intro h
    by_contra hc
    apply h
    apply BitVec.eq_of_getLsbD_eq
    intro j hj
    by_cases hij : j = i
    · subst hij; simp at hc; simp [hc]
    · simp [BitVec.getLsbD_shiftLeft, BitVec.getLsbD_one]; omega
  · intro h hc
    have := congrArg (fun y => BitVec.getLsbD y i) hc
    rw [BitVec.getLsbD_eq_getElem hi] at h; simp [hi, h] at this

theorem BIT_eq (r : List Word) (n : Nat) : BIT r n = (rdw r (n/64)).getLsbD (n % 64) := by
  unfold BIT
  rw [and_one_ne_zero, and63]
  simp

theorem BIT_zeroRow (w n) : BIT (zeroRow w) n = false := by
  rw [BIT_eq]
  simp only [rdw, zeroRow, List.getD_eq_getElem?_getD, List.getElem?_replicate]
  split <;> simp

theorem wordsize_lt {n i : Nat} (h : i < n) : i / 64 < wordsize n := by
  unfold wordsize; omega

theorem SETBIT_length (r : List Word) (n : Nat) : (SETBIT r n).length = r.length := by
  simp [SETBIT]

theorem BIT_setword (r : List Word) (k i m : Nat) (hk : k < r.length) (hi : i < 64) :
    BIT (r.set k (rdw r k ||| (1#64 <<< i))) m = (BIT r m || decide (m = 64*k + i)) := by
  simp only [BIT_eq]
  by_cases hw : m / 64 = k
  · have hm : m % 64 < 64 := Nat.mod_lt _ (by decide)
    rw [hw]
    simp only [rdw, List.getD_eq_getElem?_getD, List.getElem?_set_self hk, Option.getD_some,
      BitVec.getLsbD_or, BitVec.getLsbD_shiftLeft, BitVec.getLsbD_one]
    congr 1
    rw [Bool.eq_iff_iff]; simp; omega
  · have : ¬ (m = 64*k+i) := by omega
    simp only [rdw, List.getD_eq_getElem?_getD, this, decide_false, Bool.or_false]
    rw [List.getElem?_set_ne (by omega)]

theorem BIT_SETBIT (r : List Word) (n m : Nat) (h : n / 64 < r.length) :
    BIT (SETBIT r n) m = (BIT r m || decide (m = n)) := by
  unfold SETBIT
  rw [and63, BIT_setword r _ _ m h (Nat.mod_lt _ (by decide))]
  have : 64 * (n/64) + n % 64 = n := Nat.div_add_mod n 64
  rw [this]

theorem orRow_length (a b : List Word) (h : a.length = b.length) :
    (orRow a b).length = a.length := by
  simp [orRow, h]

theorem BIT_orRow (a b : List Word) (h : a.length = b.length) (m : Nat) :
    BIT (orRow a b) m = (BIT a m || BIT b m) := by
  simp only [BIT_eq, rdw, orRow, List.getD_eq_getElem?_getD, List.getElem?_zipWith]
  rcases Nat.lt_or_ge (m/64) a.length with hl | hl
  · have hl' : m/64 < b.length := by omega
    simp [List.getElem?_eq_getElem hl, List.getElem?_eq_getElem hl']
  · have hl' : b.length ≤ m/64 := by omega
    simp [List.getElem?_eq_none hl, List.getElem?_eq_none hl']

theorem BIT_oob (r : List Word) (m : Nat) (h : r.length ≤ m / 64) : BIT r m = false := by
  simp [BIT_eq, rdw, List.getD_eq_getElem?_getD, List.getElem?_eq_none h]

end Verif.Byacc
