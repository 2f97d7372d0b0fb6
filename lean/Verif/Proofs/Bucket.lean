import Verif.Proofs.Loop
import Mathlib.Data.List.Basic
set_option autoImplicit false
/-
Counting sort: counts, running sums and the filling loop, for a list of pairs with keys.
-/
namespace Verif

/-- running sum of `c 0 .. c (i-1)` -/
def base (c : Nat → Nat) : Nat → Nat
  | 0 => 0
  | i+1 => base c i + c i

theorem base_mono {c : Nat → Nat} {i j : Nat} (h : i ≤ j) : base c i ≤ base c j := by
  induction j with
  | zero => have : i = 0 := by omega
            subst this; exact Nat.le_refl _
  | succ j ih =>
    rcases Nat.lt_or_ge j i with h' | h'
    · have : i = j + 1 := by omega
      subst this; exact Nat.le_refl _
    · have := ih h'; simp only [base]; omega

theorem base_congr {c c' : Nat → Nat} (n : Nat) (h : ∀ i, i < n → c i = c' i) : base c n = base c' n := by
  induction n with
  | zero => rfl
  | succ n ih => simp only [base]; rw [ih (fun i hi => h i (by omega)), h n (by omega)]

/-- every index below the total lies in exactly one bucket -/
theorem base_split {c : Nat → Nat} (n i : Nat) (h : i < base c n) :
    ∃ v k, v < n ∧ k < c v ∧ i = base c v + k := by
  induction n with
  | zero => simp [base] at h
  | succ n ih =>
    simp only [base] at h
    rcases Nat.lt_or_ge i (base c n) with h' | h'
    · obtain ⟨v, k, h1, h2, h3⟩ := ih h'
      exact ⟨v, k, by omega, h2, h3⟩
    · exact ⟨n, i - base c n, by omega, by omega, by omega⟩

theorem base_inj {c : Nat → Nat} {v k v' k' : Nat} (hk : k < c v) (hk' : k' < c v')
    (h : base c v + k = base c v' + k') : v = v' ∧ k = k' := by
  rcases Nat.lt_trichotomy v v' with hv | hv | hv
  · have : base c (v+1) ≤ base c v' := base_mono hv
    simp only [base] at this; omega
  · subst hv; exact ⟨rfl, by omega⟩
  · have : base c (v'+1) ≤ base c v := base_mono hv
    simp only [base] at this; omega

variable {α : Type} (key : α → Nat)

/-- number of elements with key `v` -/
def kcount (T : List α) (v : Nat) : Nat := (T.filter (fun p => key p == v)).length

theorem kcount_snoc (T : List α) (p : α) (v : Nat) :
    kcount key (T ++ [p]) v = kcount key T v + if key p = v then 1 else 0 := by
  unfold kcount
  rw [List.filter_append, List.length_append]
  by_cases h : key p = v <;> simp [List.filter_cons, h]

theorem kcount_prefix_le {T pre post : List α} (h : T = pre ++ post) (v : Nat) :
    kcount key pre v ≤ kcount key T v := by
  subst h; unfold kcount; rw [List.filter_append, List.length_append]; omega

theorem base_kcount (n : Nat) (T : List α) (h : ∀ p ∈ T, key p < n) : base (kcount key T) n = T.length := by
  induction T with
  | nil =>
    have : ∀ n, base (kcount key ([] : List α)) n = 0 := by
      intro n
      induction n with
      | zero => rfl
      | succ n ih => simp [base, ih, kcount]
    simpa using this n
  | cons p T ih =>
    have ih := ih (fun q hq => h q (by simp [hq]))
    have hp := h p (by simp)
    have gen : ∀ m, base (kcount key (p :: T)) m = base (kcount key T) m + if key p < m then 1 else 0 := by
      intro m
      induction m with
      | zero => rfl
      | succ m ihm =>
        simp only [base]
        rw [ihm]
        have : kcount key (p :: T) m = kcount key T m + if key p = m then 1 else 0 := by
          unfold kcount
          by_cases h : key p = m <;> simp [List.filter_cons, h]
        rw [this]
        by_cases h1 : key p < m
        · rw [if_pos h1, if_neg (by omega), if_pos (by omega)]; omega
        · by_cases h2 : key p = m
          · rw [if_neg h1, if_pos h2, if_pos (by omega)]; omega
          · rw [if_neg h1, if_neg h2, if_neg (by omega)]; omega
    rw [gen, ih, if_pos hp]; simp

/-- counting loop -/
theorem count_loop (T : List α) (n : Nat) (h : ∀ p ∈ T, key p < n) :
    let out := T.foldl (fun cnt p => cnt.set (key p) (cnt.getD (key p) 0 + 1)) (List.replicate n 0)
    out.length = n ∧ ∀ v, out.getD v 0 = kcount key T v := by
  have := foldl_inv T (s := List.replicate n 0)
    (f := fun cnt p => cnt.set (key p) (cnt.getD (key p) 0 + 1))
    (fun pre cnt => cnt.length = n ∧ ∀ v, cnt.getD v 0 = kcount key pre v)
    ⟨by simp, by
      intro v
      simp only [kcount, List.filter_nil, List.length_nil, List.getD_eq_getElem?_getD]
      rcases Nat.lt_or_ge v n with h | h
      · simp [h]
      · rw [List.getElem?_eq_none (by simpa using h)]; rfl⟩ ?_
  · exact this
  · intro pre p post cnt hT ⟨h1, h2⟩
    refine ⟨by simpa using h1, fun v => ?_⟩
    have hp := h p (by simp [hT])
    rw [kcount_snoc, ← h2 v]
    simp only [List.getD_eq_getElem?_getD] at *
    by_cases e : key p = v
    · subst e
      rw [List.getElem?_set_self (by omega)]; simp
    · rw [List.getElem?_set_ne e]; simp [e]

/-- running sums -/
theorem sums_loop (m : Nat) (cnt : List Nat) (N : Nat) (hN : m ≤ N) :
    let st := loop m (fun (st : List Nat × Nat) i => (st.1.set i st.2, st.2 + cnt.getD i 0)) (List.replicate N 0, 0)
    st.1.length = N ∧ st.2 = base (fun v => cnt.getD v 0) m ∧
    ∀ v, v < m → st.1.getD v 0 = base (fun v => cnt.getD v 0) v := by
  have := loop_inv (n := m) (s := (List.replicate N 0, 0))
    (f := fun (st : List Nat × Nat) i => (st.1.set i st.2, st.2 + cnt.getD i 0))
    (fun k st => st.1.length = N ∧ st.2 = base (fun v => cnt.getD v 0) k ∧
      ∀ v, v < k → st.1.getD v 0 = base (fun v => cnt.getD v 0) v)
    ⟨by simp, rfl, by intro v hv; omega⟩ ?_
  · exact this
  · rintro k ⟨l, s⟩ hk ⟨h1, h2, h3⟩
    simp only at h1 h2 h3 ⊢
    refine ⟨by simpa using h1, by simp only [base]; rw [h2], ?_⟩
    intro v hv
    simp only [List.getD_eq_getElem?_getD] at *
    by_cases e : v = k
    · subst e; rw [List.getElem?_set_self (by omega)]; simpa using h2
    · rw [List.getElem?_set_ne (by omega)]; exact h3 v (by omega)

/-- filling loop, writing two projections of the elements -/
theorem fill_loop (T : List α) (n : Nat) (h : ∀ p ∈ T, key p < n) (f₁ f₂ : α → Nat) (temp : List Nat)
    (hl : n ≤ temp.length) (ht : ∀ v, v < n → temp.getD v 0 = base (kcount key T) v) :
    let out := T.foldl (fun (st : List Nat × List Nat × List Nat) p =>
      (st.1.set (key p) (st.1.getD (key p) 0 + 1), st.2.1.set (st.1.getD (key p) 0) (f₁ p),
        st.2.2.set (st.1.getD (key p) 0) (f₂ p)))
      (temp, List.replicate T.length 0, List.replicate T.length 0)
    out.2.1.length = T.length ∧ out.2.2.length = T.length ∧
    ∀ v k p, v < n → (T.filter (fun p => key p == v))[k]? = some p →
      out.2.1[base (kcount key T) v + k]? = some (f₁ p) ∧
      out.2.2[base (kcount key T) v + k]? = some (f₂ p) := by
  have := foldl_inv T (s := (temp, List.replicate T.length 0, List.replicate T.length 0))
    (f := fun (st : List Nat × List Nat × List Nat) p =>
      (st.1.set (key p) (st.1.getD (key p) 0 + 1), st.2.1.set (st.1.getD (key p) 0) (f₁ p),
        st.2.2.set (st.1.getD (key p) 0) (f₂ p)))
    (fun pre st => st.1.length = temp.length ∧ st.2.1.length = T.length ∧ st.2.2.length = T.length ∧
      (∀ v, v < n → st.1.getD v 0 = base (kcount key T) v + kcount key pre v) ∧
      ∀ v k p, v < n → (pre.filter (fun p => key p == v))[k]? = some p →
        st.2.1[base (kcount key T) v + k]? = some (f₁ p) ∧
        st.2.2[base (kcount key T) v + k]? = some (f₂ p))
    ⟨rfl, by simp, by simp, by intro v hv; simpa [kcount] using ht v hv, by simp⟩ ?_
  · exact ⟨this.2.1, this.2.2.1, this.2.2.2.2⟩
  · rintro pre p post ⟨tmp, a1, a2⟩ hT ⟨h1, h2, h3, h4, h5⟩
    simp only at h1 h2 h3 h4 h5 ⊢
    have hp := h p (by simp [hT])
    have hk : tmp.getD (key p) 0 = base (kcount key T) (key p) + kcount key pre (key p) := h4 _ hp
    have hcnt : kcount key pre (key p) < kcount key T (key p) := by
      have := kcount_prefix_le key (T := T) (pre := pre ++ [p]) (post := post) (by simp [hT]) (key p)
      rw [kcount_snoc, if_pos rfl] at this
      omega
    have htot : base (kcount key T) n = T.length := base_kcount key n T h
    have hlt : tmp.getD (key p) 0 < T.length := by
      have : base (kcount key T) (key p + 1) ≤ base (kcount key T) n := base_mono hp
      simp only [base] at this
      omega
    refine ⟨by simpa using h1, by simpa using h2, by simpa using h3, ?_, ?_⟩
    · intro v hv
      rw [kcount_snoc]
      have := h4 v hv
      simp only [List.getD_eq_getElem?_getD] at *
      by_cases e : key p = v
      · subst e
        rw [List.getElem?_set_self (by omega), if_pos rfl]; simp; omega
      · rw [List.getElem?_set_ne e, if_neg e]; simpa using this
    · intro v k q hv hq
      rw [List.filter_append] at hq
      have hlenf : (pre.filter (fun p => key p == v)).length = kcount key pre v := rfl
      rcases Nat.lt_or_ge k (kcount key pre v) with hkl | hkl
      · rw [List.getElem?_append_left (by rw [hlenf]; exact hkl)] at hq
        obtain ⟨o1, o2⟩ := h5 v k q hv hq
        have hne : tmp.getD (key p) 0 ≠ base (kcount key T) v + k := by
          rw [hk]
          intro e
          have hkT : k < kcount key T v := by
            have := kcount_prefix_le key (T := T) (pre := pre) (post := p :: post) hT v
            omega
          obtain ⟨e1, e2⟩ := base_inj hcnt hkT e
          subst e1; omega
        rw [List.getElem?_set_ne hne, List.getElem?_set_ne hne]
        exact ⟨o1, o2⟩
      · rw [List.getElem?_append_right (by rw [hlenf]; exact hkl), hlenf] at hq
        by_cases e : key p = v
        · subst e
          simp only [List.filter_cons, beq_self_eq_true, if_true, List.filter_nil] at hq
          have hz : k - kcount key pre (key p) = 0 := by
            by_contra hc
            rw [List.getElem?_eq_none (by simp; omega)] at hq
            simp at hq
          rw [hz] at hq
          simp only [List.getElem?_cons_zero, Option.some.injEq] at hq
          subst hq
          have hke : k = kcount key pre (key p) := by omega
          subst hke
          rw [← hk]
          rw [List.getElem?_set_self (by omega), List.getElem?_set_self (by omega)]
          exact ⟨rfl, rfl⟩
        · simp [List.filter_cons, e] at hq

end Verif
