import Verif.Lemon.Msort
import Mathlib.Data.List.Perm.Basic
import Mathlib.Data.List.Sort
import Mathlib.Tactic.Ring
set_option autoImplicit false
namespace Verif.Lemon

variable {α : Type}

/-! ### merging -/

theorem merge_nil_right (cmp : α → α → Int) : ∀ a, merge cmp a [] = a
  | [] => rfl
  | x :: a => by simp only [merge, mergeInto, merge_nil_right cmp a]

theorem merge_cons_cons (cmp : α → α → Int) (x y : α) (a b : List α) : merge cmp (x :: a) (y :: b) =
    if cmp x y ≤ 0 then x :: merge cmp a (y :: b) else y :: merge cmp (x :: a) b := by
  simp only [merge, mergeInto, decide_eq_true_eq]

theorem ruleMerge_nil_right (key : α → Int) : ∀ a, ruleMerge key a [] = a
  | [] => rfl
  | x :: a => by simp only [ruleMerge, mergeInto, ruleMerge_nil_right key a]

theorem ruleMerge_cons_cons (key : α → Int) (x y : α) (a b : List α) : ruleMerge key (x :: a) (y :: b) =
    if key x < key y then x :: ruleMerge key a (y :: b) else y :: ruleMerge key (x :: a) b := by
  simp only [ruleMerge, mergeInto, decide_eq_true_eq]

theorem merge_perm (cmp : α → α → Int) : ∀ a b, (merge cmp a b).Perm (a ++ b)
  | [], b => by simp [merge]
  | x :: a, [] => by simp [merge_nil_right]
  | x :: a, y :: b => by
    rw [merge_cons_cons]
    split
    · exact (merge_perm cmp a (y :: b)).cons x
    · refine ((merge_perm cmp (x :: a) b).cons y).trans ?_
      exact (List.perm_middle (l₁ := x :: a) (l₂ := b) (a := y)).symm

theorem ruleMerge_perm (key : α → Int) : ∀ a b, (ruleMerge key a b).Perm (a ++ b)
  | [], b => by simp [ruleMerge]
  | x :: a, [] => by simp [ruleMerge_nil_right]
  | x :: a, y :: b => by
    rw [ruleMerge_cons_cons]
    split
    · exact (ruleMerge_perm key a (y :: b)).cons x
    · refine ((ruleMerge_perm key (x :: a) b).cons y).trans ?_
      exact (List.perm_middle (l₁ := x :: a) (l₂ := b) (a := y)).symm

theorem merge_sorted {cmp : α → α → Int} (tot : ∀ x y, cmp x y ≤ 0 ∨ cmp y x ≤ 0)
    (tr : ∀ x y z, cmp x y ≤ 0 → cmp y z ≤ 0 → cmp x z ≤ 0) : ∀ a b : List α,
    a.Pairwise (fun x y => cmp x y ≤ 0) → b.Pairwise (fun x y => cmp x y ≤ 0) →
    (merge cmp a b).Pairwise (fun x y => cmp x y ≤ 0)
  | [], b => by simp [merge]
  | x :: a, [] => by simp [merge_nil_right]
  | x :: a, y :: b => by
    intro ha hb
    have ha' := List.pairwise_cons.mp ha
    have hb' := List.pairwise_cons.mp hb
    rw [merge_cons_cons]
    split
    · rename_i h
      refine List.pairwise_cons.mpr ⟨fun z hz => ?_, merge_sorted tot tr a (y :: b) ha'.2 hb⟩
      rcases List.mem_append.mp ((merge_perm cmp a (y :: b)).mem_iff.mp hz) with h' | h'
      · exact ha'.1 z h'
      · rcases List.mem_cons.mp h' with rfl | h'
        · exact h
        · exact tr _ _ _ h (hb'.1 z h')
    · rename_i h
      have hyx : cmp y x ≤ 0 := (tot x y).resolve_left h
      refine List.pairwise_cons.mpr ⟨fun z hz => ?_, merge_sorted tot tr (x :: a) b ha hb'.2⟩
      rcases List.mem_append.mp ((merge_perm cmp (x :: a) b).mem_iff.mp hz) with h' | h'
      · rcases List.mem_cons.mp h' with rfl | h'
        · exact hyx
        · exact tr _ _ _ hyx (ha'.1 z h')
      · exact hb'.1 z h'

theorem ruleMerge_sorted {key : α → Int} : ∀ a b : List α,
    a.Pairwise (fun x y => key x ≤ key y) → b.Pairwise (fun x y => key x ≤ key y) →
    (ruleMerge key a b).Pairwise (fun x y => key x ≤ key y)
  | [], b => by simp [ruleMerge]
  | x :: a, [] => by simp [ruleMerge_nil_right]
  | x :: a, y :: b => by
    intro ha hb
    have ha' := List.pairwise_cons.mp ha
    have hb' := List.pairwise_cons.mp hb
    rw [ruleMerge_cons_cons]
    split
    · rename_i h
      refine List.pairwise_cons.mpr ⟨fun z hz => ?_, ruleMerge_sorted a (y :: b) ha'.2 hb⟩
      rcases List.mem_append.mp ((ruleMerge_perm key a (y :: b)).mem_iff.mp hz) with h' | h'
      · exact ha'.1 z h'
      · rcases List.mem_cons.mp h' with rfl | h'
        · exact le_of_lt h
        · exact (le_of_lt h).trans (hb'.1 z h')
    · rename_i h
      have hyx : key y ≤ key x := not_lt.mp h
      refine List.pairwise_cons.mpr ⟨fun z hz => ?_, ruleMerge_sorted (x :: a) b ha hb'.2⟩
      rcases List.mem_append.mp ((ruleMerge_perm key (x :: a) b).mem_iff.mp hz) with h' | h'
      · rcases List.mem_cons.mp h' with rfl | h'
        · exact hyx
        · exact hyx.trans (ha'.1 z h')
      · exact hb'.1 z h'

/-! ### the bins are a binary counter -/

/-- what a merge function has to do -/
structure IsMerge (S : List α → Prop) (m : List α → List α → List α) : Prop where
  perm : ∀ a b, (m a b).Perm (a ++ b)
  sorted : ∀ a b, S a → S b → S (m a b)

/-- bins after distributing `k` elements: bin `i` is empty or holds `2^(i+j)` elements -/
def Bins (S : List α → Prop) : Nat → List (List α) → Prop
  | _, [] => True
  | j, b :: bs => (b = [] ∨ b.length = 2 ^ j) ∧ S b ∧ Bins S (j+1) bs

def total (bs : List (List α)) : Nat := bs.flatten.length

theorem Bins.total_lt {S : List α → Prop} : ∀ (bs : List (List α)) (j : Nat), Bins S j bs →
    total bs + 2 ^ j ≤ 2 ^ (j + bs.length) := by
  intro bs
  induction bs with
  | nil => intro j _; simp [total]
  | cons b bs ih =>
    intro j h
    obtain ⟨h1, h2, h3⟩ := h
    have := ih (j+1) h3
    simp only [total, List.flatten_cons, List.length_append, List.length_cons] at this ⊢
    have e1 : 2 ^ (j+1) = 2 ^ j + 2 ^ j := by ring
    have e2 : j + (bs.length + 1) = j + 1 + bs.length := by omega
    rw [e2]
    have hb : b.length ≤ 2 ^ j := by
      rcases h1 with rfl | h1
      · simp
      · omega
    omega

/-- Adding `2^j` elements: either nothing is lost, or the bins were all full. -/
theorem carry_spec {S : List α → Prop} {m : List α → List α → List α} (hm : IsMerge S m) :
    ∀ (bs : List (List α)) (j : Nat) (ep : List α), bs ≠ [] → Bins S j bs → ep.length = 2 ^ j → S ep →
      S [] →
      total bs + 2 ^ j < 2 ^ (j + bs.length) →
      Bins S j (carry m ep bs) ∧ (carry m ep bs).flatten.Perm (ep ++ bs.flatten) ∧ (carry m ep bs).length = bs.length := by
  intro bs
  induction bs with
  | nil => intro j ep h; exact absurd rfl h
  | cons b bs ih =>
    intro j ep _ hB hl hS h0 ht
    obtain ⟨h1, h2, h3⟩ := hB
    have hpos : 0 < 2 ^ j := Nat.pos_of_ne_zero (by simp)
    cases bs with
    | nil =>
      have hb : b = [] := by
        rcases h1 with h1 | h1
        · exact h1
        · simp only [total, List.flatten_cons, List.flatten_nil, List.append_nil, List.length_singleton] at ht
          have e1 : 2 ^ (j+1) = 2 ^ j + 2 ^ j := by ring
          omega
      subst hb
      simp only [carry]
      exact ⟨⟨Or.inr hl, hS, trivial⟩, by simp, rfl⟩
    | cons c bs =>
      cases b with
      | nil =>
        simp only [carry]
        exact ⟨⟨Or.inr hl, hS, h3⟩, by simp, rfl⟩
      | cons x b =>
        simp only [carry]
        have hbl : (x :: b).length = 2 ^ j := by
          rcases h1 with h1 | h1
          · exact absurd h1 (by simp)
          · exact h1
        have hlen : (m ep (x :: b)).length = 2 ^ (j+1) := by
          rw [(hm.perm ep (x :: b)).length_eq, List.length_append, hl, hbl]; ring
        have ht' : total (c :: bs) + 2 ^ (j+1) < 2 ^ (j + 1 + (c :: bs).length) := by
          have e1 : 2 ^ (j+1) = 2 ^ j + 2 ^ j := by ring
          have e2 : j + 1 + (c :: bs).length = j + ((x :: b) :: c :: bs).length := by simp only [List.length_cons]; omega
          have e3 : total ((x :: b) :: c :: bs) = 2 ^ j + total (c :: bs) := by
            simp only [total, List.flatten_cons, List.length_append, hbl]
          rw [e2]; rw [e3] at ht; omega
        obtain ⟨g1, g2, g3⟩ := ih (j+1) (m ep (x :: b)) (by simp) h3 hlen (hm.sorted _ _ hS h2) h0 ht'
        refine ⟨⟨Or.inl rfl, h0, g1⟩, ?_, by simp [g3]⟩
        rw [List.flatten_cons, List.nil_append]
        refine g2.trans ?_
        rw [List.flatten_cons (l := x :: b)]
        exact ((hm.perm ep (x :: b)).append_right _).trans (by rw [List.append_assoc])

/-- when all bins but the last hold elements and the last one too, its content is lost -/
theorem carry_full {S : List α → Prop} {m : List α → List α → List α} (hm : IsMerge S m) :
    ∀ (bs : List (List α)) (j : Nat) (ep : List α), bs ≠ [] → Bins S j bs → ep.length = 2 ^ j →
      total bs + 2 ^ j = 2 ^ (j + bs.length) →
      total (carry m ep bs) = 2 ^ (j + bs.length - 1) := by
  intro bs
  induction bs with
  | nil => intro j ep h; exact absurd rfl h
  | cons b bs ih =>
    intro j ep _ hB hl ht
    obtain ⟨h1, h2, h3⟩ := hB
    have hpos : 0 < 2 ^ j := Nat.pos_of_ne_zero (by simp)
    have e1 : 2 ^ (j+1) = 2 ^ j + 2 ^ j := by ring
    cases bs with
    | nil => simp [carry, total, hl]
    | cons c bs =>
      have hb := Bins.total_lt _ _ h3
      have e2 : j + 1 + (c :: bs).length = j + (b :: c :: bs).length := by simp only [List.length_cons]; omega
      rw [e2] at hb
      have e3 : total (b :: c :: bs) = b.length + total (c :: bs) := by
        simp only [total, List.flatten_cons, List.length_append]
      have hbl : b.length = 2 ^ j := by
        rcases h1 with rfl | h1
        · simp only [List.length_nil, Nat.zero_add] at e3; omega
        · exact h1
      cases b with
      | nil => simp at hbl; omega
      | cons x b =>
        simp only [carry]
        have hlen : (m ep (x :: b)).length = 2 ^ (j+1) := by
          rw [(hm.perm ep (x :: b)).length_eq, List.length_append, hl, hbl]; ring
        have := ih (j+1) (m ep (x :: b)) (by simp) h3 hlen (by rw [e2]; omega)
        rw [e2] at this
        rw [← this]
        simp [total]

/-! ### distribution of a list -/

theorem bins_init {S : List α → Prop} (h0 : S []) : ∀ (n j : Nat), Bins S j (List.replicate n ([] : List α))
  | 0, _ => trivial
  | n+1, j => ⟨Or.inl rfl, h0, bins_init h0 n (j+1)⟩

theorem distribute {S : List α → Prop} {m : List α → List α → List α} (hm : IsMerge S m) (h0 : S []) (h1 : ∀ x, S [x])
    {n : Nat} (hn : 0 < n) : ∀ (l : List α) (bs : List (List α)), Bins S 0 bs → bs.length = n →
      total bs + l.length < 2 ^ n →
      Bins S 0 (l.foldl (fun set e => carry m [e] set) bs) ∧
      (l.foldl (fun set e => carry m [e] set) bs).flatten.Perm (l ++ bs.flatten) ∧
      (l.foldl (fun set e => carry m [e] set) bs).length = n := by
  intro l
  induction l with
  | nil => intro bs h hl _; exact ⟨h, by simp, hl⟩
  | cons x l ih =>
    intro bs hB hl ht
    rw [List.foldl_cons]
    simp only [List.length_cons] at ht
    obtain ⟨g1, g2, g3⟩ := carry_spec hm bs 0 [x] (by rintro rfl; simp at hl; omega) hB (by simp) (h1 x) h0
      (by rw [Nat.zero_add, hl]; simp; omega)
    obtain ⟨k1, k2, k3⟩ := ih _ g1 (by rw [g3, hl]) (by
      have := g2.length_eq
      simp only [List.length_append, List.length_singleton] at this
      simp only [total] at ht ⊢; omega)
    refine ⟨k1, k2.trans ?_, k3⟩
    refine (List.Perm.append_left l g2).trans ?_
    simp only [List.singleton_append, List.cons_append]
    exact List.perm_middle

theorem join_spec {S : List α → Prop} {j : List α → List α → List α} (hj : IsMerge S fun a b => j b a) :
    ∀ (bs : List (List α)) (ep : List α), S ep → (∀ b ∈ bs, S b) →
      S (bs.foldl j ep) ∧ (bs.foldl j ep).Perm (bs.flatten ++ ep) := by
  intro bs
  induction bs with
  | nil => intro ep h _; exact ⟨h, by simp⟩
  | cons b bs ih =>
    intro ep h hb
    rw [List.foldl_cons]
    obtain ⟨h1, h2⟩ := ih (j ep b) (hj.sorted b ep (hb b (by simp)) h) fun c hc => hb c (by simp [hc])
    refine ⟨h1, h2.trans ?_⟩
    refine (List.Perm.append_left _ (hj.perm b ep)).trans ?_
    rw [List.flatten_cons, ← List.append_assoc]
    exact List.Perm.append_right _ List.perm_append_comm

theorem Bins.all {S : List α → Prop} : ∀ (bs : List (List α)) (j : Nat), Bins S j bs → ∀ b ∈ bs, S b
  | [], _, _ => by simp
  | b :: bs, j, h => by
    intro c hc
    rcases List.mem_cons.mp hc with rfl | hc
    · exact h.2.1
    · exact Bins.all bs (j+1) h.2.2 c hc

theorem isMerge_merge {cmp : α → α → Int} (tot : ∀ x y, cmp x y ≤ 0 ∨ cmp y x ≤ 0)
    (tr : ∀ x y z, cmp x y ≤ 0 → cmp y z ≤ 0 → cmp x z ≤ 0) :
    IsMerge (fun l => l.Pairwise (fun x y => cmp x y ≤ 0)) (merge cmp) :=
  ⟨merge_perm cmp, merge_sorted tot tr⟩

theorem isMerge_any (cmp : α → α → Int) : IsMerge (fun _ => True) (merge cmp) :=
  ⟨merge_perm cmp, fun _ _ _ _ => trivial⟩

theorem isMerge_join {S : List α → Prop} {cmp : α → α → Int} (h : IsMerge S (merge cmp)) :
    IsMerge S fun a b => msortJoin cmp b a := by
  refine ⟨fun a b => ?_, fun a b ha hb => ?_⟩
  · cases a with
    | nil => simp [msortJoin]
    | cons x a => exact h.perm _ _
  · cases a with
    | nil => exact hb
    | cons x a => exact h.sorted _ _ ha hb

theorem isMerge_rule {key : α → Int} :
    IsMerge (fun l => l.Pairwise (fun x y => key x ≤ key y)) (fun rp b => ruleMerge key b rp) :=
  ⟨fun a b => (ruleMerge_perm key b a).trans List.perm_append_comm, fun a b ha hb => ruleMerge_sorted b a hb ha⟩

theorem isMerge_rule' {key : α → Int} :
    IsMerge (fun l => l.Pairwise (fun x y => key x ≤ key y)) (ruleMerge key) :=
  ⟨ruleMerge_perm key, ruleMerge_sorted⟩

theorem msortWith_spec {S : List α → Prop} {cmp : α → α → Int} (hm : IsMerge S (merge cmp)) (h0 : S []) (h1 : ∀ x, S [x])
    {n : Nat} (hn : 0 < n) (l : List α) (hl : l.length < 2 ^ n) :
    (msortWith cmp n l).Perm l ∧ S (msortWith cmp n l) := by
  obtain ⟨g1, g2, g3⟩ := distribute hm h0 h1 hn l (List.replicate n []) (bins_init h0 n 0) (by simp)
    (by simp [total]; exact hl)
  obtain ⟨k1, k2⟩ := join_spec (isMerge_join hm) (msortBins cmp n l) [] h0 (Bins.all _ 0 g1)
  refine ⟨k2.trans ?_, k1⟩
  rw [List.append_nil]
  exact g2.trans (by simp)

theorem ruleSortWith_spec (key : α → Int) {n : Nat} (hn : 0 < n) (l : List α) (hl : l.length < 2 ^ n) :
    (ruleSortWith key n l).Perm l ∧ (ruleSortWith key n l).Pairwise (fun x y => key x ≤ key y) := by
  obtain ⟨g1, g2, g3⟩ := distribute (isMerge_rule (key := key)) (by simp) (by simp) hn l (List.replicate n [])
    (bins_init (by simp) n 0) (by simp) (by simp [total]; exact hl)
  obtain ⟨k1, k2⟩ := join_spec (j := fun rp b => ruleMerge key b rp) (isMerge_rule' (key := key))
    (ruleSortBins key n l) [] (by simp) (Bins.all _ 0 g1)
  refine ⟨k2.trans ?_, k1⟩
  rw [List.append_nil]
  exact g2.trans (by simp)

/-- with `2^n` elements and `n` bins half of them are lost -/
theorem msortWith_loses (cmp : α → α → Int) {n : Nat} (hn : 0 < n) (l : List α) (hl : l.length = 2 ^ n) :
    (msortWith cmp n l).length = 2 ^ (n-1) := by
  rcases List.eq_nil_or_concat l with rfl | ⟨l, x, rfl⟩
  · simp at hl; exact absurd hl.symm (by simp)
  rw [List.concat_eq_append] at hl ⊢
  simp only [List.length_append, List.length_singleton] at hl
  obtain ⟨g1, g2, g3⟩ := distribute (isMerge_any cmp) trivial (fun _ => trivial) hn l (List.replicate n [])
    (bins_init trivial n 0) (by simp) (by simp [total]; omega)
  have hb : msortBins cmp n (l ++ [x]) = carry (merge cmp) [x] (msortBins cmp n l) := by
    unfold msortBins; rw [List.foldl_append]; rfl
  have e0 : total (msortBins cmp n l) = l.length := by
    have := g2.length_eq
    simp only [List.length_append] at this
    simp only [total, msortBins]
    rw [this]; simp
  have e : total (msortBins cmp n (l ++ [x])) = 2 ^ (n-1) := by
    rw [hb]
    have := carry_full (isMerge_any cmp) (msortBins cmp n l) 0 [x] (by
      intro h
      have g3' : (msortBins cmp n l).length = n := g3
      rw [h] at g3'; simp at g3'; omega) g1 (by simp)
      (by rw [e0, Nat.zero_add]; erw [g3]; simpa using hl)
    rw [this]; congr 1; rw [Nat.zero_add]; erw [g3]
  obtain ⟨-, k2⟩ := join_spec (isMerge_join (isMerge_any cmp)) (msortBins cmp n (l ++ [x])) [] trivial (fun _ _ => trivial)
  unfold msortWith
  rw [k2.length_eq, List.append_nil]
  exact e

end Verif.Lemon
