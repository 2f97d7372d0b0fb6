import Verif.Lemon.States
import Verif.Proofs.LemonSet
import Mathlib.Logic.Relation
/-
The propagation loop of `FindFollowSets`.
-/
set_option autoImplicit false
namespace Verif.Lemon
open Relation

/-- there is a link from `i` to `j` -/
def Linked (links : List (List Nat)) (i j : Nat) : Prop := j ∈ links.getD i []

structure FlowInv (links : List (List Nat)) (sets : List TSet) (n k : Nat) (st : Flow) : Prop where
  fam : Fam n k st.sets
  len : st.done.length = n
  init : ∀ i t, setFind (sets.getD i []) t = true → setFind (st.sets.getD i []) t = true
  sound : ∀ j t, setFind (st.sets.getD j []) t = true →
    ∃ i, ReflTransGen (Linked links) i j ∧ setFind (sets.getD i []) t = true
  done : ∀ i j, st.done.getD i false = true → Linked links i j →
    ∀ t, setFind (st.sets.getD i []) t = true → setFind (st.sets.getD j []) t = true

theorem getD_bset {l : List Bool} {i : Nat} (h : i < l.length) (b : Bool) (j : Nat) :
    (l.set i b).getD j false = if i = j then b else l.getD j false := by
  simp only [List.getD_eq_getElem?_getD, List.getElem?_set]
  split
  · next e => subst e; simp [h]
  · rfl

theorem setUnion_self : ∀ s : TSet, setUnion s s = (s, false) := by
  intro s
  induction s with
  | nil => rfl
  | cons a s ih => cases a <;> simp [setUnion, ih]

section
variable {links : List (List Nat)} {sets : List TSet} {n k : Nat}

theorem flowLink_sets {st : Flow} (i j : Nat) :
    (flowLink i st j).sets = st.sets.set j (setUnion (st.sets.getD j []) (st.sets.getD i [])).1 := by
  unfold flowLink
  simp only
  split <;> rfl

/-- one link: either nothing changes or the flag is set and there are more elements -/
theorem flowLink_cases {st : Flow} {i j : Nat} (hj : j < st.sets.length) :
    flowLink i st j = st ∨ ((flowLink i st j).progress = true ∧ (flowLink i st j).done = st.done.set j false ∧
      bits st.sets < bits (flowLink i st j).sets) := by
  rcases setUnion_cases (a := st.sets.getD j []) (b := st.sets.getD i []) with h | ⟨h1, h2⟩
  · left
    unfold flowLink
    rw [h]
    simp only [Bool.false_eq_true, if_false, set_getD_self]
  · right
    refine ⟨?_, ?_, ?_⟩
    · unfold flowLink; simp only [h1, if_true]
    · unfold flowLink; simp only [h1, if_true]
    · rw [flowLink_sets]; exact bits_set hj h2

theorem flowLink_inv {st : Flow} (h : FlowInv links sets n k st) {i j : Nat} (hi : i < n) (hj : j < n)
    (hij : Linked links i j) : FlowInv links sets n k (flowLink i st j) ∧
      (flowLink i st j).sets.getD i [] = st.sets.getD i [] ∧
      (∀ t, setFind (st.sets.getD i []) t = true → setFind ((flowLink i st j).sets.getD j []) t = true) ∧
      (∀ x t, setFind (st.sets.getD x []) t = true → setFind ((flowLink i st j).sets.getD x []) t = true) := by
  have hj' : j < st.sets.length := by rw [h.fam.1]; exact hj
  have hfind : ∀ x t, setFind ((flowLink i st j).sets.getD x []) t = true ↔
      setFind (st.sets.getD x []) t = true ∨ (x = j ∧ setFind (st.sets.getD i []) t = true) := by
    intro x t
    rw [flowLink_sets]
    exact find_unionAt h.fam hj false (h.fam.get hi) x t
  refine ⟨⟨?_, ?_, ?_, ?_, ?_⟩, ?_, ?_, ?_⟩
  · rw [flowLink_sets]
    exact unionAt_fam h.fam hj false _
  · rcases flowLink_cases (st := st) (i := i) hj' with e | ⟨_, e, _⟩
    · rw [e]; exact h.len
    · rw [e, List.length_set]; exact h.len
  · intro x t hx
    exact (hfind x t).mpr (Or.inl (h.init x t hx))
  · intro x t hx
    rcases (hfind x t).mp hx with hx1 | ⟨rfl, hx1⟩
    · exact h.sound x t hx1
    · obtain ⟨y, hy1, hy2⟩ := h.sound i t hx1
      exact ⟨y, hy1.tail hij, hy2⟩
  · intro a b ha hab t ht
    rcases flowLink_cases (st := st) (i := i) hj' with e | ⟨_, e, _⟩
    · rw [e] at ha ht ⊢; exact h.done a b ha hab t ht
    · rw [e, getD_bset (by rw [h.len]; exact hj)] at ha
      have hne : j ≠ a := by rintro rfl; simp at ha
      rw [if_neg hne] at ha
      rcases (hfind a t).mp ht with ht | ⟨rfl, _⟩
      · exact (hfind b t).mpr (Or.inl (h.done a b ha hab t ht))
      · exact absurd rfl hne
  · rw [flowLink_sets, getD_set hj']
    split
    · next e => subst e; rw [setUnion_self]
    · rfl
  · intro t ht; exact (hfind j t).mpr (Or.inr ⟨rfl, ht⟩)
  · intro x t ht; exact (hfind x t).mpr (Or.inl ht)

/-- What holds between the start of a pass and a later moment. -/
def Passed (st0 st : Flow) : Prop :=
  bits st0.sets ≤ bits st.sets ∧ (st.progress = true → st0.progress = true ∨ bits st0.sets < bits st.sets) ∧
    (st.progress = false → st0.progress = false ∧ st.sets = st0.sets ∧
      ∀ i, st0.done.getD i false = true → st.done.getD i false = true)

theorem Passed.refl (st : Flow) : Passed st st := ⟨Nat.le_refl _, Or.inl, fun h => ⟨h, rfl, fun _ h => h⟩⟩

theorem Passed.trans {a b c : Flow} (h : Passed a b) (h' : Passed b c) : Passed a c := by
  refine ⟨Nat.le_trans h.1 h'.1, ?_, ?_⟩
  · intro hp
    rcases h'.2.1 hp with h2 | h2
    · rcases h.2.1 h2 with h3 | h3
      · exact Or.inl h3
      · exact Or.inr (Nat.lt_of_lt_of_le h3 h'.1)
    · exact Or.inr (Nat.lt_of_le_of_lt h.1 h2)
  · intro hp
    obtain ⟨q1, q2, q3⟩ := h'.2.2 hp
    obtain ⟨r1, r2, r3⟩ := h.2.2 q1
    exact ⟨r1, q2.trans r2, fun i hi => q3 i (r3 i hi)⟩

theorem flowLink_passed {st : Flow} {i j : Nat} (hj : j < st.sets.length) : Passed st (flowLink i st j) := by
  rcases flowLink_cases (st := st) (i := i) hj with e | ⟨e1, e2, e3⟩
  · rw [e]; exact .refl st
  · refine ⟨by omega, fun _ => Or.inr e3, ?_⟩
    intro h; rw [e1] at h; cases h

theorem flowLinks_inv {i : Nat} (hi : i < n) : ∀ (l : List Nat) (st : Flow), (∀ j ∈ l, j < n ∧ Linked links i j) →
    FlowInv links sets n k st →
    FlowInv links sets n k (l.foldl (flowLink i) st) ∧ Passed st (l.foldl (flowLink i) st) ∧
      (l.foldl (flowLink i) st).sets.getD i [] = st.sets.getD i [] ∧
      (∀ x t, setFind (st.sets.getD x []) t = true → setFind ((l.foldl (flowLink i) st).sets.getD x []) t = true) ∧
      (∀ j ∈ l, ∀ t, setFind (st.sets.getD i []) t = true → setFind ((l.foldl (flowLink i) st).sets.getD j []) t = true) := by
  intro l
  induction l with
  | nil => intro st _ h; exact ⟨h, .refl st, rfl, fun _ _ h => h, by simp⟩
  | cons j l ih =>
    intro st hl h
    obtain ⟨hj, hij⟩ := hl j (by simp)
    obtain ⟨a1, a2, a3, a4⟩ := flowLink_inv h hi hj hij
    obtain ⟨b1, b2, b3, b4, b5⟩ := ih (flowLink i st j) (fun x hx => hl x (by simp [hx])) a1
    rw [List.foldl_cons]
    refine ⟨b1, (flowLink_passed (by rw [h.fam.1]; exact hj)).trans b2, b3.trans a2, fun x t hx => b4 x t (a4 x t hx), ?_⟩
    intro x hx t ht
    rcases List.mem_cons.mp hx with rfl | hx
    · exact b4 _ t (a3 t ht)
    · exact b5 x hx t (by rw [a2]; exact ht)

theorem flowCell_inv (hl : ∀ i j, Linked links i j → j < n) {st : Flow} (h : FlowInv links sets n k st) {i : Nat}
    (hi : i < n) : FlowInv links sets n k (flowCell links st i) ∧ Passed st (flowCell links st i) ∧
      (flowCell links st i).done.getD i false = true := by
  unfold flowCell
  split
  · next hd => exact ⟨h, .refl st, hd⟩
  · obtain ⟨b1, b2, b3, b4, b5⟩ := flowLinks_inv (sets := sets) (k := k) hi (links.getD i []) st
      (fun j hj => ⟨hl i j hj, hj⟩) h
    have hlen := b1.len
    have hd : ∀ x, (((links.getD i []).foldl (flowLink i) st).done.set i true).getD x false =
        if i = x then true else ((links.getD i []).foldl (flowLink i) st).done.getD x false :=
      fun x => getD_bset (by rw [hlen]; exact hi) true x
    refine ⟨⟨b1.fam, by rw [List.length_set]; exact hlen, b1.init, b1.sound, ?_⟩, ⟨b2.1, b2.2.1, ?_⟩, ?_⟩
    · intro a b ha hab t ht
      simp only at ha ht ⊢
      rw [hd] at ha
      by_cases e : i = a
      · subst e
        exact b5 b hab t (by rw [← b3]; exact ht)
      · rw [if_neg e] at ha
        exact b1.done a b ha hab t ht
    · intro hp
      obtain ⟨q1, q2, q3⟩ := b2.2.2 hp
      refine ⟨q1, q2, fun x hx => ?_⟩
      simp only
      rw [hd]
      split
      · rfl
      · exact q3 x hx
    · simp only
      rw [hd, if_pos rfl]

theorem flowFold_inv (hl : ∀ i j, Linked links i j → j < n) {st : Flow} (h : FlowInv links sets n k st) :
    ∀ m, m ≤ n → FlowInv links sets n k ((List.range m).foldl (flowCell links) st) ∧
      Passed st ((List.range m).foldl (flowCell links) st) ∧
      (((List.range m).foldl (flowCell links) st).progress = false →
        ∀ i, i < m → ((List.range m).foldl (flowCell links) st).done.getD i false = true) := by
  intro m
  induction m with
  | zero => intro _; exact ⟨h, .refl st, fun _ i hi => by omega⟩
  | succ m ih =>
    intro hm
    obtain ⟨h1, h2, h3⟩ := ih (by omega)
    rw [List.range_succ, List.foldl_append]
    simp only [List.foldl_cons, List.foldl_nil]
    obtain ⟨c1, c2, c3⟩ := flowCell_inv hl h1 (i := m) (by omega)
    refine ⟨c1, h2.trans c2, ?_⟩
    intro hp i hi
    obtain ⟨q1, _, q3⟩ := c2.2.2 hp
    by_cases e : i = m
    · subst e; exact c3
    · exact q3 i (h3 q1 i (by omega))

theorem flow_loop (hl : ∀ i j, Linked links i j → j < n) : ∀ (fuel : Nat) (S : List TSet) (D : List Bool),
    FlowInv links sets n k ⟨S, D, false⟩ → n * k < fuel + bits S →
    ∃ S' D', doWhile (flowPass links) fuel (S, D) = some (S', D') ∧ FlowInv links sets n k ⟨S', D', false⟩ ∧
      ∀ i, i < n → D'.getD i false = true := by
  intro fuel
  induction fuel with
  | zero => intro S D h hb; have := bits_le h.fam; simp only at this; omega
  | succ f ih =>
    intro S D h hb
    have hn : S.length = n := h.fam.1
    obtain ⟨h1, h2, h3⟩ := flowFold_inv hl h n (Nat.le_refl n)
    unfold doWhile
    simp only
    have e1 : flowPass links (S, D) = ((((List.range n).foldl (flowCell links) ⟨S, D, false⟩).sets,
        ((List.range n).foldl (flowCell links) ⟨S, D, false⟩).done),
        ((List.range n).foldl (flowCell links) ⟨S, D, false⟩).progress) := by
      unfold flowPass; simp only [hn]
    rw [e1]
    generalize (List.range n).foldl (flowCell links) ⟨S, D, false⟩ = st at h1 h2 h3
    simp only
    cases hp : st.progress with
    | true =>
      simp only [if_true]
      rcases h2.2.1 hp with h4 | h4
      · simp at h4
      · exact ih _ _ ⟨h1.fam, h1.len, h1.init, h1.sound, h1.done⟩ (by simp only at h4; omega)
    | false =>
      simp only [Bool.false_eq_true, if_false]
      exact ⟨st.sets, st.done, rfl, ⟨h1.fam, h1.len, h1.init, h1.sound, h1.done⟩, h3 hp⟩

theorem sum_lengths {F : List TSet} (h : Fam n k F) : (F.map List.length).sum = n * k := by
  obtain ⟨h1, h2⟩ := h
  subst h1
  induction F with
  | nil => simp
  | cons s F ih =>
    have := ih fun x hx => h2 x (by simp [hx])
    simp only [List.map_cons, List.sum_cons, List.length_cons, this, h2 s (by simp), Nat.add_mul]
    omega

theorem propagate_spec (hf : Fam n k sets) (hl : ∀ i j, Linked links i j → i < n ∧ j < n) :
    ∃ F, propagate links sets = some F ∧ Fam n k F ∧ ∀ j t, setFind (F.getD j []) t = true ↔
      ∃ i, ReflTransGen (Linked links) i j ∧ setFind (sets.getD i []) t = true := by
  have h0 : FlowInv links sets n k ⟨sets, List.replicate sets.length false, false⟩ := by
    refine ⟨hf, by simp [hf.1], fun _ _ h => h, fun j t h => ⟨j, .refl, h⟩, ?_⟩
    intro i j hd
    exfalso
    simp only [List.getD_eq_getElem?_getD, List.getElem?_replicate] at hd
    split at hd <;> simp at hd
  obtain ⟨S, D, h1, h2, h3⟩ := flow_loop (fun i j h => (hl i j h).2) ((sets.map List.length).sum + 1) sets
    (List.replicate sets.length false) h0 (by rw [sum_lengths hf]; omega)
  refine ⟨S, by unfold propagate propagateWith; rw [h1]; rfl, h2.fam, ?_⟩
  intro j t
  constructor
  · intro h; exact h2.sound j t h
  · rintro ⟨i, hr, ht⟩
    induction hr with
    | refl => exact h2.init _ _ ht
    | tail _ hab ih => exact h2.done _ _ (h3 _ (hl _ _ hab).1) hab t ih

end
end Verif.Lemon
