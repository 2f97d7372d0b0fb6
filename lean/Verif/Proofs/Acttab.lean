import Verif.Spec.Acttab
import Mathlib.Data.List.Basic
import Mathlib.Data.Finset.Card
import Mathlib.Tactic.Linarith
/-
The packed action table: lemmas.
-/
set_option autoImplicit false
namespace Verif.Lemon

/-! ### Transactions -/

theorem lastOf_mem {L : List (Nat × Nat)} {X a : Nat} (h : lastOf L X = some a) : (X, a) ∈ L := by
  unfold lastOf at h
  obtain ⟨e, h1, h2⟩ := Option.map_eq_some_iff.mp h
  have h3 := List.mem_of_find?_eq_some h1
  have h4 := List.find?_some h1
  simp only [beq_iff_eq] at h4
  obtain ⟨x, y⟩ := e
  simp only at h2 h4
  subst h2; subst h4
  exact List.mem_reverse.mp h3

theorem lastOf_none {L : List (Nat × Nat)} {X : Nat} : lastOf L X = none ↔ ∀ e ∈ L, e.1 ≠ X := by
  unfold lastOf
  rw [Option.map_eq_none_iff, List.find?_eq_none]
  simp

theorem lastOf_append {L M : List (Nat × Nat)} {X : Nat} : lastOf (L ++ M) X = (lastOf M X).or (lastOf L X) := by
  unfold lastOf
  rw [List.reverse_append, List.find?_append, Option.map_or]

theorem lastOf_singleton {e : Nat × Nat} {X : Nat} : lastOf [e] X = if e.1 = X then some e.2 else none := by
  unfold lastOf
  by_cases h : e.1 = X <;> simp [h]

theorem minEntry_spec {L : List (Nat × Nat)} (h : L ≠ []) : minEntry L ∈ L ∧ ∀ e ∈ L, (minEntry L).1 ≤ e.1 := by
  cases L with
  | nil => exact absurd rfl h
  | cons e l =>
    unfold minEntry
    have : ∀ (l : List (Nat × Nat)) (e : Nat × Nat),
        (l.foldl (fun m e => if m.1 > e.1 then e else m) e) ∈ e :: l ∧
        ∀ x ∈ e :: l, (l.foldl (fun m e => if m.1 > e.1 then e else m) e).1 ≤ x.1 := by
      intro l
      induction l with
      | nil => intro e; simp
      | cons f l ih =>
        intro e
        rw [List.foldl_cons]
        obtain ⟨h1, h2⟩ := ih (if e.1 > f.1 then f else e)
        constructor
        · rcases List.mem_cons.mp h1 with h1 | h1
          · rw [h1]; split_ifs <;> simp
          · simp [h1]
        · intro x hx
          have hh := h2 (if e.1 > f.1 then f else e) (by simp)
          rcases List.mem_cons.mp hx with rfl | hx
          · refine Nat.le_trans hh ?_
            split_ifs <;> omega
          · rcases List.mem_cons.mp hx with rfl | hx
            · refine Nat.le_trans hh ?_
              split_ifs <;> omega
            · exact h2 x (List.mem_cons_of_mem _ hx)
    exact this l e

theorem maxLook_spec {L : List (Nat × Nat)} (h : L ≠ []) : (∃ e ∈ L, e.1 = maxLook L) ∧ ∀ e ∈ L, e.1 ≤ maxLook L := by
  cases L with
  | nil => exact absurd rfl h
  | cons e l =>
    unfold maxLook
    have : ∀ (l : List (Nat × Nat)) (m : Nat),
        (m = (l.foldl (fun m e => if m < e.1 then e.1 else m) m) ∨ ∃ x ∈ l, x.1 = (l.foldl (fun m e => if m < e.1 then e.1 else m) m)) ∧
        m ≤ (l.foldl (fun m e => if m < e.1 then e.1 else m) m) ∧
        ∀ x ∈ l, x.1 ≤ (l.foldl (fun m e => if m < e.1 then e.1 else m) m) := by
      intro l
      induction l with
      | nil => intro m; simp
      | cons f l ih =>
        intro m
        rw [List.foldl_cons]
        obtain ⟨h1, h2, h3⟩ := ih (if m < f.1 then f.1 else m)
        refine ⟨?_, ?_, ?_⟩
        · rcases h1 with h1 | ⟨x, hx, h1⟩
          · rw [← h1]
            split_ifs
            · exact .inr ⟨f, by simp, rfl⟩
            · exact .inl rfl
          · exact .inr ⟨x, List.mem_cons_of_mem _ hx, h1⟩
        · refine Nat.le_trans ?_ h2
          split_ifs <;> omega
        · intro x hx
          rcases List.mem_cons.mp hx with rfl | hx
          · refine Nat.le_trans ?_ h2
            split_ifs <;> omega
          · exact h3 x hx
    obtain ⟨h1, h2, h3⟩ := this l e.1
    refine ⟨?_, ?_⟩
    · rcases h1 with h1 | ⟨x, hx, h1⟩
      · exact ⟨e, by simp, h1⟩
      · exact ⟨x, List.mem_cons_of_mem _ hx, h1⟩
    · intro x hx
      rcases List.mem_cons.mp hx with rfl | hx
      · exact h2
      · exact h3 x hx

/-! ### Writing a transaction -/

theorem slot_set {p : Acttab} {k j : Nat} {s : Slot} {n : Nat} (hk : k < p.tab.length) :
    (⟨n, p.tab.set k s⟩ : Acttab).slot j = if j = k then s else p.slot j := by
  unfold Acttab.slot
  simp only [List.getD_eq_getElem?_getD]
  split_ifs with h
  · subst h; rw [List.getElem?_set_self hk]; rfl
  · rw [List.getElem?_set_ne (Ne.symm h)]

/-- the slots after a transaction is written -/
theorem write_all {mn i : Nat} : ∀ (L : List (Nat × Nat)) (p : Acttab), (∀ e ∈ L, mn ≤ e.1) → (∀ e ∈ L, entryIdx mn i e < p.tab.length) →
    ∃ p', L.foldlM (Acttab.write mn i) p = some p' ∧ p'.tab.length = p.tab.length ∧ p.nAction ≤ p'.nAction ∧
      (∀ e ∈ L, entryIdx mn i e < p'.nAction) ∧ (p'.nAction = p.nAction ∨ ∃ e ∈ L, p'.nAction = entryIdx mn i e + 1) ∧
      ∀ j, p'.slot j = if 0 ≤ (j : Int) - ((i : Int) - mn) then
        match lastOf L ((j : Int) - ((i : Int) - mn)).toNat with
        | some a => some (((j : Int) - ((i : Int) - mn)).toNat, a)
        | none => p.slot j
        else p.slot j := by
  intro L
  induction L with
  | nil => intro p _ _; exact ⟨p, rfl, rfl, Nat.le_refl _, by simp, .inl rfl, by intro j; simp [lastOf]⟩
  | cons e L ih =>
    intro p hmn hk
    have hke := hk e List.mem_cons_self
    have hw : Acttab.write mn i p e = some ⟨max p.nAction (entryIdx mn i e + 1), p.tab.set (entryIdx mn i e) (some e)⟩ := by
      unfold Acttab.write
      simp only
      rw [if_pos hke]
    obtain ⟨p', h1, h2, h3, h4, h5, h6⟩ := ih ⟨max p.nAction (entryIdx mn i e + 1), p.tab.set (entryIdx mn i e) (some e)⟩
      (fun x hx => hmn x (List.mem_cons_of_mem _ hx)) (fun x hx => by simpa using hk x (List.mem_cons_of_mem _ hx))
    refine ⟨p', ?_, ?_, ?_, ?_, ?_, ?_⟩
    · rw [List.foldlM_cons, hw]; exact h1
    · simpa using h2
    · simp only at h3; omega
    · intro x hx
      rcases List.mem_cons.mp hx with rfl | hx
      · simp only at h3; omega
      · exact h4 x hx
    · rcases h5 with h5 | ⟨x, hx, h5⟩
      · simp only at h5
        rcases Nat.le_total p.nAction (entryIdx mn i e + 1) with h | h
        · exact .inr ⟨e, by simp, by omega⟩
        · exact .inl (by omega)
      · exact .inr ⟨x, List.mem_cons_of_mem _ hx, h5⟩
    · intro j
      rw [h6 j, slot_set hke]
      have hm := hmn e List.mem_cons_self
      by_cases hj : 0 ≤ (j : Int) - ((i : Int) - mn)
      · rw [if_pos hj, if_pos hj]
        have hc : lastOf (e :: L) ((j : Int) - ((i : Int) - mn)).toNat =
            (lastOf L ((j : Int) - ((i : Int) - mn)).toNat).or (lastOf [e] ((j : Int) - ((i : Int) - mn)).toNat) := by
          rw [← lastOf_append]; rfl
        rw [hc, lastOf_singleton]
        cases lastOf L ((j : Int) - ((i : Int) - mn)).toNat with
        | some a => rfl
        | none =>
          simp only [Option.none_or]
          by_cases he : j = entryIdx mn i e
          · have : e.1 = ((j : Int) - ((i : Int) - mn)).toNat := by
              rw [he]; unfold entryIdx; omega
            rw [if_pos he, if_pos this, ← this]
          · have : e.1 ≠ ((j : Int) - ((i : Int) - mn)).toNat := by
              intro hh
              apply he
              unfold entryIdx
              omega
            rw [if_neg he, if_neg this]
      · rw [if_neg hj, if_neg hj, if_neg]
        intro he
        apply hj
        rw [he]; unfold entryIdx; omega

theorem look_some {p : Acttab} {o : Int} {X a : Nat} : p.look o X = some a ↔ ∃ j : Nat, (j : Int) = o + X ∧ p.slot j = some (X, a) := by
  unfold Acttab.look
  constructor
  · intro h
    split_ifs at h with h0
    split at h
    · rename_i l b hs
      split_ifs at h with h1
      cases h
      exact ⟨(o + X).toNat, by omega, by rw [hs, h1]⟩
    · cases h
  · rintro ⟨j, h1, h2⟩
    rw [if_pos (by omega)]
    have : (o + X).toNat = j := by omega
    rw [this, h2]
    simp

/-- the bounds of the second loop are those of the array -/
theorem entryIdx_lt {L : List (Nat × Nat)} (h : L ≠ []) {len i : Nat} (hi : i < len - maxLook L) {e : Nat × Nat} (he : e ∈ L) :
    entryIdx (minEntry L).1 i e < len := by
  have := (maxLook_spec h).2 e he
  unfold entryIdx
  omega

/-! ### Invariant -/

/-- what holds between the transactions -/
structure AInv (T : Nat) (p : Acttab) : Prop where
  free : ∀ j, p.nAction ≤ j → p.slot j = none
  off : ∀ j l a, p.slot j = some (l, a) → (j : Int) - l + T < p.nAction

/-- a transaction inserted with offset `o` can be looked up -/
structure Stored (T : Nat) (safe : Bool) (L : List (Nat × Nat)) (p : Acttab) (o : Int) : Prop where
  tok : safe = true → 0 ≤ o ∧ o + T < p.nAction ∧ (∀ t < T, p.look o t = lastOf L t) ∧ ∃ t < T, lastOf L t ≠ none
  nt : safe = false → ∀ X a, lastOf L X = some a → p.look o X = some a

theorem grow_spec {N T : Nat} {p : Acttab} (h : AInv T p) : AInv T (p.grow N) ∧ (p.grow N).nAction = p.nAction ∧
    (∀ j, (p.grow N).slot j = p.slot j) ∧ p.nAction + N + 1 < (p.grow N).tab.length := by
  have hs : ∀ j, (p.grow N).slot j = p.slot j := by
    intro j
    unfold Acttab.grow
    simp only
    split_ifs with h0
    · unfold Acttab.slot
      simp only [List.getD_eq_getElem?_getD]
      rcases Nat.lt_or_ge j p.tab.length with h1 | h1
      · rw [List.getElem?_append_left h1]
      · rw [List.getElem?_append_right h1, List.getElem?_eq_none h1, List.getElem?_replicate]
        split_ifs <;> rfl
    · rfl
  have hn : (p.grow N).nAction = p.nAction := by
    unfold Acttab.grow; simp only; split_ifs <;> rfl
  refine ⟨⟨?_, ?_⟩, hn, hs, ?_⟩
  · intro j hj; rw [hs]; exact h.free j (by omega)
  · intro j l a hj; rw [hs] at hj; rw [hn]; exact h.off j l a hj
  · unfold Acttab.grow
    simp only
    split_ifs with h0
    · rw [List.length_append, List.length_replicate]; omega
    · omega

/-- the three outcomes of the search -/
theorem place_cases (p : Acttab) (safe : Bool) (L : List (Nat × Nat)) :
    let lo := if safe then (minEntry L).1 else 0
    (lo ≤ p.place safe L ∧ p.place safe L < p.nAction ∧ p.dupAt L (p.place safe L) = true) ∨
    (lo ≤ p.place safe L ∧ p.place safe L < p.tab.length - maxLook L ∧ p.holeAt L (p.place safe L) = true ∧
      ∀ i, lo ≤ i → i < p.place safe L → p.holeAt L i = false) ∨
    (p.place safe L = max lo (p.tab.length - maxLook L) ∧
      ∀ i, lo ≤ i → i < p.tab.length - maxLook L → p.holeAt L i = false) := by
  intro lo
  unfold Acttab.place
  simp only
  cases hd : (List.range p.nAction).reverse.find? fun i => decide (lo ≤ i) && p.dupAt L i with
  | some i =>
    left
    have h1 := List.mem_of_find?_eq_some hd
    have h2 := List.find?_some hd
    simp only [Bool.and_eq_true, decide_eq_true_eq] at h2
    simp only [List.mem_reverse, List.mem_range] at h1
    exact ⟨h2.1, h1, h2.2⟩
  | none =>
    right
    simp only
    cases hh : (List.range (p.tab.length - maxLook L)).find? fun i => decide (lo ≤ i) && p.holeAt L i with
    | some i =>
      left
      have h1 := List.mem_of_find?_eq_some hh
      have h2 := List.find?_some hh
      simp only [Bool.and_eq_true, decide_eq_true_eq] at h2
      simp only [List.mem_range] at h1
      refine ⟨h2.1, h1, h2.2, ?_⟩
      intro j hj hji
      have := (List.find?_range_eq_some.mp hh).2.2 j hji
      simpa [hj] using this
    | none =>
      right
      refine ⟨rfl, ?_⟩
      intro i h1 h2
      have := List.find?_eq_none.mp hh i (List.mem_range.mpr h2)
      simpa [h1] using this

theorem la_none {p : Acttab} {j : Nat} : (p.slot j).la < 0 ↔ p.slot j = none := by
  unfold Slot.la
  cases p.slot j with
  | none => simp
  | some e => simp

/-- the table has the transaction already -/
theorem dup_spec {p : Acttab} {L : List (Nat × Nat)} (hne : L ≠ []) (hnd : L.Nodup) {i : Nat} (hfree : ∀ j, p.nAction ≤ j → p.slot j = none)
    (h : p.dupAt L i = true) :
    (∀ e ∈ L, entryIdx (minEntry L).1 i e < p.nAction ∧ p.slot (entryIdx (minEntry L).1 i e) = some e) ∧
    ∀ j l a, p.slot j = some (l, a) → (j : Int) - l = (i : Int) - (minEntry L).1 → (l, a) ∈ L := by
  unfold Acttab.dupAt at h
  simp only [Bool.and_eq_true, beq_iff_eq, List.all_eq_true, decide_eq_true_eq] at h
  obtain ⟨⟨_, h2⟩, h3⟩ := h
  refine ⟨h2, ?_⟩
  intro j l a hj hl
  -- count
  have hinj : (L.map (entryIdx (minEntry L).1 i)).Nodup := by
    refine List.Nodup.map_on ?_ hnd
    intro x hx y hy hxy
    have h4 := (h2 x hx).2
    rw [hxy, (h2 y hy).2] at h4
    cases h4; rfl
  let S := (List.range p.nAction).filter fun j => decide ((p.slot j).la ≥ 0) && (p.slot j).la == (j : Int) + (minEntry L).1 - i
  have hsub : ∀ x ∈ L.map (entryIdx (minEntry L).1 i), x ∈ S := by
    intro x hx
    obtain ⟨e, he, rfl⟩ := List.mem_map.mp hx
    refine List.mem_filter.mpr ⟨List.mem_range.mpr (h2 e he).1, ?_⟩
    rw [(h2 e he).2]
    have := (minEntry_spec hne).2 e he
    simp [Slot.la, entryIdx]
    omega
  have hS : S.Nodup := List.nodup_range.filter _
  have hperm : (L.map (entryIdx (minEntry L).1 i)).Perm S := by
    have hsp : (L.map (entryIdx (minEntry L).1 i)).Subperm S := List.subperm_of_subset hinj hsub
    exact hsp.perm_of_length_le (by rw [List.length_map]; exact Nat.le_of_eq h3)
  have hjS : j ∈ S := by
    refine List.mem_filter.mpr ⟨List.mem_range.mpr ?_, ?_⟩
    · by_contra hc
      rw [hfree j (by omega)] at hj
      cases hj
    · rw [hj]
      simp [Slot.la]
      omega
  obtain ⟨e, he, hej⟩ := List.mem_map.mp (hperm.mem_iff.mpr hjS)
  have := (h2 e he).2
  rw [hej, hj] at this
  cases this
  exact he

theorem hole_spec {p : Acttab} {L : List (Nat × Nat)} {i : Nat} (hfree : ∀ j, p.nAction ≤ j → p.slot j = none)
    (h : p.holeAt L i = true) :
    (∀ e ∈ L, p.slot (entryIdx (minEntry L).1 i e) = none) ∧
    ∀ j l a, p.slot j = some (l, a) → (j : Int) - l ≠ (i : Int) - (minEntry L).1 := by
  unfold Acttab.holeAt at h
  simp only [Bool.and_eq_true, List.all_eq_true, decide_eq_true_eq, bne_iff_ne, ne_eq, List.mem_range] at h
  obtain ⟨⟨_, h2⟩, h3⟩ := h
  refine ⟨fun e he => la_none.mp (h2 e he), ?_⟩
  intro j l a hj hl
  have hjn : j < p.nAction := by
    by_contra hc
    rw [hfree j (by omega)] at hj
    cases hj
  apply h3 j hjn
  rw [hj]
  simp [Slot.la]
  omega

/-- A transaction for tokens is put at most `mnLookahead+1` after the end of the table.  (The test
lemon.c:803-806 also rejects an index if a certain free slot precedes it.) -/
theorem place_le {N T : Nat} {p : Acttab} (hI : AInv T p) {safe : Bool} {L : List (Nat × Nat)} (hL : TransOK N T safe L)
    (hs : safe = true) : p.place safe L ≤ p.nAction + (minEntry L).1 + 1 := by
  obtain ⟨m1, m2⟩ := minEntry_spec hL.ne
  have hc : p.holeAt L (p.nAction + (minEntry L).1 + 1) = true := by
    unfold Acttab.holeAt
    simp only [Bool.and_eq_true, List.all_eq_true, decide_eq_true_eq, bne_iff_ne, ne_eq, List.mem_range]
    refine ⟨⟨la_none.mpr (hI.free _ (by omega)), ?_⟩, ?_⟩
    · intro e he
      refine la_none.mpr (hI.free _ ?_)
      unfold entryIdx; omega
    · intro j hj hj'
      have h1 := hL.tok hs _ m1
      cases hsl : p.slot j with
      | none => rw [hsl] at hj'; simp only [Slot.la] at hj'; omega
      | some e =>
        rw [hsl] at hj'
        simp only [Slot.la] at hj'
        have := hI.off j e.1 e.2 hsl
        omega
  have hcases := place_cases p safe L
  simp only [hs, if_true] at hcases
  rw [hs]
  rcases hcases with ⟨_, h2, _⟩ | ⟨_, h2, _, h4⟩ | ⟨h1, h2⟩
  · omega
  · by_contra hh
    rw [h4 _ (by omega) (by omega)] at hc
    cases hc
  · by_cases hlt : p.nAction + (minEntry L).1 + 1 < p.tab.length - maxLook L
    · rw [h2 _ (by omega) hlt] at hc
      cases hc
    · omega

/-- One transaction: it is never written outside of the array, can be looked up afterwards, and
the earlier ones still can. -/
theorem acttabInsert_spec {N T : Nat} (hT : 0 < T) (hTN : T ≤ N) {p : Acttab} (hI : AInv T p) {safe : Bool} {L : List (Nat × Nat)}
    (hL : TransOK N T safe L) :
    ∃ p' o, p.insert N T safe L = some (p', o) ∧ AInv T p' ∧ Stored T safe L p' o ∧
      (∀ safe0 L0 o0, Stored T safe0 L0 p o0 → Stored T safe0 L0 p' o0) ∧ p.nAction ≤ p'.nAction ∧
      (safe = false ∨ (minEntry L).1 + T ≤ N → p'.nAction ≤ p'.tab.length) ∧
      (∀ j l a, p'.slot j = some (l, a) → p.slot j = some (l, a) ∨ ((j : Int) = o + l ∧ lastOf L l = some a)) := by
  obtain ⟨hI1, g2, g3, g4⟩ := grow_spec (N := N) hI
  unfold Acttab.insert
  rw [if_neg hL.ne]
  simp only
  rw [if_neg (by omega)]
  have hgood : ∀ safe0 L0 o0, Stored T safe0 L0 p o0 → Stored T safe0 L0 (p.grow N) o0 := by
    intro safe0 L0 o0 h
    have hl : ∀ o X, (p.grow N).look o X = p.look o X := by
      intro o X; unfold Acttab.look; simp only [g3]
    exact ⟨fun hs => by rw [g2]; simp only [hl]; exact h.tok hs, fun hs => by simp only [hl]; exact h.nt hs⟩
  rw [← g2] at g4
  rw [← g2]
  generalize hp1 : p.grow N = p1 at hI1 g2 g3 g4 hgood ⊢
  clear g2 hI hp1
  obtain ⟨m1, m2⟩ := minEntry_spec hL.ne
  obtain ⟨⟨ex, x1, x2⟩, x3⟩ := maxLook_spec hL.ne
  have hmxN : maxLook L < N := by rw [← x2]; exact hL.lt ex x1
  have hmm : (minEntry L).1 ≤ maxLook L := x3 _ m1
  -- where it goes
  have hle := fun hs : safe = true => place_le (L := L) hI1 hL hs
  generalize hi : p1.place safe L = i at hle
  have hcases := place_cases p1 safe L
  simp only [hi] at hcases
  have hlo : (if safe = true then (minEntry L).1 else 0) ≤ i := by
    rcases hcases with ⟨h, _⟩ | ⟨h, _⟩ | ⟨h, _⟩
    · exact h
    · exact h
    · rw [h]; exact Nat.le_max_left _ _
  -- writes are inside, and to free slots or without effect
  have hin : ∀ e ∈ L, entryIdx (minEntry L).1 i e < p1.tab.length := by
    intro e he
    rcases hcases with ⟨_, h2, h3⟩ | ⟨_, h2, _⟩ | ⟨h1, h2⟩
    · have := ((dup_spec hL.ne hL.nodup hI1.free h3).1 e he).1
      omega
    · exact entryIdx_lt hL.ne h2 he
    · have he1 := x3 e he
      have he2 := m2 e he
      unfold entryIdx
      cases hs : safe with
      | false =>
        have := hL.nt hs _ m1
        rw [hs] at h1
        simp at h1
        omega
      | true =>
        rw [hs] at h1 h2
        simp only [ite_true] at h1 h2
        rcases Nat.lt_or_ge (p1.tab.length - maxLook L) (minEntry L).1 with h3 | h3
        · have : i = (minEntry L).1 := by omega
          omega
        · rcases Nat.eq_zero_or_pos (minEntry L).1 with h0 | h0
          · exfalso
            have := h2 (p1.nAction + 1) (by omega) (by omega)
            have hc : p1.holeAt L (p1.nAction + 1) = true := by
              unfold Acttab.holeAt
              simp only [Bool.and_eq_true, List.all_eq_true, decide_eq_true_eq, bne_iff_ne, ne_eq, List.mem_range]
              refine ⟨⟨la_none.mpr (hI1.free _ (by omega)), ?_⟩, ?_⟩
              · intro e he
                refine la_none.mpr (hI1.free _ ?_)
                unfold entryIdx; omega
              · intro j hj
                unfold Slot.la
                cases p1.slot j with
                | none => simp only; omega
                | some e => simp only; omega
            rw [this] at hc; cases hc
          · omega
  have hwr : (∀ e ∈ L, p1.slot (entryIdx (minEntry L).1 i e) = some e) ∨ ∀ e ∈ L, p1.slot (entryIdx (minEntry L).1 i e) = none := by
    rcases hcases with ⟨_, h2, h3⟩ | ⟨_, h2, h3, _⟩ | ⟨h1, h2⟩
    · exact .inl fun e he => ((dup_spec hL.ne hL.nodup hI1.free h3).1 e he).2
    · exact .inr (hole_spec hI1.free h3).1
    · right
      intro e he
      refine hI1.free _ ?_
      have : p1.tab.length - maxLook L ≤ i := by rw [h1]; exact Nat.le_max_right _ _
      unfold entryIdx
      omega
  -- other entries with this offset
  have hmatch : safe = true → ∀ j l a, p1.slot j = some (l, a) → (j : Int) - l = (i : Int) - (minEntry L).1 →
      (l, a) ∈ L ∧ ∀ e ∈ L, p1.slot (entryIdx (minEntry L).1 i e) = some e := by
    intro hs j l a hj hl
    rcases hcases with ⟨_, h2, h3⟩ | ⟨_, h2, h3, _⟩ | ⟨h1, h2⟩
    · have := dup_spec hL.ne hL.nodup hI1.free h3
      exact ⟨this.2 j l a hj hl, fun e he => (this.1 e he).2⟩
    · exact absurd hl ((hole_spec hI1.free h3).2 j l a hj)
    · exfalso
      have h4 := hI1.off j l a hj
      have h5 : p1.tab.length - maxLook L ≤ i := by rw [h1]; exact Nat.le_max_right _ _
      have h6 := hL.tok hs _ m1
      omega
  obtain ⟨p2, w1, w2, w3, w4, w5, w6⟩ := write_all (mn := (minEntry L).1) (i := i) L p1 m2 hin
  rw [w1]
  -- slots: entries of the transaction, and what was there
  have hslot1 : ∀ X a, lastOf L X = some a → ∃ j : Nat, (j : Int) = (i : Int) - (minEntry L).1 + X ∧ p2.slot j = some (X, a) := by
    intro X a hX
    have hm := m2 _ (lastOf_mem hX)
    simp only at hm
    refine ⟨i + X - (minEntry L).1, by omega, ?_⟩
    rw [w6]
    have e1 : (((i + X - (minEntry L).1 : Nat) : Int) - ((i : Int) - (minEntry L).1)).toNat = X := by omega
    rw [if_pos (by omega), e1, hX]
  have hslot2 : ∀ j e, p1.slot j = some e → p2.slot j = some e := by
    intro j e hj
    rw [w6]
    split_ifs with h0
    · cases hl : lastOf L ((j : Int) - ((i : Int) - (minEntry L).1)).toNat with
      | none => exact hj
      | some a =>
        have hmem := lastOf_mem hl
        have hm := m2 _ hmem
        simp only at hm
        have hidx : entryIdx (minEntry L).1 i (((j : Int) - ((i : Int) - (minEntry L).1)).toNat, a) = j := by
          unfold entryIdx; simp only; omega
        rcases hwr with hw | hw
        · have := hw _ hmem
          rw [hidx, hj] at this
          cases this; rfl
        · have := hw _ hmem
          rw [hidx, hj] at this
          cases this
    · exact hj
  have hslot3 : ∀ j l a, p2.slot j = some (l, a) → p1.slot j = some (l, a) ∨
      ((j : Int) = (i : Int) - (minEntry L).1 + l ∧ lastOf L l = some a) := by
    intro j l a hj
    rw [w6] at hj
    split_ifs at hj with h0
    · cases hl : lastOf L ((j : Int) - ((i : Int) - (minEntry L).1)).toNat with
      | none => rw [hl] at hj; exact .inl hj
      | some b =>
        rw [hl] at hj
        simp only [Option.some.injEq, Prod.mk.injEq] at hj
        obtain ⟨rfl, rfl⟩ := hj
        exact .inr ⟨by omega, hl⟩
    · exact .inl hj
  -- the final number of actions
  obtain ⟨n', hn'⟩ : ∃ n', n' = (if (safe && decide (i + T ≥ p2.nAction)) = true then i + T + 1 else p2.nAction) := ⟨_, rfl⟩
  have hp' : (if (safe && decide (i + T ≥ p2.nAction)) = true then { p2 with nAction := i + T + 1 } else p2) = ⟨n', p2.tab⟩ := by
    rw [hn']; split_ifs <;> rfl
  have hnge : p2.nAction ≤ n' := by
    rw [hn']
    split_ifs with h
    · simp at h; omega
    · exact Nat.le_refl _
  have hns : safe = true → i + T < n' := by
    intro hs
    rw [hn', hs]
    by_cases h : i + T ≥ p2.nAction
    · simp [h]
    · simp [h]; omega
  refine ⟨⟨n', p2.tab⟩, (i : Int) - (minEntry L).1, ?_, ?_, ?_, ?_, Nat.le_trans w3 hnge, ?_, fun j l a hj => by rw [← g3 j]; exact hslot3 j l a hj⟩
  · simp only [Option.map_some, hp']
  · have hslotp : ∀ j, (⟨n', p2.tab⟩ : Acttab).slot j = p2.slot j := fun _ => rfl
    refine ⟨?_, ?_⟩
    · intro j hj
      simp only at hj
      rw [hslotp]
      cases hs : p2.slot j with
      | none => rfl
      | some e =>
        exfalso
        obtain ⟨l, a⟩ := e
        rcases hslot3 j l a hs with h | ⟨h1, h2⟩
        · rw [hI1.free j (by omega)] at h; cases h
        · have hm := m2 _ (lastOf_mem h2)
          have := w4 _ (lastOf_mem h2)
          unfold entryIdx at this
          simp only at this hm
          omega
    · intro j l a hj
      rw [hslotp] at hj
      simp only
      rcases hslot3 j l a hj with h | ⟨h1, h2⟩
      · have := hI1.off j l a h
        omega
      · cases hs : safe with
        | true =>
          have := hns hs
          omega
        | false =>
          have hmem := lastOf_mem h2
          have h3 := hL.nt hs _ hmem
          have h4 := w4 _ hmem
          have hm := m2 _ hmem
          unfold entryIdx at h4
          simp only at h3 h4 hm
          omega
  · refine ⟨?_, ?_⟩
    · intro hs
      have hlo' := hlo
      rw [hs] at hlo'
      simp only [ite_true] at hlo'
      refine ⟨by omega, by have := hns hs; simp only; omega, ?_, ?_⟩
      · intro t ht
        cases hl : lastOf L t with
        | some a =>
          obtain ⟨j, h1, h2⟩ := hslot1 t a hl
          exact look_some.mpr ⟨j, h1, h2⟩
        | none =>
          cases hk : (⟨n', p2.tab⟩ : Acttab).look ((i : Int) - (minEntry L).1) t with
          | none => rfl
          | some a =>
            exfalso
            obtain ⟨j, h1, h2⟩ := look_some.mp hk
            rcases hslot3 j t a h2 with h | ⟨_, h⟩
            · have := (hmatch hs j t a h (by omega)).1
              exact lastOf_none.mp hl _ this rfl
            · rw [hl] at h; cases h
      · refine ⟨(minEntry L).1, hL.tok hs _ m1, ?_⟩
        rw [Ne, lastOf_none]
        intro h
        exact h _ m1 rfl
    · intro hs X a hX
      obtain ⟨j, h1, h2⟩ := hslot1 X a hX
      exact look_some.mpr ⟨j, h1, h2⟩
  · intro safe0 L0 o0 h0
    have h0 := hgood safe0 L0 o0 h0
    have hstay : ∀ X a, p1.look o0 X = some a → (⟨n', p2.tab⟩ : Acttab).look o0 X = some a := by
      intro X a h
      obtain ⟨j, h1, h2⟩ := look_some.mp h
      exact look_some.mpr ⟨j, h1, hslot2 j _ h2⟩
    refine ⟨?_, ?_⟩
    · intro hs0
      obtain ⟨k1, k2, k3, k4⟩ := h0.tok hs0
      refine ⟨k1, by simp only; omega, ?_, k4⟩
      intro t ht
      cases hl : lastOf L0 t with
      | some a => exact hstay t a (by rw [k3 t ht, hl])
      | none =>
        cases hk : (⟨n', p2.tab⟩ : Acttab).look o0 t with
        | none => rfl
        | some a =>
          exfalso
          obtain ⟨j, h1, h2⟩ := look_some.mp hk
          have hno : ¬ ∃ j : Nat, (j : Int) = o0 + t ∧ p1.slot j = some (t, a) := by
            intro hh
            have := look_some.mpr hh
            rw [k3 t ht, hl] at this; cases this
          rcases hslot3 j t a h2 with h | ⟨h3, h⟩
          · exact hno ⟨j, h1, h⟩
          · -- the new entry is on a token, with the old offset
            have ho : o0 = (i : Int) - (minEntry L).1 := by omega
            cases hs : safe with
            | false =>
              have := hL.nt hs _ (lastOf_mem h)
              simp only at this
              omega
            | true =>
              obtain ⟨t0, ht0, ht0'⟩ := k4
              obtain ⟨a0, ha0⟩ := Option.ne_none_iff_exists'.mp ht0'
              have := k3 t0 ht0
              rw [ha0] at this
              obtain ⟨j0, e1, e2⟩ := look_some.mp this
              have hmt := (hmatch hs j0 t0 a0 e2 (by omega)).2 _ (lastOf_mem h)
              have hm := m2 _ (lastOf_mem h)
              simp only at hm
              refine hno ⟨j, h1, ?_⟩
              have hidx : entryIdx (minEntry L).1 i (t, a) = j := by unfold entryIdx; simp only; omega
              rw [hidx] at hmt
              exact hmt
    · intro hs0 X a hX
      exact hstay X a (h0.nt hs0 X a hX)
  · intro hor
    show n' ≤ p2.tab.length
    have h2 : p2.nAction ≤ p2.tab.length := by
      rcases w5 with h | ⟨e, he, h⟩
      · omega
      · have := hin e he; omega
    rw [hn']
    split_ifs with h
    · simp only [Bool.and_eq_true, decide_eq_true_eq] at h
      have := hle h.1
      rcases hor with h1 | h1
      · rw [h.1] at h1; cases h1
      · omega
    · exact h2

theorem insertAll_len {N T : Nat} (hT : 0 < T) (hTN : T ≤ N) : ∀ (ops : List (Bool × List (Nat × Nat))), ops ≠ [] → ∀ (p : Acttab), AInv T p →
    (∀ x ∈ ops, TransOK N T x.1 x.2) → ∀ {p' : Acttab} {os : List Int}, insertAll N T ops p = some (p', os) →
      (∀ x, ops.getLast? = some x → x.1 = false ∨ (minEntry x.2).1 + T ≤ N) → p'.nAction ≤ p'.tab.length := by
  intro ops
  induction ops with
  | nil => intro h; exact absurd rfl h
  | cons x ops ih =>
    intro _ p h hok p' os k hlast
    obtain ⟨safe, L⟩ := x
    obtain ⟨p1, o, h1, h2, h3, h4, h5, h6, h7⟩ := acttabInsert_spec hT hTN h (hok _ List.mem_cons_self)
    have hk : ∃ os', insertAll N T ops p1 = some (p', os') := by
      have : insertAll N T ((safe, L) :: ops) p = (do
        let (p, o) ← p.insert N T safe L
        let (p, os) ← insertAll N T ops p
        return (p, o :: os)) := rfl
      rw [this, h1] at k
      simp only [Option.bind_eq_bind, Option.bind_some] at k
      obtain ⟨⟨q, os'⟩, e1, e2⟩ := Option.bind_eq_some_iff.mp k
      simp only [Option.pure_def, Option.some.injEq, Prod.mk.injEq] at e2
      rw [e2.1] at e1
      exact ⟨os', e1⟩
    obtain ⟨os', hk⟩ := hk
    cases ops with
    | nil =>
      simp only [insertAll, Option.some.injEq, Prod.mk.injEq] at hk
      rw [← hk.1]
      exact h6 (hlast (safe, L) rfl)
    | cons y ops =>
      exact ih (by simp) p1 h2 (fun x hx => hok x (List.mem_cons_of_mem _ hx)) hk
        fun x hx => hlast x (by rw [List.getLast?_cons_cons]; exact hx)

theorem insertAll_spec {N T : Nat} (hT : 0 < T) (hTN : T ≤ N) : ∀ (ops : List (Bool × List (Nat × Nat))) (p : Acttab), AInv T p →
    (∀ x ∈ ops, TransOK N T x.1 x.2) → ∃ p' os, insertAll N T ops p = some (p', os) ∧ AInv T p' ∧
      List.Forall₂ (fun (x : Bool × List (Nat × Nat)) o => Stored T x.1 x.2 p' o) ops os ∧
      (∀ safe0 L0 o0, Stored T safe0 L0 p o0 → Stored T safe0 L0 p' o0) ∧
      (p.nAction ≤ p.tab.length → (∀ x, ops.getLast? = some x → x.1 = false ∨ (minEntry x.2).1 + T ≤ N) → p'.nAction ≤ p'.tab.length) ∧
      (∀ j l a, p'.slot j = some (l, a) → p.slot j = some (l, a) ∨
        ∃ (k : Nat) (x : Bool × List (Nat × Nat)) (o : Int), ops[k]? = some x ∧ os[k]? = some o ∧ (j : Int) = o + l ∧ lastOf x.2 l = some a) := by
  intro ops
  induction ops with
  | nil => intro p h _; exact ⟨p, [], rfl, h, .nil, fun _ _ _ h => h, fun h _ => h, fun _ _ _ h => .inl h⟩
  | cons x ops ih =>
    intro p h hok
    obtain ⟨safe, L⟩ := x
    obtain ⟨p1, o, h1, h2, h3, h4, h5, h6, h7⟩ := acttabInsert_spec hT hTN h (hok _ List.mem_cons_self)
    obtain ⟨p', os, k1, k2, k3, k4, k5, k6⟩ := ih p1 h2 fun x hx => hok x (List.mem_cons_of_mem _ hx)
    refine ⟨p', o :: os, ?_, k2, .cons (k4 _ _ _ h3) k3, fun s0 L0 o0 h0 => k4 _ _ _ (h4 _ _ _ h0), ?_, ?_⟩
    · show (do
        let (p, o) ← p.insert N T safe L
        let (p, os) ← insertAll N T ops p
        return (p, o :: os)) = _
      rw [h1]
      simp [k1]
    · intro _ hlast
      cases ops with
      | nil =>
        simp only [insertAll, Option.some.injEq, Prod.mk.injEq] at k1
        rw [← k1.1]
        exact h6 (hlast (safe, L) rfl)
      | cons y ops =>
        exact insertAll_len hT hTN (y :: ops) (by simp) p1 h2 (fun x hx => hok x (List.mem_cons_of_mem _ hx)) k1
          fun x hx => hlast x (by rw [List.getLast?_cons_cons]; exact hx)
    · intro j l a hj
      rcases k6 j l a hj with e | ⟨k, x, o', e1, e2, e3⟩
      · rcases h7 j l a e with e | e
        · exact .inl e
        · exact .inr ⟨0, _, o, rfl, rfl, e⟩
      · exact .inr ⟨k + 1, x, o', e1, e2, e3⟩

end Verif.Lemon
