import Verif.Proofs.PackTable
import Verif.Proofs.Parser
import Verif.Proofs.Count
/-
The vectors handed to the packer.
-/
set_option autoImplicit false
namespace Verif.Byacc
open Spec

/-- `symbol_value[]`: token codes are not negative and all different, `$end` is 0; the value of
a nonterminal is its position after `$accept`. -/
structure SymVals (ntokens nsyms : Nat) (sv : List Int) : Prop where
  nonneg : ∀ j, j < ntokens → 0 ≤ sv.getD j 0
  inj : ∀ i j, i < ntokens → j < ntokens → sv.getD i 0 = sv.getD j 0 → i = j
  eof : sv.getD 0 0 = 0
  nt : ∀ A, ntokens ≤ A → A < nsyms → sv.getD A 0 = (A : Int) - ntokens - 1

/-- A row as left by conflict resolution. -/
structure RowOK (ntokens : Nat) (row : List Action) : Prop where
  sym : ∀ x ∈ row, x.symbol < ntokens
  num : ∀ x ∈ row, 0 < x.number
  red : ∀ x ∈ row, x.code = .REDUCE → 3 ≤ x.number
  nodup : row.Nodup
  uniq : ∀ x ∈ row, ∀ y ∈ row, x.symbol = y.symbol → x.suppressed = 0 → y.suppressed = 0 → x = y

/-- live shift -/
def Action.isSh (x : Action) : Prop := x.suppressed = 0 ∧ x.code = .SHIFT
/-- live reduce other than the default -/
def Action.isRe (d : Nat) (x : Action) : Prop := x.suppressed = 0 ∧ x.code = .REDUCE ∧ x.number ≠ d

theorem countP_set {n j v : Nat} {row : List Nat} {off : Nat} (hj : j < n) (hv : v ≠ 0) (hl : off + n ≤ row.length)
    (h0 : row.getD (off + j) 0 = 0) :
    ((List.range n).filter (fun k => (row.set (off + j) v).getD (off + k) 0 != 0)).length =
      ((List.range n).filter (fun k => row.getD (off + k) 0 != 0)).length + 1 := by
  rw [← List.countP_eq_length_filter, ← List.countP_eq_length_filter]
  have h1 : (List.range n).countP (fun k => k == j) = 1 := by
    have := List.count_eq_one_of_mem (List.nodup_range (n := n)) (List.mem_range.mpr hj)
    rw [List.count] at this
    exact this
  rw [← h1]
  apply countP_or
  · intro k hk
    have hk := List.mem_range.1 hk
    by_cases e : k = j
    · subst e
      rw [List.getD_eq_getElem?_getD, List.getElem?_set_self (by omega)]
      simp [hv]
    · rw [List.getD_eq_getElem?_getD, List.getElem?_set_ne (by omega), ← List.getD_eq_getElem?_getD]
      simp [e]
  · rintro k - ⟨h, h'⟩
    have : k = j := by simpa using h'
    subst this
    rw [h0] at h
    simp at h

theorem countP_set_away {n j v : Nat} {row : List Nat} {off : Nat} (hj : j < off ∨ off + n ≤ j) :
    ((List.range n).filter (fun k => (row.set j v).getD (off + k) 0 != 0)) =
      ((List.range n).filter (fun k => row.getD (off + k) 0 != 0)) := by
  apply List.filter_congr
  intro k hk
  have hk := List.mem_range.1 hk
  rw [List.getD_eq_getElem?_getD, List.getElem?_set_ne (by omega), ← List.getD_eq_getElem?_getD]

/-- Contents of one half of `actionrow`. -/
structure Half (n : Nat) (row : List Nat) (off cnt : Nat) (S : Nat → Nat → Prop) : Prop where
  get : ∀ j, j < n → ∀ v, v ≠ 0 → (row.getD (off + j) 0 = v ↔ S j v)
  cnt : cnt = ((List.range n).filter (fun k => row.getD (off + k) 0 != 0)).length

theorem Half.add {n : Nat} {row : List Nat} {off cnt : Nat} {S S' : Nat → Nat → Prop} (H : Half n row off cnt S)
    {j v : Nat} (hj : j < n) (hv : v ≠ 0) (hl : off + n ≤ row.length) (hnew : ∀ w, ¬ S j w)
    (hS : ∀ k w, S' k w ↔ S k w ∨ (k = j ∧ w = v)) : Half n (row.set (off + j) v) off (cnt + 1) S' := by
  have h0 : row.getD (off + j) 0 = 0 := by
    by_contra h
    exact hnew _ ((H.get j hj _ h).1 rfl)
  refine ⟨?_, ?_⟩
  · intro k hk w hw
    rw [hS]
    by_cases e : k = j
    · subst e
      rw [List.getD_eq_getElem?_getD, List.getElem?_set_self (by omega)]
      simp only [Option.getD_some]
      constructor
      · intro h; exact .inr ⟨by trivial, h.symm⟩
      · rintro (h | ⟨-, h⟩)
        · exact absurd h (hnew w)
        · exact h.symm
    · rw [List.getD_eq_getElem?_getD, List.getElem?_set_ne (by omega), ← List.getD_eq_getElem?_getD, H.get k hk w hw]
      simp [e]
  · rw [countP_set hj hv hl h0, ← H.cnt]

theorem Half.away {n : Nat} {row : List Nat} {off cnt : Nat} {S S' : Nat → Nat → Prop} (H : Half n row off cnt S)
    {j v : Nat} (hj : j < off ∨ off + n ≤ j) (hS : ∀ k w, S' k w ↔ S k w) : Half n (row.set j v) off cnt S' := by
  refine ⟨?_, ?_⟩
  · intro k hk w hw
    rw [List.getD_eq_getElem?_getD, List.getElem?_set_ne (by omega), ← List.getD_eq_getElem?_getD, H.get k hk w hw, hS]
  · rw [countP_set_away hj, ← H.cnt]

theorem Half.congr {n : Nat} {row : List Nat} {off cnt : Nat} {S S' : Nat → Nat → Prop} (H : Half n row off cnt S)
    (hS : ∀ k w, S' k w ↔ S k w) : Half n row off cnt S' :=
  ⟨fun k hk w hw => by rw [H.get k hk w hw, hS], H.cnt⟩

theorem actionRow_spec {n d : Nat} {acts : List Action} (R : RowOK n acts) :
    (actionRow n d acts).row.length = 2 * n ∧
    Half n (actionRow n d acts).row 0 (actionRow n d acts).shiftcount
      (fun j v => ∃ x ∈ acts, x.isSh ∧ x.symbol = j ∧ x.number = v) ∧
    Half n (actionRow n d acts).row n (actionRow n d acts).reducecount
      (fun j v => ∃ x ∈ acts, x.isRe d ∧ x.symbol = j ∧ x.number = v) := by
  unfold actionRow
  refine foldl_inv acts (fun P (r : RowAcc) => r.row.length = 2 * n ∧
    Half n r.row 0 r.shiftcount (fun j v => ∃ x ∈ P, x.isSh ∧ x.symbol = j ∧ x.number = v) ∧
    Half n r.row n r.reducecount (fun j v => ∃ x ∈ P, x.isRe d ∧ x.symbol = j ∧ x.number = v)) ?_ ?_
  · have hz : ∀ k, (List.replicate (2 * n) 0).getD k 0 = 0 := by
      intro k
      rw [List.getD_eq_getElem?_getD, List.getElem?_replicate]
      split <;> rfl
    refine ⟨by simp, ⟨?_, ?_⟩, ⟨?_, ?_⟩⟩
    · intro j hj v hv
      rw [hz]
      constructor
      · intro h; exact absurd h.symm hv
      · rintro ⟨x, hx, -⟩; simp at hx
    · simp only [hz]; simp
    · intro j hj v hv
      rw [hz]
      constructor
      · intro h; exact absurd h.symm hv
      · rintro ⟨x, hx, -⟩; simp at hx
    · simp only [hz]; simp
  · rintro pre y post ⟨row, sc, rc⟩ hl ⟨h1, h2, h3⟩
    have hy : y ∈ acts := by rw [hl]; simp
    have hsym := R.sym y hy
    have hnum := R.num y hy
    have hpre : ∀ x ∈ pre, x ∈ acts := fun x hx => by rw [hl]; simp [hx]
    have hnd : y ∉ pre := by
      have := R.nodup
      rw [hl] at this
      intro h
      exact (List.nodup_append.1 this).2.2 y h y (by simp) rfl
    simp only at h1 h2 h3 ⊢
    by_cases hs : y.suppressed = 0
    · rw [if_pos hs]
      have hdis : ∀ x ∈ pre, x.suppressed = 0 → x.symbol ≠ y.symbol := by
        intro x hx h0 he
        exact hnd (R.uniq x (hpre x hx) y hy he h0 hs ▸ hx)
      by_cases hc : y.code = .SHIFT
      · rw [if_pos hc]
        refine ⟨by simpa using h1, ?_, ?_⟩
        · simp only
          have := h2.add (S' := fun j v => ∃ x ∈ pre ++ [y], x.isSh ∧ x.symbol = j ∧ x.number = v)
            hsym (Nat.pos_iff_ne_zero.1 hnum) (by omega) (by
              rintro w ⟨x, hx, hx1, hx2, -⟩
              exact hdis x hx hx1.1 hx2) (by
              intro k w
              constructor
              · rintro ⟨x, hx, hx1, hx2, hx3⟩
                rcases List.mem_append.1 hx with hx | hx
                · exact .inl ⟨x, hx, hx1, hx2, hx3⟩
                · obtain rfl := List.mem_singleton.1 hx
                  exact .inr ⟨hx2.symm, hx3.symm⟩
              · rintro (⟨x, hx, hx1⟩ | ⟨rfl, rfl⟩)
                · exact ⟨x, List.mem_append_left _ hx, hx1⟩
                · exact ⟨y, by simp, ⟨hs, hc⟩, rfl, rfl⟩)
          simpa using this
        · simp only
          apply h3.away (.inl hsym)
          intro k w
          constructor
          · rintro ⟨x, hx, hx1, hx2⟩
            rcases List.mem_append.1 hx with hx | hx
            · exact ⟨x, hx, hx1, hx2⟩
            · obtain rfl := List.mem_singleton.1 hx
              have := hx1.2.1
              rw [hc] at this; cases this
          · rintro ⟨x, hx, hx1⟩
            exact ⟨x, List.mem_append_left _ hx, hx1⟩
      · rw [if_neg hc]
        have hr : y.code = .REDUCE := by cases h : y.code <;> simp_all
        have h2' : ∀ k w, (∃ x ∈ pre ++ [y], x.isSh ∧ x.symbol = k ∧ x.number = w) ↔
            (∃ x ∈ pre, x.isSh ∧ x.symbol = k ∧ x.number = w) := by
          intro k w
          constructor
          · rintro ⟨x, hx, hx1, hx2⟩
            rcases List.mem_append.1 hx with hx | hx
            · exact ⟨x, hx, hx1, hx2⟩
            · obtain rfl := List.mem_singleton.1 hx
              exact absurd hx1.2 hc
          · rintro ⟨x, hx, hx1⟩
            exact ⟨x, List.mem_append_left _ hx, hx1⟩
        by_cases hd : y.number ≠ d
        · rw [if_pos hd]
          refine ⟨by simpa using h1, ?_, ?_⟩
          · exact h2.away (.inr (by omega)) h2'
          · simp only
            rw [Nat.add_comm y.symbol n]
            refine h3.add hsym (Nat.pos_iff_ne_zero.1 hnum) (by omega) (by
              rintro w ⟨x, hx, hx1, hx2, -⟩
              exact hdis x hx hx1.1 hx2) (by
              intro k w
              constructor
              · rintro ⟨x, hx, hx1, hx2, hx3⟩
                rcases List.mem_append.1 hx with hx | hx
                · exact .inl ⟨x, hx, hx1, hx2, hx3⟩
                · obtain rfl := List.mem_singleton.1 hx
                  exact .inr ⟨hx2.symm, hx3.symm⟩
              · rintro (⟨x, hx, hx1⟩ | ⟨rfl, rfl⟩)
                · exact ⟨x, List.mem_append_left _ hx, hx1⟩
                · exact ⟨y, by simp, ⟨hs, hr, hd⟩, rfl, rfl⟩)
        · rw [if_neg hd]
          refine ⟨h1, h2.congr h2', h3.congr ?_⟩
          intro k w
          constructor
          · rintro ⟨x, hx, hx1, hx2⟩
            rcases List.mem_append.1 hx with hx | hx
            · exact ⟨x, hx, hx1, hx2⟩
            · obtain rfl := List.mem_singleton.1 hx
              exact absurd hx1.2.2 hd
          · rintro ⟨x, hx, hx1⟩
            exact ⟨x, List.mem_append_left _ hx, hx1⟩
    · rw [if_neg hs]
      refine ⟨h1, h2.congr ?_, h3.congr ?_⟩
      all_goals
        intro k w
        constructor
        · rintro ⟨x, hx, hx1, hx2⟩
          rcases List.mem_append.1 hx with hx | hx
          · exact ⟨x, hx, hx1, hx2⟩
          · obtain rfl := List.mem_singleton.1 hx
            exact absurd hx1.1 hs
        · rintro ⟨x, hx, hx1⟩
          exact ⟨x, List.mem_append_left _ hx, hx1⟩

theorem VecOK.empty : VecOK {} := ⟨rfl, by simp, by simp⟩

theorem rowVec_spec {n nsyms : Nat} {sv : List Int} (hsv : SymVals n nsyms sv) {row : List Nat} {off cnt sub : Nat}
    {S : Nat → Nat → Prop} (H : Half n row off cnt S) (hS : ∀ j v, S j v → j < n ∧ v ≠ 0) :
    VecOK (rowVec n sv row cnt off sub) ∧
    ∀ x y, (x, y) ∈ (rowVec n sv row cnt off sub).ents ↔ ∃ j v, S j v ∧ x = sv.getD j 0 ∧ y = v - sub := by
  have hmem : ∀ j, j ∈ (List.range n).filter (fun j => row.getD (off + j) 0 != 0) ↔ ∃ v, S j v := by
    intro j
    simp only [List.mem_filter, List.mem_range, bne_iff_ne, ne_eq]
    constructor
    · rintro ⟨h1, h2⟩
      exact ⟨_, (H.get j h1 _ h2).1 rfl⟩
    · rintro ⟨v, hv⟩
      obtain ⟨h1, h2⟩ := hS j v hv
      have := (H.get j h1 v h2).2 hv
      exact ⟨h1, by rw [this]; exact h2⟩
  have hval : ∀ j v, S j v → row.getD (off + j) 0 = v := fun j v h => (H.get j (hS j v h).1 v (hS j v h).2).2 h
  unfold rowVec
  split
  · refine ⟨⟨?_, ?_, ?_⟩, ?_⟩
    · simp only [List.length_map]; exact H.cnt
    · intro e he
      simp only [List.mem_map] at he
      obtain ⟨j, hj, rfl⟩ := he
      exact hsv.nonneg j (List.mem_range.1 (List.mem_filter.1 hj).1)
    · simp only [List.map_map]
      refine List.Nodup.map_on ?_ (List.nodup_range.filter _)
      intro a ha b hb h
      exact hsv.inj a b (List.mem_range.1 (List.mem_filter.1 ha).1) (List.mem_range.1 (List.mem_filter.1 hb).1) h
    · intro x y
      simp only [List.mem_map, Prod.mk.injEq]
      constructor
      · rintro ⟨j, hj, rfl, rfl⟩
        obtain ⟨v, hv⟩ := (hmem j).1 hj
        exact ⟨j, v, hv, rfl, by rw [hval j v hv]⟩
      · rintro ⟨j, v, hv, rfl, rfl⟩
        exact ⟨j, (hmem j).2 ⟨v, hv⟩, rfl, by rw [hval j v hv]⟩
  · rename_i hc
    refine ⟨.empty, ?_⟩
    intro x y
    simp only [List.not_mem_nil, false_iff]
    rintro ⟨j, v, hv, -⟩
    have h1 := (hmem j).2 ⟨v, hv⟩
    have h2 := H.cnt
    have h3 := List.length_pos_of_mem h1
    omega

theorem getD_set_vec {l : List Vec} {i k : Nat} {x : Vec} (hi : i < l.length) :
    (l.set i x).getD k {} = if k = i then x else l.getD k {} := by
  simp only [List.getD_eq_getElem?_getD, List.getElem?_set]
  by_cases h : i = k
  · subst h; simp [hi]
  · have : ¬ k = i := fun h' => h h'.symm
    simp [h, this]

theorem tokenActions_spec {nt nsyms n : Nat} {sv : List Int} (hsv : SymVals nt nsyms sv) {rows : List (List Action)}
    {defred : List Nat} (hrows : ∀ q, q < n → RowOK nt (rows.getD q [])) {vs0 : List Vec} (hlen : 2 * n ≤ vs0.length)
    (h0 : ∀ k, vs0.getD k {} = {}) :
    (tokenActions nt n sv rows defred vs0).length = vs0.length ∧
    (∀ k, VecOK ((tokenActions nt n sv rows defred vs0).getD k {})) ∧
    (∀ q, q < n → ∀ x y, (x, y) ∈ entsAt (tokenActions nt n sv rows defred vs0) q ↔
      ∃ a ∈ rows.getD q [], a.isSh ∧ x = sv.getD a.symbol 0 ∧ y = a.number) ∧
    (∀ q, q < n → ∀ x y, (x, y) ∈ entsAt (tokenActions nt n sv rows defred vs0) (n + q) ↔
      ∃ a ∈ rows.getD q [], a.isRe (defred.getD q 0) ∧ x = sv.getD a.symbol 0 ∧ y = a.number - 2) ∧
    (∀ k, 2 * n ≤ k → (tokenActions nt n sv rows defred vs0).getD k {} = {}) := by
  unfold tokenActions
  have key := loop_inv (n := n) (s := vs0) (f := fun vs i =>
    match rows.getD i [] with
    | [] => vs
    | acts =>
      let r := actionRow nt (defred.getD i 0) acts
      (vs.set i (rowVec nt sv r.row r.shiftcount 0 0)).set (n + i)
        (rowVec nt sv r.row r.reducecount nt 2))
    (fun i vs => vs.length = vs0.length ∧ (∀ k, VecOK (vs.getD k {})) ∧
      (∀ q, q < i → ∀ x y, (x, y) ∈ entsAt vs q ↔
        ∃ a ∈ rows.getD q [], a.isSh ∧ x = sv.getD a.symbol 0 ∧ y = a.number) ∧
      (∀ q, q < i → ∀ x y, (x, y) ∈ entsAt vs (n + q) ↔
        ∃ a ∈ rows.getD q [], a.isRe (defred.getD q 0) ∧ x = sv.getD a.symbol 0 ∧ y = a.number - 2) ∧
      (∀ q, i ≤ q → q < n → vs.getD q {} = {} ∧ vs.getD (n + q) {} = {}) ∧
      (∀ k, 2 * n ≤ k → vs.getD k {} = {})) ?_ ?_
  · exact ⟨key.1, key.2.1, key.2.2.1, key.2.2.2.1, key.2.2.2.2.2⟩
  · refine ⟨rfl, fun k => by rw [h0]; exact .empty, by simp, by simp, fun q _ _ => ⟨h0 _, h0 _⟩, fun k _ => h0 k⟩
  · rintro i vs hi ⟨h1, h2, h3, h4, h5, h6⟩
    have hrow := hrows i hi
    simp only
    split
    · rename_i hnil
      refine ⟨h1, h2, ?_, ?_, fun q hq hq' => h5 q (by omega) hq', h6⟩
      · intro q hq x y
        by_cases e : q = i
        · subst e
          rw [hnil, entsAt, (h5 q (le_refl _) hi).1]
          simp
        · exact h3 q (by omega) x y
      · intro q hq x y
        by_cases e : q = i
        · subst e
          rw [hnil, entsAt, (h5 q (le_refl _) hi).2]
          simp
        · exact h4 q (by omega) x y
    · rename_i acts hne
      obtain ⟨a1, a2, a3⟩ := actionRow_spec (d := defred.getD i 0) hrow
      obtain ⟨s1, s2⟩ := rowVec_spec (sub := 0) hsv a2 (by
        rintro j v ⟨x, hx, -, rfl, rfl⟩
        exact ⟨hrow.sym x hx, Nat.pos_iff_ne_zero.1 (hrow.num x hx)⟩)
      obtain ⟨r1, r2⟩ := rowVec_spec (sub := 2) hsv a3 (by
        rintro j v ⟨x, hx, -, rfl, rfl⟩
        exact ⟨hrow.sym x hx, Nat.pos_iff_ne_zero.1 (hrow.num x hx)⟩)
      generalize hA : rowVec nt sv (actionRow nt (defred.getD i 0) (rows.getD i [])).row
        (actionRow nt (defred.getD i 0) (rows.getD i [])).shiftcount 0 0 = A at *
      generalize hB : rowVec nt sv (actionRow nt (defred.getD i 0) (rows.getD i [])).row
        (actionRow nt (defred.getD i 0) (rows.getD i [])).reducecount nt 2 = B at *
      have hg : ∀ k, ((vs.set i A).set (n + i) B).getD k {} = if k = n + i then B else if k = i then A else vs.getD k {} := by
        intro k
        rw [getD_set_vec (by simp; omega), getD_set_vec (by omega)]
      refine ⟨by simpa using h1, ?_, ?_, ?_, ?_, ?_⟩
      · intro k
        rw [hg]
        split
        · exact r1
        · split
          · exact s1
          · exact h2 k
      · intro q hq x y
        rw [entsAt, hg, if_neg (by omega)]
        by_cases e : q = i
        · subst e
          rw [if_pos rfl, s2]
          constructor
          · rintro ⟨j, v, ⟨a, ha, ha1, rfl, rfl⟩, rfl, rfl⟩
            exact ⟨a, ha, ha1, rfl, rfl⟩
          · rintro ⟨a, ha, ha1, rfl, rfl⟩
            exact ⟨_, _, ⟨a, ha, ha1, rfl, rfl⟩, rfl, rfl⟩
        · rw [if_neg e]
          exact h3 q (by omega) x y
      · intro q hq x y
        rw [entsAt, hg]
        by_cases e : q = i
        · subst e
          rw [if_pos rfl, r2]
          constructor
          · rintro ⟨j, v, ⟨a, ha, ha1, rfl, rfl⟩, rfl, rfl⟩
            exact ⟨a, ha, ha1, rfl, rfl⟩
          · rintro ⟨a, ha, ha1, rfl, rfl⟩
            exact ⟨_, _, ⟨a, ha, ha1, rfl, rfl⟩, rfl, rfl⟩
        · rw [if_neg (by omega), if_neg (by omega)]
          exact h4 q (by omega) x y
      · intro q hq hq'
        rw [hg, hg, if_neg (by omega), if_neg (by omega), if_neg (by omega), if_neg (by omega)]
        exact h5 q (by omega) hq'
      · intro k hk
        rw [hg, if_neg (by omega), if_neg (by omega)]
        exact h6 k hk

/-! ### columns -/

/-- how often `t` is a target in the column -/
def hits (col : List (Nat × Nat)) (t : Nat) : Nat := col.countP (fun p => p.2 == t)

theorem countFold_spec (n : Nat) (col : List (Nat × Nat)) (hlt : ∀ p ∈ col, p.2 < n) (t : Nat) (ht : t < n) :
    (col.foldl (fun (c : List Nat) p => c.set p.2 (c.getD p.2 0 + 1)) (List.replicate n 0)).getD t 0 = hits col t := by
  have := foldl_inv (f := fun (c : List Nat) (p : Nat × Nat) => c.set p.2 (c.getD p.2 0 + 1)) col
    (s := List.replicate n 0) (fun P (c : List Nat) => c.length = n ∧ ∀ t, t < n → c.getD t 0 = hits P t) ?_ ?_
  · exact this.2 t ht
  · refine ⟨by simp, ?_⟩
    intro t ht
    simp [hits, List.getElem?_replicate, ht]
  · rintro pre y post c hl ⟨h1, h2⟩
    have hy := hlt y (by rw [hl]; simp)
    refine ⟨by simpa using h1, ?_⟩
    intro t ht
    rw [List.getD_eq_getElem?_getD]
    unfold hits
    rw [List.countP_append, List.countP_singleton]
    by_cases e : t = y.2
    · subst e
      rw [List.getElem?_set_self (by omega)]
      simp only [Option.getD_some, beq_self_eq_true, if_true]
      rw [h2 _ ht]; rfl
    · have e' : ¬ y.2 = t := fun h => e h.symm
      rw [List.getElem?_set_ne e', ← List.getD_eq_getElem?_getD, h2 t ht]
      simp [e', hits]

theorem maxLoop_spec (f : Nat → Nat) (n : Nat) (hf : ∃ i, i < n ∧ 0 < f i) :
    let r := loop n (fun (st : Nat × Nat) i => if f i > st.1 then (f i, i) else st) (0, 0)
    r.2 < n ∧ f r.2 = r.1 ∧ (∀ i, i < n → f i ≤ f r.2) ∧ (∀ i, i < r.2 → f i < f r.2) := by
  have := loop_inv (n := n) (f := fun (st : Nat × Nat) i => if f i > st.1 then (f i, i) else st) (s := (0, 0))
    (fun k st => (∀ i, i < k → f i ≤ st.1) ∧ (0 < st.1 → st.2 < k ∧ f st.2 = st.1 ∧ ∀ i, i < st.2 → f i < st.1)) ?_ ?_
  · intro r
    obtain ⟨h1, h2⟩ := this
    obtain ⟨i, hi, hpos⟩ := hf
    have h3 := h2 (by have := h1 i hi; omega)
    refine ⟨h3.1, h3.2.1, ?_, ?_⟩
    · rw [h3.2.1]; exact h1
    · rw [h3.2.1]; exact h3.2.2
  · exact ⟨by simp, by simp⟩
  · rintro k ⟨m, d⟩ hk ⟨h1, h2⟩
    simp only at h1 h2 ⊢
    split
    · rename_i hgt
      refine ⟨?_, ?_⟩
      · intro i hi
        rcases Nat.lt_succ_iff_lt_or_eq.1 hi with hi | rfl
        · have := h1 i hi; simp only; omega
        · exact Nat.le_refl _
      · intro _
        refine ⟨by simp, rfl, ?_⟩
        intro i hi
        have := h1 i hi
        simp only; omega
    · rename_i hgt
      refine ⟨?_, ?_⟩
      · intro i hi
        rcases Nat.lt_succ_iff_lt_or_eq.1 hi with hi | rfl
        · exact h1 i hi
        · simp only; omega
      · intro h
        obtain ⟨a, b, c⟩ := h2 h
        exact ⟨by simp only at a ⊢; omega, b, c⟩

theorem defaultGoto_spec (n : Nat) (col : List (Nat × Nat)) (hlt : ∀ p ∈ col, p.2 < n) :
    (col = [] → defaultGoto n col = 0) ∧
    (col ≠ [] → (∃ p ∈ col, p.2 = defaultGoto n col) ∧ (∀ t, hits col t ≤ hits col (defaultGoto n col)) ∧
      ∀ t, t < defaultGoto n col → hits col t < hits col (defaultGoto n col)) := by
  refine ⟨fun h => by simp [defaultGoto, h], ?_⟩
  intro hne
  unfold defaultGoto
  rw [if_neg hne]
  simp only
  generalize hc : col.foldl (fun (c : List Nat) p => c.set p.2 (c.getD p.2 0 + 1)) (List.replicate n 0) = count
  have hcnt : ∀ t, t < n → count.getD t 0 = hits col t := fun t ht => by rw [← hc]; exact countFold_spec n col hlt t ht
  have hpos : ∀ p ∈ col, 0 < hits col p.2 := by
    intro p hp
    exact List.countP_pos_iff.2 ⟨p, hp, by simp⟩
  obtain ⟨p0, hp0⟩ := List.exists_mem_of_ne_nil col hne
  have hm := maxLoop_spec (fun i => count.getD i 0) n ⟨p0.2, hlt p0 hp0, by rw [hcnt _ (hlt p0 hp0)]; exact hpos p0 hp0⟩
  simp only at hm
  generalize (loop n (fun (st : Nat × Nat) i => if count.getD i 0 > st.1 then (count.getD i 0, i) else st) (0, 0)) = r at hm
  obtain ⟨h1, h2, h3, h4⟩ := hm
  rw [hcnt _ h1] at h3 h4
  have h5 : 0 < hits col r.2 := by
    have := h3 p0.2 (hlt p0 hp0)
    rw [hcnt _ (hlt p0 hp0)] at this
    have := hpos p0 hp0
    omega
  refine ⟨?_, ?_, ?_⟩
  · obtain ⟨p, hp, hpe⟩ := List.countP_pos_iff.1 h5
    exact ⟨p, hp, by simpa using hpe⟩
  · intro t
    by_cases ht : t < n
    · have := h3 t ht
      rwa [hcnt t ht] at this
    · have : hits col t = 0 := by
        unfold hits
        rw [List.countP_eq_zero]
        intro p hp
        have := hlt p hp
        simp; omega
      omega
  · intro t ht
    have := h4 t ht
    rwa [hcnt t (by omega)] at this

theorem saveColumn_spec (col : List (Nat × Nat)) (d : Nat) (hs : col.Pairwise (fun p q => p.1 < q.1)) :
    VecOK (saveColumn col d) ∧ ∀ x y, (x, y) ∈ (saveColumn col d).ents ↔ ∃ s : Nat, x = (s : Int) ∧ (s, y) ∈ col ∧ y ≠ d := by
  have hmem : ∀ s y, (s, y) ∈ col.filter (fun p => p.2 != d) ↔ (s, y) ∈ col ∧ y ≠ d := by
    intro s y
    simp [List.mem_filter]
  unfold saveColumn
  simp only
  split
  · rename_i h0
    refine ⟨.empty, ?_⟩
    intro x y
    simp only [List.not_mem_nil, false_iff]
    rintro ⟨s, -, h⟩
    have := List.length_pos_of_mem ((hmem s y).2 h)
    omega
  · refine ⟨⟨by simp, ?_, ?_⟩, ?_⟩
    · intro e he
      simp only [List.mem_map] at he
      obtain ⟨p, -, rfl⟩ := he
      exact Int.natCast_nonneg _
    · simp only [List.map_map]
      have : (col.filter (fun p => p.2 != d)).Pairwise (fun p q => p.1 < q.1) := hs.filter _
      refine List.Pairwise.map _ ?_ this
      intro a b h
      simp only [Function.comp, ne_eq]
      omega
    · intro x y
      simp only [List.mem_map, Prod.mk.injEq]
      constructor
      · rintro ⟨⟨s, t⟩, hp, rfl, rfl⟩
        exact ⟨s, rfl, (hmem s t).1 hp⟩
      · rintro ⟨s, rfl, h⟩
        exact ⟨(s, y), (hmem s y).2 h, rfl, rfl⟩

theorem saveColumn_tally (col : List (Nat × Nat)) (d : Nat) (h : (saveColumn col d).tally = 0) : saveColumn col d = {} := by
  unfold saveColumn at h ⊢
  simp only at h ⊢
  split
  · rfl
  · rename_i h0
    rw [if_neg h0] at h
    exact absurd h h0

theorem gotoActions_spec {per n : Nat} {g : Gram} {m : GotoMap} {sv : List Int} (hsv : SymVals g.ntokens g.nsyms sv)
    {vs0 : List Vec} (hlen : vs0.length = per * n + g.nvars) (h0 : ∀ k, per * n ≤ k → vs0.getD k {} = {}) :
    (gotoActions per g n m sv vs0).2.length = vs0.length ∧
    (∀ k, k < per * n → (gotoActions per g n m sv vs0).2.getD k {} = vs0.getD k {}) ∧
    (gotoActions per g n m sv vs0).1.length = g.nsyms - (g.ntokens + 1) ∧
    (∀ i, i < g.nsyms - (g.ntokens + 1) →
      (gotoActions per g n m sv vs0).1[i]? = some (defaultGoto n (columnOf g m (g.ntokens + 1 + i))) ∧
      (gotoActions per g n m sv vs0).2.getD (per * n + i) {} =
        saveColumn (columnOf g m (g.ntokens + 1 + i)) (defaultGoto n (columnOf g m (g.ntokens + 1 + i)))) ∧
    (∀ k, per * n + (g.nsyms - (g.ntokens + 1)) ≤ k → (gotoActions per g n m sv vs0).2.getD k {} = {}) := by
  unfold gotoActions
  have key : ∀ L, L ≤ g.nsyms - (g.ntokens + 1) →
      let r := (List.range' (g.ntokens + 1) L).foldl (fun (st : List Nat × List Vec) symbol =>
        let k := defaultGoto n (columnOf g m symbol)
        let v := saveColumn (columnOf g m symbol) k
        (st.1 ++ [k], if v.tally = 0 then st.2 else st.2.set (sv.getD symbol 0 + (per * n : Nat)).toNat v)) ([], vs0)
      r.2.length = vs0.length ∧ (∀ k, k < per * n → r.2.getD k {} = vs0.getD k {}) ∧ r.1.length = L ∧
      (∀ i, i < L → r.1[i]? = some (defaultGoto n (columnOf g m (g.ntokens + 1 + i))) ∧
        r.2.getD (per * n + i) {} =
          saveColumn (columnOf g m (g.ntokens + 1 + i)) (defaultGoto n (columnOf g m (g.ntokens + 1 + i)))) ∧
      (∀ k, per * n + L ≤ k → r.2.getD k {} = {}) := by
    intro L
    induction L with
    | zero => intro _; exact ⟨rfl, fun _ _ => rfl, rfl, by simp, fun k hk => h0 k (by omega)⟩
    | succ L ih =>
      intro hL
      obtain ⟨h1, h2, h3, h4, h5⟩ := ih (by omega)
      rw [List.range'_1_concat, List.foldl_append]
      generalize (List.range' (g.ntokens + 1) L).foldl _ _ = r at h1 h2 h3 h4 h5
      simp only [List.foldl_cons, List.foldl_nil]
      have hval : (sv.getD (g.ntokens + 1 + L) 0 + (per * n : Nat)).toNat = per * n + L := by
        rw [hsv.nt _ (by omega) (by omega)]; push_cast; omega
      rw [hval]
      have hset : ∀ k, (if (saveColumn (columnOf g m (g.ntokens + 1 + L)) (defaultGoto n (columnOf g m (g.ntokens + 1 + L)))).tally = 0
          then r.2 else r.2.set (per * n + L) (saveColumn (columnOf g m (g.ntokens + 1 + L)) (defaultGoto n (columnOf g m (g.ntokens + 1 + L))))).getD k {} =
          if k = per * n + L then saveColumn (columnOf g m (g.ntokens + 1 + L)) (defaultGoto n (columnOf g m (g.ntokens + 1 + L)))
          else r.2.getD k {} := by
        intro k
        split
        · rename_i ht
          split
          · rename_i hk
            subst hk
            rw [saveColumn_tally _ _ ht]
            exact h5 _ (by omega)
          · rfl
        · exact getD_set_vec (by rw [h1, hlen]; unfold Gram.nvars; omega)
      refine ⟨?_, ?_, ?_, ?_, ?_⟩
      · split
        · exact h1
        · simpa using h1
      · intro k hk
        rw [hset, if_neg (by omega)]
        exact h2 k hk
      · simp [h3]
      · intro i hi
        rw [hset]
        rcases Nat.lt_succ_iff_lt_or_eq.1 hi with hi | rfl
        · rw [if_neg (by omega), List.getElem?_append_left (by omega)]
          exact h4 i hi
        · rw [if_pos rfl, List.getElem?_append_right (by omega), h3]
          simp
      · intro k hk
        rw [hset, if_neg (by omega)]
        exact h5 k (by omega)
  exact key _ (le_refl _)

end Verif.Byacc
