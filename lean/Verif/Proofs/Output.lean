import Verif.Byacc.Output
import Verif.Proofs.Loop
import Mathlib.Order.Defs.LinearOrder
import Mathlib.Data.Nat.Basic
import Mathlib.Data.Int.Order.Basic
import Mathlib.Tactic.Push
import Mathlib.Tactic.ByContra
/-
Packing: what each loop of `pack_vector` does.
-/
set_option autoImplicit false
namespace Verif.Byacc

theorem growLoop_spec (loc : Int) (fuel m : Nat) (h : loc < m + 200 * (fuel : Int)) (hf : 0 < fuel) :
    loc < growLoop loc fuel m ∧ m + 200 ≤ growLoop loc fuel m := by
  induction fuel generalizing m with
  | zero => omega
  | succ f ih =>
    unfold growLoop
    split
    · rename_i hc
      have hf : 0 < f := by
        rcases Nat.eq_zero_or_pos f with hf | hf
        · subst hf; omega
        · exact hf
      have := ih (m + 200) (by omega) hf
      omega
    · rename_i hc
      omega

/-- The arrays have the size `maxtable`. -/
structure Sized (p : Pack) : Prop where
  t : p.table.length = p.maxtable
  c : p.check.length = p.maxtable

/-- `p'` is `p` with the arrays possibly extended by free cells. -/
structure Ext (p p' : Pack) : Prop where
  sized : Sized p'
  le : p.maxtable ≤ p'.maxtable
  grown : p'.maxtable = p.maxtable ∨ p.maxtable + 200 ≤ p'.maxtable
  oldc : ∀ i : Nat, i < p.maxtable → p'.check[i]? = p.check[i]?
  oldt : ∀ i : Nat, i < p.maxtable → p'.table[i]? = p.table[i]?
  newc : ∀ i : Nat, p.maxtable ≤ i → i < p'.maxtable → p'.check[i]? = some (-1)
  lowzero : p'.lowzero = p.lowzero
  high : p'.high = p.high
  pos : p'.pos = p.pos
  base : p'.base = p.base

theorem Ext.refl {p : Pack} (h : Sized p) : Ext p p :=
  ⟨h, le_refl _, .inl rfl, fun _ _ => rfl, fun _ _ => rfl, fun _ h1 h2 => by omega, rfl, rfl, rfl, rfl⟩

theorem Ext.trans {p q r : Pack} (h1 : Ext p q) (h2 : Ext q r) : Ext p r where
  sized := h2.sized
  le := Nat.le_trans h1.le h2.le
  grown := by have := h1.grown; have := h2.grown; omega
  oldc i hi := (h2.oldc i (lt_of_lt_of_le hi h1.le)).trans (h1.oldc i hi)
  oldt i hi := (h2.oldt i (lt_of_lt_of_le hi h1.le)).trans (h1.oldt i hi)
  newc i hi hi' := by
    rcases Nat.lt_or_ge i q.maxtable with h | h
    · rw [h2.oldc i h]; exact h1.newc i hi h
    · exact h2.newc i h hi'
  lowzero := h2.lowzero.trans h1.lowzero
  high := h2.high.trans h1.high
  pos := h2.pos.trans h1.pos
  base := h2.base.trans h1.base

/-- A used cell of the extension was a used cell before. -/
theorem Ext.used {p q : Pack} (h : Ext p q) {i : Nat} {c : Int} (hi : q.check[i]? = some c) (hc : c ≠ -1) :
    i < p.maxtable ∧ p.check[i]? = some c := by
  rcases Nat.lt_or_ge i p.maxtable with h1 | h1
  · exact ⟨h1, by rw [← h.oldc i h1]; exact hi⟩
  · have hlt : i < q.maxtable := by
      rw [← h.sized.c]; exact (List.getElem?_eq_some_iff.1 hi).1
    rw [h.newc i h1 hlt] at hi
    simp at hi; omega

theorem ensure_spec {p : Pack} (hs : Sized p) (loc : Int) :
    ensure p loc = .fatal ∨ ∃ p', ensure p loc = .ok p' ∧ Ext p p' ∧ loc < p'.maxtable ∧
      ((p' = p ∧ loc < (p.maxtable : Int) - 1) ∨ p.maxtable + 200 ≤ p'.maxtable) := by
  unfold ensure
  split
  · rename_i hge
    split
    · exact .inl rfl
    · right
      have hg := growLoop_spec loc (loc.toNat + 1) p.maxtable (by push_cast; omega) (by omega)
      generalize growLoop loc (loc.toNat + 1) p.maxtable = n at hg
      obtain ⟨hg1, hg2⟩ := hg
      refine ⟨_, rfl, ?_, hg1, .inr hg2⟩
      have ht : p.table.take n = p.table := List.take_of_length_le (by rw [hs.t]; omega)
      have hc : p.check.take n = p.check := List.take_of_length_le (by rw [hs.c]; omega)
      refine ⟨⟨?_, ?_⟩, ?_, .inr hg2, ?_, ?_, ?_, rfl, rfl, rfl, rfl⟩
      · simp only [ht, hs.t, List.length_append, List.length_replicate]; omega
      · simp only [hc, hs.c, List.length_append, List.length_replicate]; omega
      · simp only; omega
      · intro i hi
        simp only [hc]
        rw [List.getElem?_append_left (by rw [hs.c]; exact hi)]
      · intro i hi
        simp only [ht]
        rw [List.getElem?_append_left (by rw [hs.t]; exact hi)]
      · intro i hi hi'
        simp only [hc]
        simp only at hi'
        rw [List.getElem?_append_right (by rw [hs.c]; exact hi), hs.c, List.getElem?_replicate, if_pos (by omega)]
  · rename_i hlt
    exact .inr ⟨p, rfl, .refl hs, by omega, .inl ⟨rfl, by omega⟩⟩

/-- `check[loc] == -1` and `loc` inside the table -/
def FreeAt (p : Pack) (loc : Int) : Prop := 0 ≤ loc ∧ loc < p.maxtable ∧ p.check[loc.toNat]? = some (-1)

theorem FreeAt.ext {p q : Pack} (h : Ext p q) {loc : Int} (hf : FreeAt p loc) : FreeAt q loc := by
  obtain ⟨h0, h1, h2⟩ := hf
  have := h.le
  exact ⟨h0, by omega, by rw [h.oldc _ (by omega)]; exact h2⟩

theorem tryBase_spec (j : Int) (es : List (Int × Nat)) {p : Pack} (hs : Sized p)
    (hpos : ∀ e ∈ es, 0 ≤ j + e.1) :
    tryBase j es p = .fatal ∨ ∃ p' b, tryBase j es p = .ok (p', b) ∧ Ext p p' ∧
      (b = true → ∀ e ∈ es, FreeAt p' (j + e.1) ∧
        (j + e.1 < (p.maxtable : Int) - 1 ∨ p.maxtable + 200 ≤ p'.maxtable)) ∧
      (b = false → ∃ e ∈ es, ∃ c, c ≠ -1 ∧ p.check[(j + e.1).toNat]? = some c) := by
  induction es generalizing p with
  | nil => exact .inr ⟨p, true, rfl, .refl hs, by simp, by simp⟩
  | cons e es ih =>
    unfold tryBase
    have h0 := hpos e (by simp)
    rcases ensure_spec hs (j + e.1) with h | ⟨p1, h, hx, hlt, hg⟩
    · left; rw [h]; rfl
    · rw [h]
      have hlen : (j + e.1).toNat < p1.check.length := by rw [hx.sized.c]; omega
      have hrd : readCheck p1 (j + e.1) = .ok (p1.check[(j + e.1).toNat]) := by
        unfold readCheck
        rw [if_neg (by omega), List.getElem?_eq_getElem hlen]
      simp only [Out.bind, hrd]
      split
      · rename_i hc
        refine .inr ⟨p1, false, rfl, hx, by simp, fun _ => ⟨e, by simp, _, hc, ?_⟩⟩
        exact (hx.used (List.getElem?_eq_getElem hlen) hc).2
      · rename_i hc
        have hc : p1.check[(j + e.1).toNat] = -1 := by simpa using hc
        have hfree : FreeAt p1 (j + e.1) := ⟨h0, hlt, by rw [List.getElem?_eq_getElem hlen, hc]⟩
        rcases ih hx.sized (fun e' he' => hpos e' (by simp [he'])) with h2 | ⟨p2, b, h2, hx2, ht, hf⟩
        · exact .inl h2
        · refine .inr ⟨p2, b, h2, hx.trans hx2, ?_, ?_⟩
          · intro hb e' he'
            have := hx.grown
            have := hx2.grown
            rcases List.mem_cons.1 he' with rfl | he'
            · refine ⟨hfree.ext hx2, ?_⟩
              rcases hg with ⟨_, hg⟩ | hg
              · exact .inl hg
              · right; have := hx2.le; omega
            · obtain ⟨a, b⟩ := ht hb e' he'
              exact ⟨a, by omega⟩
          · intro hb
            obtain ⟨e', he', c, hc1, hc2⟩ := hf hb
            exact ⟨e', by simp [he'], c, hc1, (hx.used hc2 hc1).2⟩

/-- Effect of `writeEnts`. -/
structure Written (j : Int) (es : List (Int × Nat)) (p p' : Pack) : Prop where
  sized : Sized p'
  maxtable : p'.maxtable = p.maxtable
  lowzero : p'.lowzero = p.lowzero
  pos : p'.pos = p.pos
  base : p'.base = p.base
  here : ∀ e ∈ es, p'.check[(j + e.1).toNat]? = some e.1 ∧ p'.table[(j + e.1).toNat]? = some e.2
  away : ∀ i : Nat, (∀ e ∈ es, j + e.1 ≠ i) → p'.check[i]? = p.check[i]? ∧ p'.table[i]? = p.table[i]?
  high_le : p.high ≤ p'.high
  high_ge : ∀ e ∈ es, j + e.1 ≤ p'.high
  high_eq : p'.high = p.high ∨ ∃ e ∈ es, j + e.1 = p'.high

theorem writeEnts_spec (j : Int) (es : List (Int × Nat)) {p : Pack} (hs : Sized p)
    (hb : ∀ e ∈ es, 0 ≤ j + e.1 ∧ j + e.1 < p.maxtable) (hnd : (es.map Prod.fst).Nodup) :
    ∃ p', writeEnts j es p = .ok p' ∧ Written j es p p' := by
  induction es generalizing p with
  | nil => exact ⟨p, rfl, hs, rfl, rfl, rfl, rfl, by simp, by simp, le_refl _, by simp, .inl rfl⟩
  | cons e es ih =>
    obtain ⟨h0, h1⟩ := hb e (by simp)
    unfold writeEnts
    simp only
    rw [if_neg (by rw [hs.t, hs.c]; omega)]
    simp only [List.map_cons, List.nodup_cons] at hnd
    have hs1 : Sized { p with
      table := p.table.set (j + e.1).toNat e.2
      check := p.check.set (j + e.1).toNat e.1
      high := if j + e.1 > (p.high : Int) then (j + e.1).toNat else p.high } :=
      ⟨by simp [hs.t], by simp [hs.c]⟩
    obtain ⟨p2, h2, hw⟩ := ih hs1 (fun e' he' => hb e' (by simp [he'])) hnd.2
    refine ⟨p2, h2, hw.sized, hw.maxtable, hw.lowzero, hw.pos, hw.base, ?_, ?_, ?_, ?_, ?_⟩
    · intro e' he'
      rcases List.mem_cons.1 he' with rfl | he'
      · have := hw.away (j + e'.1).toNat (by
          intro e2 he2 heq
          have : e2.1 = e'.1 := by omega
          exact hnd.1 (this ▸ List.mem_map_of_mem he2))
        simp only at this
        rw [this.1, this.2, List.getElem?_set_self (by rw [hs.c]; omega),
          List.getElem?_set_self (by rw [hs.t]; omega)]
        exact ⟨rfl, rfl⟩
      · exact hw.here e' he'
    · intro i hi
      have := hw.away i (fun e' he' => hi e' (by simp [he']))
      have hne := hi e (by simp)
      simp only at this
      rw [this.1, this.2, List.getElem?_set_ne (by omega), List.getElem?_set_ne (by omega)]
      exact ⟨rfl, rfl⟩
    · have := hw.high_le
      simp only at this
      split at this <;> omega
    · intro e' he'
      rcases List.mem_cons.1 he' with rfl | he'
      · have := hw.high_le
        simp only at this
        split at this <;> omega
      · exact hw.high_ge e' he'
    · rcases hw.high_eq with h | ⟨e', he', h⟩
      · simp only at h
        split at h
        · exact .inr ⟨e, by simp, by omega⟩
        · exact .inl h
      · exact .inr ⟨e', by simp [he'], h⟩

theorem scanLow_spec (fuel : Nat) (p : Pack) (hf : p.check.length < p.lowzero + fuel) :
    (∃ l, scanLow fuel p = .ok { p with lowzero := l } ∧ p.lowzero ≤ l ∧ p.check[l]? = some (-1) ∧
      ∀ i : Nat, p.lowzero ≤ i → i < l → ∃ c, c ≠ -1 ∧ p.check[i]? = some c) ∨
    (scanLow fuel p = .outOfBounds ∧ ∀ i : Nat, p.lowzero ≤ i → i < p.check.length → p.check[i]? ≠ some (-1)) ∨
    (scanLow fuel p = .running ∧ p.check.length < p.lowzero) := by
  induction fuel generalizing p with
  | zero => exact .inr (.inr ⟨rfl, by omega⟩)
  | succ f ih =>
    unfold scanLow
    split
    · rename_i h
      have := List.getElem?_eq_none_iff.1 h
      exact .inr (.inl ⟨rfl, fun i hi hi' => by omega⟩)
    · rename_i c h
      have hlt := (List.getElem?_eq_some_iff.1 h).1
      split
      · rename_i hc
        rcases ih { p with lowzero := p.lowzero + 1 } (by simp only; omega) with
          ⟨l, h1, h2, h3, h4⟩ | ⟨h1, h2⟩ | ⟨h1, h2⟩
        · refine .inl ⟨l, h1, by simp only at h2; omega, h3, ?_⟩
          intro i hi hi'
          rcases Nat.eq_or_lt_of_le hi with rfl | hi
          · exact ⟨c, hc, h⟩
          · exact h4 i hi hi'
        · refine .inr (.inl ⟨h1, ?_⟩)
          intro i hi hi'
          rcases Nat.eq_or_lt_of_le hi with rfl | hi
          · rw [h]; simpa using hc
          · exact h2 i hi hi'
        · simp only at h2
          omega
      · rename_i hc
        have hc : c = -1 := by simpa using hc
        exact .inl ⟨p.lowzero, rfl, le_refl _, by rw [h, hc], fun i hi hi' => by omega⟩

/-- A base was found: the cells were free in `p1` (an extension of `p`) and have been filled. -/
structure Placed (es : List (Int × Nat)) (p p1 p2 : Pack) (j : Int) : Prop where
  ext : Ext p p1
  nz : j ≠ 0
  new : j ∉ p.pos
  free : ∀ e ∈ es, FreeAt p1 (j + e.1) ∧ (j + e.1 < (p1.maxtable : Int) - 1 ∨ p.maxtable + 200 ≤ p1.maxtable)
  written : Written j es p1 p2

theorem searchBase_spec (es : List (Int × Nat)) (hnd : (es.map Prod.fst).Nodup) (fuel : Nat) (j : Int)
    {p : Pack} (hs : Sized p) (hlow : p.lowzero ≤ p.maxtable) (hpos : ∀ e ∈ es, 0 ≤ j + e.1) :
    searchBase es fuel j p = .fatal ∨ searchBase es fuel j p = .running ∨
    ∃ p1 p2 j', j ≤ j' ∧ Placed es p p1 p2 j' ∧
      ((∃ l, searchBase es fuel j p = .ok ({ p2 with lowzero := l }, j') ∧ p.lowzero ≤ l ∧
          p2.check[l]? = some (-1) ∧
          ∀ i : Nat, p.lowzero ≤ i → i < l → ∃ c, c ≠ -1 ∧ p2.check[i]? = some c) ∨
       (searchBase es fuel j p = .outOfBounds ∧
          ∀ i : Nat, p.lowzero ≤ i → i < p2.maxtable → p2.check[i]? ≠ some (-1))) := by
  induction fuel generalizing j p with
  | zero => exact .inr (.inl rfl)
  | succ f ih =>
    unfold searchBase
    split
    · rename_i hj
      rcases ih (j + 1) hs hlow (fun e he => by have := hpos e he; omega) with h | h | ⟨p1, p2, j', hj', h⟩
      · exact .inl h
      · exact .inr (.inl h)
      · exact .inr (.inr ⟨p1, p2, j', by omega, h⟩)
    · rename_i hj
      rcases tryBase_spec j es hs hpos with h | ⟨p1, b, h, hx, hb, -⟩
      · left; rw [h]; rfl
      · rw [h]
        simp only [Out.bind]
        split
        · rename_i hcond
          simp only [Bool.and_eq_true, Bool.not_eq_true', List.contains_eq_mem,
            decide_eq_false_iff_not] at hcond
          obtain ⟨hbt, hnew⟩ := hcond
          obtain ⟨p2, hw, W⟩ := writeEnts_spec j es hx.sized
            (fun e he => ⟨(hb hbt e he).1.1, (hb hbt e he).1.2.1⟩) hnd
          rw [hw]
          simp only
          right; right
          have hP : Placed es p p1 p2 j := by
            refine ⟨hx, hj, by rw [← hx.pos]; exact hnew, fun e he => ⟨(hb hbt e he).1, ?_⟩, W⟩
            rcases (hb hbt e he).2 with h | h
            · left; have := hx.le; omega
            · exact .inr h
          refine ⟨p1, p2, j, le_refl _, hP, ?_⟩
          have hlz : p2.lowzero = p.lowzero := W.lowzero.trans hx.lowzero
          rcases scanLow_spec (p2.check.length + 1) p2 (by omega) with ⟨l, h1, h2, h3, h4⟩ | ⟨h1, h2⟩ | ⟨h1, h2⟩
          · left
            rw [h1]
            rw [hlz] at h2 h4
            exact ⟨l, rfl, h2, h3, h4⟩
          · right
            rw [h1]
            rw [hlz, W.sized.c] at h2
            exact ⟨rfl, h2⟩
          · rw [W.sized.c, W.maxtable, hlz] at h2
            have := hx.le
            omega
        · have hlz := hx.lowzero
          have hmt := hx.le
          rcases ih (j + 1) hx.sized (by omega) (fun e he => by have := hpos e he; omega) with
            h | h | ⟨q1, q2, j', hj', hP, h⟩
          · exact .inl h
          · exact .inr (.inl h)
          · refine .inr (.inr ⟨q1, q2, j', by omega, ?_, ?_⟩)
            · refine ⟨hx.trans hP.ext, hP.nz, by rw [← hx.pos]; exact hP.new, fun e he => ⟨(hP.free e he).1, ?_⟩, hP.written⟩
              have := (hP.free e he).2
              omega
            · rw [← hlz]; exact h

theorem searchBase_ends (es : List (Int × Nat)) (hnd : (es.map Prod.fst).Nodup) (J : Int) (hJ : J ≠ 0)
    (fuel : Nat) (j : Int)
    {p : Pack} (hs : Sized p) (hlow : p.lowzero ≤ p.maxtable) (hpos : ∀ e ∈ es, 0 ≤ j + e.1) (hjJ : j ≤ J) (hf : J < j + fuel)
    (hnew : J ∉ p.pos) (hfree : ∀ e ∈ es, ∀ i : Nat, (i : Int) = J + e.1 → ∀ c, p.check[i]? = some c → c = -1) :
    searchBase es fuel j p ≠ .running := by
  induction fuel generalizing j p with
  | zero => omega
  | succ f ih =>
    unfold searchBase
    split
    · rename_i hj
      exact ih (j + 1) hs hlow (fun e he => by have := hpos e he; omega) (by omega) (by omega) hnew hfree
    · rename_i hj
      rcases tryBase_spec j es hs hpos with h | ⟨p1, b, h, hx, hb, hb'⟩
      · rw [h]; simp [Out.bind]
      · rw [h]
        simp only [Out.bind]
        split
        · rename_i hcond
          simp only [Bool.and_eq_true] at hcond
          obtain ⟨p2, hw, W⟩ := writeEnts_spec j es hx.sized
            (fun e he => ⟨(hb hcond.1 e he).1.1, (hb hcond.1 e he).1.2.1⟩) hnd
          rw [hw]
          simp only
          rcases scanLow_spec (p2.check.length + 1) p2 (by omega) with ⟨l, h1, _⟩ | ⟨h1, _⟩ | ⟨h1, h2⟩
          · rw [h1]; simp
          · rw [h1]; simp
          · rw [W.sized.c, W.maxtable, W.lowzero, hx.lowzero] at h2
            have := hx.le
            omega
        · rename_i hcond
          rcases lt_or_eq_of_le hjJ with hlt | rfl
          · have hlz := hx.lowzero
            have hmt := hx.le
            refine ih (j + 1) hx.sized (by omega) (fun e he => by have := hpos e he; omega) (by omega)
              (by push_cast at hf; omega) (by rw [hx.pos]; exact hnew) ?_
            intro e he i hi c hc
            by_contra hne
            exact hne (hfree e he i hi c (hx.used hc hne).2)
          · exfalso
            apply hcond
            simp only [Bool.and_eq_true, Bool.not_eq_true', List.contains_eq_mem, decide_eq_false_iff_not, hx.pos]
            refine ⟨?_, hnew⟩
            cases b with
            | true => rfl
            | false =>
              obtain ⟨e, he, c, hc, hc'⟩ := hb' rfl
              exact absurd (hfree e he _ (by have := hpos e he; omega) c hc') hc

theorem firstBase_ge (lz : Nat) (es : List (Int × Nat)) : ∀ e ∈ es, (lz : Int) ≤ firstBase lz es + e.1 := by
  cases es with
  | nil => simp
  | cons e0 es =>
    unfold firstBase
    have key : ∀ (l : List (Int × Nat)) (j0 : Int),
        j0 ≤ l.foldl (fun j e => if (lz : Int) - e.1 > j then (lz : Int) - e.1 else j) j0 ∧
        ∀ e ∈ l, (lz : Int) - e.1 ≤ l.foldl (fun j e => if (lz : Int) - e.1 > j then (lz : Int) - e.1 else j) j0 := by
      intro l
      induction l with
      | nil => simp
      | cons a l ih =>
        intro j0
        simp only [List.foldl_cons]
        have h := ih (if (lz : Int) - a.1 > j0 then (lz : Int) - a.1 else j0)
        refine ⟨by have := h.1; split at this <;> omega, ?_⟩
        intro e he
        rcases List.mem_cons.1 he with rfl | he
        · have := h.1; split at this <;> omega
        · exact h.2 e he
    have := key es ((lz : Int) - e0.1)
    intro e he
    rcases List.mem_cons.1 he with rfl | he
    · simp only; omega
    · have := this.2 e he; simp only; omega

end Verif.Byacc
