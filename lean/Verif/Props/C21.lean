import Verif.Byacc.Symbols
import Verif.Proofs.Vectors
import Mathlib.Data.List.Sort
/-
C21 — token codes (byacc/reader.c, pack_symbols).
-/
set_option autoImplicit false
namespace Verif.Byacc

theorem insertValue_perm (n : Int) (l : List Int) : (insertValue n l).Perm (n :: l) := by
  induction l with
  | nil => exact .refl _
  | cons x xs ih =>
    unfold insertValue
    split
    · exact (List.Perm.cons x ih).trans (List.Perm.swap n x xs)
    · exact .refl _

theorem insertValue_sorted (n : Int) (l : List Int) (h : l.Pairwise (· ≥ ·)) : (insertValue n l).Pairwise (· ≥ ·) := by
  induction l with
  | nil => simp [insertValue]
  | cons x xs ih =>
    rw [List.pairwise_cons] at h
    unfold insertValue
    split
    · rename_i hx
      rw [List.pairwise_cons]
      refine ⟨?_, ih h.2⟩
      intro y hy
      rcases List.mem_cons.1 ((insertValue_perm n xs).mem_iff.1 hy) with rfl | hy
      · omega
      · exact h.1 y hy
    · rename_i hx
      rw [List.pairwise_cons, List.pairwise_cons]
      refine ⟨?_, h⟩
      intro y hy
      rcases List.mem_cons.1 hy with rfl | hy
      · omega
      · have := h.1 y hy; omega

theorem explicitCodes_spec (toks : List PSym) : (explicitCodes toks).Pairwise (· ≤ ·) ∧
    ∀ x, x ∈ explicitCodes toks ↔ 256 < x ∧ ∃ t ∈ toks, t.value = x := by
  have key : ∀ (ts : List PSym) (acc : List Int), acc.Pairwise (· ≥ ·) →
      let r := ts.foldl (fun acc t => if t.value > 256 then insertValue t.value acc else acc) acc
      r.Pairwise (· ≥ ·) ∧ ∀ x, x ∈ r ↔ x ∈ acc ∨ (256 < x ∧ ∃ t ∈ ts, t.value = x) := by
    intro ts
    induction ts with
    | nil => intro acc h; exact ⟨h, by simp⟩
    | cons t ts ih =>
      intro acc h
      simp only [List.foldl_cons]
      by_cases ht : t.value > 256
      · rw [if_pos ht]
        obtain ⟨h1, h2⟩ := ih _ (insertValue_sorted t.value acc h)
        refine ⟨h1, fun x => ?_⟩
        rw [h2, (insertValue_perm t.value acc).mem_iff, List.mem_cons]
        constructor
        · rintro ((rfl | h) | ⟨h, t', h', rfl⟩)
          · exact .inr ⟨ht, t, by simp, rfl⟩
          · exact .inl h
          · exact .inr ⟨h, t', by simp [h'], rfl⟩
        · rintro (h | ⟨h, t', h', rfl⟩)
          · exact .inl (.inr h)
          · rcases List.mem_cons.1 h' with rfl | h'
            · exact .inl (.inl rfl)
            · exact .inr ⟨h, t', h', rfl⟩
      · rw [if_neg ht]
        obtain ⟨h1, h2⟩ := ih acc h
        refine ⟨h1, fun x => ?_⟩
        rw [h2]
        constructor
        · rintro (h | ⟨h, t', h', rfl⟩)
          · exact .inl h
          · exact .inr ⟨h, t', by simp [h'], rfl⟩
        · rintro (h | ⟨h, t', h', rfl⟩)
          · exact .inl h
          · rcases List.mem_cons.1 h' with rfl | h'
            · exact absurd h ht
            · exact .inr ⟨h, t', h', rfl⟩
  obtain ⟨h1, h2⟩ := key toks [] .nil
  unfold explicitCodes
  refine ⟨?_, fun x => ?_⟩
  · rw [List.pairwise_reverse]; exact h1
  · rw [List.mem_reverse, h2]; simp

theorem dropSame_spec (n : Int) (l : List Int) (h : l.Pairwise (· ≤ ·)) (hn : ∀ x ∈ l, n ≤ x) :
    (dropSame n l).Pairwise (· ≤ ·) ∧ ∀ x, x ∈ dropSame n l ↔ x ∈ l ∧ n < x := by
  induction l with
  | nil => simp [dropSame]
  | cons y ys ih =>
    rw [List.pairwise_cons] at h
    unfold dropSame
    split
    · rename_i hy
      have hy : y = n := by simpa using hy
      obtain ⟨i1, i2⟩ := ih h.2 (fun x hx => hn x (by simp [hx]))
      refine ⟨i1, fun x => ?_⟩
      rw [i2, List.mem_cons]
      constructor
      · rintro ⟨h1, h2⟩; exact ⟨.inr h1, h2⟩
      · rintro ⟨rfl | h1, h2⟩
        · omega
        · exact ⟨h1, h2⟩
    · rename_i hy
      have hy : y ≠ n := by simpa using hy
      have := hn y (by simp)
      refine ⟨List.pairwise_cons.2 h, fun x => ⟨fun hx => ⟨hx, ?_⟩, fun h => h.1⟩⟩
      rcases List.mem_cons.1 hx with rfl | hx
      · omega
      · have := h.1 x hx; omega

/-- The next free code: the least number from `n` on that is not in the sorted list. -/
theorem skipCodes_spec (n : Int) (l : List Int) (h : l.Pairwise (· ≤ ·)) (hn : ∀ x ∈ l, n ≤ x) :
    let r := skipCodes n l
    n ≤ r.1 ∧ r.1 ∉ l ∧ (∀ x, n ≤ x → x < r.1 → x ∈ l) ∧ r.2.Pairwise (· ≤ ·) ∧ ∀ x, x ∈ r.2 ↔ x ∈ l ∧ r.1 < x := by
  induction n, l using skipCodes.induct with
  | case1 n x xs hx ih =>
    have hx' : n = x := by simpa using hx
    subst hx'
    rw [List.pairwise_cons] at h
    obtain ⟨d1, d2⟩ := dropSame_spec n xs h.2 (fun y hy => hn y (by simp [hy]))
    obtain ⟨i1, i2, i3, i4, i5⟩ := ih d1 (fun y hy => by have := ((d2 y).1 hy).2; omega)
    unfold skipCodes
    rw [if_pos (by simp)]
    refine ⟨by omega, ?_, ?_, i4, ?_⟩
    · rw [List.mem_cons]
      rintro (h | h)
      · omega
      · exact i2 ((d2 _).2 ⟨h, by omega⟩)
    · intro y h1 h2
      by_cases hy : y = n
      · simp [hy]
      · exact List.mem_cons.2 (.inr ((d2 y).1 (i3 y (by omega) h2)).1)
    · intro y
      rw [i5, d2, List.mem_cons]
      constructor
      · rintro ⟨⟨h1, h2⟩, h3⟩; exact ⟨.inr h1, h3⟩
      · rintro ⟨rfl | h1, h3⟩
        · omega
        · exact ⟨⟨h1, by omega⟩, h3⟩
  | case2 n x xs hx =>
    have hx' : n ≠ x := by simpa using hx
    unfold skipCodes
    rw [if_neg hx]
    rw [List.pairwise_cons] at h
    have h0 := hn x (by simp)
    refine ⟨le_rfl, ?_, fun y h1 h2 => by simp only at h2; omega, List.pairwise_cons.2 h, ?_⟩
    · rw [List.mem_cons]
      rintro (h' | h')
      · exact hx' h'
      · have := h.1 _ h'
        simp only at this; omega
    · intro y
      refine ⟨fun hy => ⟨hy, ?_⟩, fun h => h.1⟩
      simp only
      rcases List.mem_cons.1 hy with rfl | hy
      · omega
      · have := h.1 y hy; omega
  | case3 n => unfold skipCodes; exact ⟨le_rfl, by simp, fun y h1 h2 => by simp only at h2; omega, .nil, by simp⟩

theorem assignCodes_spec (ts : List PSym) : ∀ (n : Int) (l : List Int), l.Pairwise (· ≤ ·) → (∀ x ∈ l, n ≤ x) →
    (assignCodes ts n l).length = ts.length ∧
    (∀ (i : Nat) (t : PSym), ts[i]? = some t → t.value ≠ UNDEFINED → (assignCodes ts n l)[i]? = some t.value) ∧
    (∀ (i : Nat) (t : PSym) (x : Int), ts[i]? = some t → t.value = UNDEFINED → (assignCodes ts n l)[i]? = some x →
      n ≤ x ∧ x ∉ l ∧
      ∀ y, n ≤ y → y < x → y ∈ l ∨ ∃ (j : Nat) (t' : PSym), j < i ∧ ts[j]? = some t' ∧ t'.value = UNDEFINED ∧ (assignCodes ts n l)[j]? = some y) ∧
    (∀ (i j : Nat) (t t' : PSym) (x y : Int), i < j → ts[i]? = some t → t.value = UNDEFINED → ts[j]? = some t' → t'.value = UNDEFINED →
      (assignCodes ts n l)[i]? = some x → (assignCodes ts n l)[j]? = some y → x < y) := by
  induction ts with
  | nil => intro n l _ _; simp [assignCodes]
  | cons t ts ih =>
    intro n l hl hn
    by_cases ht : t.value = UNDEFINED
    · obtain ⟨s1, s2, s3, s4, s5⟩ := skipCodes_spec n l hl hn
      have e : assignCodes (t :: ts) n l = (skipCodes n l).1 :: assignCodes ts ((skipCodes n l).1 + 1) (skipCodes n l).2 := by
        rw [assignCodes, if_pos (by simp [ht])]
      obtain ⟨i1, i2, i3, i4⟩ := ih ((skipCodes n l).1 + 1) (skipCodes n l).2 s4 (fun x hx => by
        have := ((s5 x).1 hx).2; omega)
      rw [e]
      refine ⟨by simp [i1], ?_, ?_, ?_⟩
      · intro i t' hi hv
        cases i with
        | zero => simp at hi; subst hi; exact absurd ht hv
        | succ i => simpa using i2 i t' (by simpa using hi) hv
      · intro i t' x hi hv hx
        cases i with
        | zero =>
          simp only [List.getElem?_cons_zero, Option.some.injEq] at hi hx
          subst hx
          exact ⟨s1, s2, fun y h1 h2 => .inl (s3 y h1 h2)⟩
        | succ i =>
          simp only [List.getElem?_cons_succ] at hi hx
          obtain ⟨a1, a2, a3⟩ := i3 i t' x hi hv hx
          refine ⟨by omega, fun h => a2 ((s5 x).2 ⟨h, by omega⟩), ?_⟩
          intro y h1 h2
          by_cases hy : y < (skipCodes n l).1
          · exact .inl (s3 y h1 hy)
          · by_cases hy' : y = (skipCodes n l).1
            · exact .inr ⟨0, t, by omega, by simp, ht, by simp [hy']⟩
            · rcases a3 y (by omega) h2 with h | ⟨j, t'', b1, b2, b3, b4⟩
              · exact .inl ((s5 y).1 h).1
              · exact .inr ⟨j + 1, t'', by omega, by simpa using b2, b3, by simpa using b4⟩
      · intro i j t1 t2 x y hij h1 v1 h2 v2 hx hy
        cases j with
        | zero => omega
        | succ j =>
          simp only [List.getElem?_cons_succ] at h2 hy
          cases i with
          | zero =>
            simp only [List.getElem?_cons_zero, Option.some.injEq] at hx
            have := (i3 j t2 y h2 v2 hy).1
            omega
          | succ i =>
            simp only [List.getElem?_cons_succ] at h1 hx
            exact i4 i j t1 t2 x y (by omega) h1 v1 h2 v2 hx hy
    · have e : assignCodes (t :: ts) n l = t.value :: assignCodes ts n l := by
        rw [assignCodes, if_neg (by simp [ht])]
      obtain ⟨i1, i2, i3, i4⟩ := ih n l hl hn
      rw [e]
      refine ⟨by simp [i1], ?_, ?_, ?_⟩
      · intro i t' hi hv
        cases i with
        | zero => simp at hi; subst hi; simp
        | succ i => simpa using i2 i t' (by simpa using hi) hv
      · intro i t' x hi hv hx
        cases i with
        | zero => simp at hi; subst hi; exact absurd hv ht
        | succ i =>
          simp only [List.getElem?_cons_succ] at hi hx
          obtain ⟨a1, a2, a3⟩ := i3 i t' x hi hv hx
          refine ⟨a1, a2, fun y h1 h2 => ?_⟩
          rcases a3 y h1 h2 with h | ⟨j, t'', b1, b2, b3, b4⟩
          · exact .inl h
          · exact .inr ⟨j + 1, t'', by omega, by simpa using b2, b3, by simpa using b4⟩
      · intro i j t1 t2 x y hij h1 v1 h2 v2 hx hy
        cases j with
        | zero => omega
        | succ j =>
          cases i with
          | zero => simp at h1; subst h1; exact absurd v1 ht
          | succ i =>
            simp only [List.getElem?_cons_succ] at h1 hx h2 hy
            exact i4 i j t1 t2 x y (by omega) h1 v1 h2 v2 hx hy

/-- The code given to the `i`-th token (1 = `error`). -/
def codeOf (syms : List PSym) (goal i : Nat) : Int := (packSymbols syms goal).value.getD i 0

/-- C21: tokens are numbered 1, 2, .. in order of creation (the first one is `error`).
An explicit code is kept; `error` gets 256 if it has none.  Any other token without a code gets the
least number from 257 on that is neither the explicit code of a token nor the code of an earlier
token without explicit code.  `$end` gets 0. -/
theorem C21_codes (syms : List PSym) (goal : Nat) (toks : List PSym) (ht : toks = syms.filter (·.isTerm)) :
    codeOf syms goal 0 = 0 ∧
    (∀ (i : Nat) (t : PSym), toks[i]? = some t → t.value ≠ UNDEFINED → codeOf syms goal (i + 1) = t.value) ∧
    (∀ t : PSym, toks[0]? = some t → t.value = UNDEFINED → codeOf syms goal 1 = 256) ∧
    (∀ (i : Nat) (t : PSym), 0 < i → toks[i]? = some t → t.value = UNDEFINED →
      257 ≤ codeOf syms goal (i + 1) ∧
      (∀ (j : Nat) (t' : PSym), toks[j]? = some t' → (t'.value ≠ UNDEFINED ∨ j < i) → codeOf syms goal (i + 1) ≠ codeOf syms goal (j + 1)) ∧
      (∀ y, 257 ≤ y → y < codeOf syms goal (i + 1) → ∃ (j : Nat) (t' : PSym), toks[j]? = some t' ∧
        (t'.value ≠ UNDEFINED ∨ j < i) ∧ codeOf syms goal (j + 1) = y)) := by
  subst ht
  have hc : ∀ i, i < (syms.filter (·.isTerm)).length → (tokenCodes (syms.filter (·.isTerm))).length = (syms.filter (·.isTerm)).length →
      codeOf syms goal (i + 1) = (tokenCodes (syms.filter (·.isTerm))).getD i 0 := by
    intro i hi hl
    simp only [codeOf, packSymbols, List.cons_append, List.getD_eq_getElem?_getD, List.getElem?_cons_succ]
    rw [List.getElem?_append_left (by omega)]
  generalize syms.filter (·.isTerm) = toks at *
  refine ⟨rfl, ?_⟩
  cases toks with
  | nil => simp
  | cons e more =>
    obtain ⟨x1, x2⟩ := explicitCodes_spec (e :: more)
    obtain ⟨a1, a2, a3, a4⟩ := assignCodes_spec more 257 (explicitCodes (e :: more)) x1 (fun x hx => by
      have := ((x2 x).1 hx).1; omega)
    have hlen : (tokenCodes (e :: more)).length = (e :: more).length := by simp [tokenCodes, a1]
    have hc' : ∀ i, i < more.length + 1 → codeOf syms goal (i + 1) = (tokenCodes (e :: more)).getD i 0 :=
      fun i hi => hc i (by simpa using hi) hlen
    clear hc
    have hs : ∀ (i : Nat) (x : Int), (assignCodes more 257 (explicitCodes (e :: more)))[i]? = some x → codeOf syms goal (i + 1 + 1) = x := by
      intro i x hx
      have := (List.getElem?_eq_some_iff.1 hx).1
      rw [hc' (i + 1) (by omega)]
      simp [tokenCodes, hx]
    have hkeep : ∀ (i : Nat) (t : PSym), (e :: more)[i]? = some t → t.value ≠ UNDEFINED → codeOf syms goal (i + 1) = t.value := by
      intro i t hi hv
      cases i with
      | zero =>
        simp only [List.getElem?_cons_zero, Option.some.injEq] at hi
        subst hi
        rw [hc' 0 (by omega)]
        simp [tokenCodes, hv]
      | succ i => exact hs i _ (a2 i t (by simpa using hi) hv)
    have herr : ∀ t : PSym, (e :: more)[0]? = some t → t.value = UNDEFINED → codeOf syms goal 1 = 256 := by
      intro t hi hv
      simp only [List.getElem?_cons_zero, Option.some.injEq] at hi
      subst hi
      rw [hc' 0 (by omega)]
      simp [tokenCodes, hv]
    refine ⟨hkeep, herr, ?_⟩
    intro i t hpos hi hv
    obtain ⟨i, rfl⟩ : ∃ k, i = k + 1 := ⟨i - 1, by omega⟩
    simp only [List.getElem?_cons_succ] at hi
    have hil : i < more.length := (List.getElem?_eq_some_iff.1 hi).1
    obtain ⟨x, hx⟩ : ∃ x, (assignCodes more 257 (explicitCodes (e :: more)))[i]? = some x :=
      ⟨_, List.getElem?_eq_getElem (by omega)⟩
    rw [hs i x hx]
    obtain ⟨b1, b2, b3⟩ := a3 i t x hi hv hx
    refine ⟨b1, ?_, ?_⟩
    · intro j t' hj hd
      by_cases hv' : t'.value = UNDEFINED
      · have hd := hd.resolve_left (fun h => h hv')
        cases j with
        | zero => rw [herr t' hj hv']; omega
        | succ j =>
          simp only [List.getElem?_cons_succ] at hj
          obtain ⟨y, hy⟩ : ∃ y, (assignCodes more 257 (explicitCodes (e :: more)))[j]? = some y :=
            ⟨_, List.getElem?_eq_getElem (by have := (List.getElem?_eq_some_iff.1 hj).1; omega)⟩
          rw [hs j y hy]
          have := a4 j i t' t y x (by omega) hj hv' hi hv hy hx
          omega
      · rw [hkeep j t' hj hv']
        rintro rfl
        exact b2 ((x2 _).2 ⟨by omega, t', List.mem_of_getElem? hj, rfl⟩)
    · intro y h1 h2
      rcases b3 y h1 h2 with h | ⟨j, t', c1, c2, c3, c4⟩
      · obtain ⟨_, t', ht', rfl⟩ := (x2 y).1 h
        obtain ⟨j, hj⟩ := List.getElem?_of_mem ht'
        have hv' : t'.value ≠ UNDEFINED := by unfold UNDEFINED; omega
        exact ⟨j, t', hj, .inl hv', hkeep j t' hj hv'⟩
      · exact ⟨j + 1, t', by simpa using c2, .inr (by omega), hs j y c4⟩

/-- C21: if the explicit codes are positive, all different and 256 is not used by another token
than `error`, then all codes are different; this is what the tables need (`SymVals`). -/
theorem C21_unique (syms : List PSym) (goal : Nat)
    (hpos : ∀ t ∈ syms, t.isTerm = true → t.value ≠ UNDEFINED → 0 < t.value)
    (hdiff : ∀ (i j : Nat) (t t' : PSym), (syms.filter (·.isTerm))[i]? = some t → (syms.filter (·.isTerm))[j]? = some t' →
      t.value ≠ UNDEFINED → t.value = t'.value → i = j)
    (h256 : ∀ (i : Nat) (t : PSym), 0 < i → (syms.filter (·.isTerm))[i]? = some t → t.value ≠ 256) :
    SymVals (packSymbols syms goal).ntokens (packSymbols syms goal).nsyms (packSymbols syms goal).value := by
  obtain ⟨c0, ck, ce, ca⟩ := C21_codes syms goal _ rfl
  have hn : (packSymbols syms goal).ntokens = (syms.filter (·.isTerm)).length + 1 := rfl
  -- code of token `j + 1`
  have hpos' : ∀ (j : Nat) (t : PSym), (syms.filter (·.isTerm))[j]? = some t → 0 < codeOf syms goal (j + 1) := by
    intro j t hj
    by_cases hv : t.value = UNDEFINED
    · cases j with
      | zero => rw [ce t hj hv]; omega
      | succ j => have := (ca (j + 1) t (by omega) hj hv).1; omega
    · rw [ck j t hj hv]
      have := List.mem_filter.1 (List.mem_of_getElem? hj)
      exact hpos t this.1 this.2 hv
  have hget : ∀ j, j < (syms.filter (·.isTerm)).length → ∃ t, (syms.filter (·.isTerm))[j]? = some t :=
    fun j hj => ⟨_, List.getElem?_eq_getElem hj⟩
  have hlen : ∀ ts : List PSym, (tokenCodes ts).length = ts.length := by
    intro ts
    cases ts with
    | nil => rfl
    | cons e more =>
      obtain ⟨x1, x2⟩ := explicitCodes_spec (e :: more)
      simp [tokenCodes, (assignCodes_spec more 257 (explicitCodes (e :: more)) x1 (fun x hx => by
        have := ((x2 x).1 hx).1; omega)).1]
  -- ordered version of injectivity
  have hinj : ∀ i j, i < j → j < (syms.filter (·.isTerm)).length → codeOf syms goal (i + 1) ≠ codeOf syms goal (j + 1) := by
    intro i j hij hj
    obtain ⟨t, ht⟩ := hget i (by omega)
    obtain ⟨t', ht'⟩ := hget j hj
    by_cases hv' : t'.value = UNDEFINED
    · exact fun h => (ca j t' (by omega) ht' hv').2.1 i t ht (.inr hij) h.symm
    · by_cases hv : t.value = UNDEFINED
      · cases i with
        | zero =>
          rw [ce t ht hv, ck j t' ht' hv']
          exact fun h => h256 j t' hij ht' h.symm
        | succ i => exact (ca (i + 1) t (by omega) ht hv).2.1 j t' ht' (.inl hv')
      · rw [ck i t ht hv, ck j t' ht' hv']
        intro h
        have := hdiff i j t t' ht ht' hv h
        omega
  refine ⟨?_, ?_, rfl, ?_⟩
  · intro j hj
    rw [hn] at hj
    cases j with
    | zero => exact le_of_eq c0.symm
    | succ j =>
      obtain ⟨t, ht⟩ := hget j (by omega)
      exact (hpos' j t ht).le
  · intro i j hi hj h
    rw [hn] at hi hj
    change codeOf syms goal i = codeOf syms goal j at h
    cases i with
    | zero =>
      cases j with
      | zero => rfl
      | succ j =>
        obtain ⟨t, ht⟩ := hget j (by omega)
        have := hpos' j t ht
        rw [c0] at h; omega
    | succ i =>
      obtain ⟨t, ht⟩ := hget i (by omega)
      cases j with
      | zero =>
        have := hpos' i t ht
        rw [c0] at h; omega
      | succ j =>
        rcases Nat.lt_trichotomy i j with hij | hij | hij
        · exact absurd h (hinj i j hij (by omega))
        · rw [hij]
        · exact absurd h.symm (hinj j i hij (by omega))
  · intro A h1 h2
    rw [hn] at h1 ⊢
    have h2 : A < syms.length + 2 := h2
    have hsplit : (syms.filter (·.isTerm)).length + (syms.filter (fun s => !s.isTerm)).length = syms.length := by
      rw [← List.length_eq_length_filter_add]
    simp only [packSymbols, List.getD_eq_getElem?_getD, List.cons_append]
    obtain ⟨k, rfl⟩ : ∃ k, A = (syms.filter (·.isTerm)).length + 1 + k := ⟨A - ((syms.filter (·.isTerm)).length + 1), by omega⟩
    rw [show (syms.filter (·.isTerm)).length + 1 + k = ((syms.filter (·.isTerm)).length + k) + 1 by omega, List.getElem?_cons_succ,
      List.getElem?_append_right (by rw [hlen]; omega), hlen, Nat.add_sub_cancel_left]
    cases k with
    | zero => simp
    | succ k =>
      rw [List.getElem?_cons_succ, List.getElem?_map, List.getElem?_range (by omega)]
      simp

/-- C21: an explicit 256 on another token is kept and coincides with the code of `error`. -/
theorem C21_error_code_violated : ∃ (syms : List PSym) (goal : Nat),
    (∀ t ∈ syms, t.isTerm = true → t.value ≠ UNDEFINED → 0 < t.value) ∧ codeOf syms goal 1 = codeOf syms goal 2 ∧
    2 < (packSymbols syms goal).ntokens :=
  ⟨[⟨true, UNDEFINED⟩, ⟨true, 256⟩, ⟨false, UNDEFINED⟩], 2, by decide, by decide, by decide⟩

/-- Indices: tokens in order from 1, the goal right after `$accept`, the other nonterminals in order
after it. -/
theorem indices_spec (goal gi : Nat) (syms : List PSym) : ∀ (pos i k : Nat),
    (indices goal gi syms pos i k).length = syms.length ∧
    ∀ (p : Nat) (s : PSym), syms[p]? = some s → (indices goal gi syms pos i k)[p]? =
      some (if s.isTerm then i + (syms.take p).countP (·.isTerm)
        else if pos + p = goal then gi
        else k + (syms.take p).countP (fun s => !s.isTerm) - (if pos ≤ goal ∧ goal < pos + p ∧ (syms[goal - pos]?.map (·.isTerm)) = some false then 1 else 0)) := by
  induction syms with
  | nil => intro pos i k; simp [indices]
  | cons x xs ih =>
    intro pos i k
    have hc : ∀ (c : Nat), (if pos ≤ goal ∧ goal < pos + (c + 1) ∧ ((x :: xs)[goal - pos]?.map (·.isTerm)) = some false then 1 else 0) =
        (if pos + 1 ≤ goal ∧ goal < pos + 1 + c ∧ (xs[goal - (pos + 1)]?.map (·.isTerm)) = some false then 1 else 0) +
        (if pos = goal ∧ x.isTerm = false then 1 else 0) := by
      intro c
      by_cases h : pos = goal
      · subst h
        simp
      · by_cases h' : pos + 1 ≤ goal
        · have : goal - pos = (goal - (pos + 1)) + 1 := by omega
          rw [this, List.getElem?_cons_succ]
          simp only [h, false_and, if_false, Nat.add_zero]
          congr 1
          apply propext
          constructor
          · rintro ⟨_, h2, h3⟩; exact ⟨h', by omega, h3⟩
          · rintro ⟨_, h2, h3⟩; exact ⟨by omega, by omega, h3⟩
        · rw [if_neg (by omega), if_neg (by omega), if_neg (fun h'' => h h''.1)]
    have hle : ∀ (c : Nat), (if pos + 1 ≤ goal ∧ goal < pos + 1 + c ∧ (xs[goal - (pos + 1)]?.map (·.isTerm)) = some false then 1 else 0) ≤
        (xs.take c).countP (fun s => !s.isTerm) := by
      intro c
      split
      · rename_i h
        obtain ⟨h1, h2, h3⟩ := h
        obtain ⟨s, hs, hs'⟩ := Option.map_eq_some_iff.1 h3
        apply List.countP_pos_iff.2
        refine ⟨s, ?_, by simp [hs']⟩
        apply List.mem_of_getElem? (i := goal - (pos + 1))
        rw [List.getElem?_take_of_lt (by omega)]; exact hs
      · omega
    unfold indices
    by_cases hx : x.isTerm
    · rw [if_pos hx]
      obtain ⟨i1, i2⟩ := ih (pos + 1) (i + 1) k
      refine ⟨by simp [i1], ?_⟩
      intro p s hs
      cases p with
      | zero => simp only [List.getElem?_cons_zero, Option.some.injEq] at hs; subst hs; simp [hx]
      | succ p =>
        simp only [List.getElem?_cons_succ] at hs ⊢
        rw [i2 p s hs, hc p]
        simp only [List.take_succ_cons, List.countP_cons, hx, Bool.true_eq_false, and_false, if_false, if_true, Nat.add_zero,
          Bool.not_true, Bool.false_eq_true]
        rw [show pos + (p + 1) = pos + 1 + p by omega]
        congr 2
        · omega
    · rw [if_neg hx]
      have hxf : x.isTerm = false := by simpa using hx
      by_cases hg : pos = goal
      · rw [if_pos hg]
        obtain ⟨i1, i2⟩ := ih (pos + 1) i k
        refine ⟨by simp [i1], ?_⟩
        intro p s hs
        cases p with
        | zero => simp only [List.getElem?_cons_zero, Option.some.injEq] at hs; subst hs; simp [hx, hg]
        | succ p =>
          simp only [List.getElem?_cons_succ] at hs ⊢
          rw [i2 p s hs, hc p]
          have := hle p
          simp only [List.take_succ_cons, List.countP_cons, hxf, hg, and_self, if_false, if_true, Nat.add_zero,
            Bool.not_false, Bool.false_eq_true]
          rw [show goal + (p + 1) = goal + 1 + p by omega]
          congr 3
          subst hg
          omega
      · rw [if_neg hg]
        obtain ⟨i1, i2⟩ := ih (pos + 1) i (k + 1)
        refine ⟨by simp [i1], ?_⟩
        intro p s hs
        cases p with
        | zero =>
          simp only [List.getElem?_cons_zero, Option.some.injEq] at hs; subst hs
          rw [if_neg hx, if_neg (by simpa using hg), if_neg (by omega)]
          simp
        | succ p =>
          simp only [List.getElem?_cons_succ] at hs ⊢
          rw [i2 p s hs, hc p]
          have := hle p
          simp only [List.take_succ_cons, List.countP_cons, hxf, hg, false_and, if_false, if_true, Nat.add_zero,
            Bool.not_false, Bool.false_eq_true]
          rw [show pos + (p + 1) = pos + 1 + p by omega]
          congr 3
          omega

/-- C21: the indices of the symbols.  A token's index is one more than the number of tokens created
before it; the goal's index is the number of tokens (with `$end`) plus one; any other nonterminal
comes after it, in order of creation. -/
theorem C21_indices (syms : List PSym) (goal : Nat) (g : PSym) (hg : syms[goal]? = some g) (hgn : g.isTerm = false)
    (p : Nat) (s : PSym) (hs : syms[p]? = some s) :
    let n := packSymbols syms goal
    n.ntokens = syms.countP (·.isTerm) + 1 ∧ n.nsyms = syms.length + 2 ∧
    n.index[p]? = some (
      if s.isTerm then (syms.take p).countP (·.isTerm) + 1
      else if p = goal then n.ntokens + 1
      else if p < goal then n.ntokens + 2 + (syms.take p).countP (fun s => !s.isTerm)
      else n.ntokens + 1 + (syms.take p).countP (fun s => !s.isTerm)) := by
  refine ⟨by simp [packSymbols, List.countP_eq_length_filter], rfl, ?_⟩
  have := (indices_spec goal ((packSymbols syms goal).ntokens + 1) syms 0 1 ((packSymbols syms goal).ntokens + 2)).2 p s hs
  change (indices goal ((packSymbols syms goal).ntokens + 1) syms 0 1 ((packSymbols syms goal).ntokens + 2))[p]? = _
  rw [this]
  congr 1
  simp only [Nat.zero_add, Nat.zero_le, true_and, Nat.sub_zero, hg, Option.map_some, hgn, and_true]
  split
  · omega
  · split
    · rfl
    · rename_i h
      by_cases h' : p < goal
      · rw [if_pos h', if_neg (by omega), Nat.sub_zero]
      · rw [if_neg h', if_pos (by omega)]
        have : 0 < (syms.take p).countP (fun s => !s.isTerm) := by
          apply List.countP_pos_iff.2
          refine ⟨g, ?_, by simp [hgn]⟩
          apply List.mem_of_getElem? (i := goal)
          rw [List.getElem?_take_of_lt (by omega)]; exact hg
        omega

/-- Example: tokens `error`, A (258), B, '+', C (260), D, E; the goal is the second nonterminal. -/
example : packSymbols [⟨true, UNDEFINED⟩, ⟨true, 258⟩, ⟨false, UNDEFINED⟩, ⟨true, UNDEFINED⟩, ⟨true, 43⟩, ⟨true, 260⟩,
      ⟨false, UNDEFINED⟩, ⟨true, UNDEFINED⟩, ⟨true, UNDEFINED⟩, ⟨false, UNDEFINED⟩] 6 =
    ⟨8, 12, [1, 2, 10, 3, 4, 5, 9, 6, 7, 11], [0, 256, 258, 257, 43, 260, 259, 261, -1, 0, 1, 2]⟩ := by decide +kernel

end Verif.Byacc
