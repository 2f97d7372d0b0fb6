import Verif.Proofs.Bucket
import Verif.Byacc.Lalr
import Verif.Props.C04
set_option autoImplicit false
namespace Verif.Byacc
open Spec

variable {g : Gram} {G : CFG} {a : LR0}

theorem shiftsTo_iff (H : IsLR0Automaton g G a) {s X t : Nat} :
    ShiftsTo a s X t ↔ t ∈ a.shiftsOf s ∧ a.acc t = X := by
  constructor
  · rintro ⟨sh, c, h1, h2, h3, h4⟩
    simp only [LR0.shiftsOf, LR0.acc, List.getD_eq_getElem?_getD, h1, h3, Option.getD_some]
    exact ⟨h2, h4⟩
  · rintro ⟨h1, h2⟩
    unfold LR0.shiftsOf at h1
    rw [List.getD_eq_getElem?_getD] at h1
    cases hs : a.shifts[s]? with
    | none => rw [hs] at h1; simp at h1
    | some sh =>
      rw [hs] at h1
      simp only [Option.getD_some] at h1
      have hlt := H.valid s sh t hs h1
      refine ⟨sh, _, hs, h1, List.getElem?_eq_getElem hlt, ?_⟩
      unfold LR0.acc at h2
      rw [List.getD_eq_getElem?_getD, List.getElem?_eq_getElem hlt] at h2
      exact h2

theorem shiftsOf_sorted (H : IsLR0Automaton g G a) (s : Nat) :
    (a.shiftsOf s).Pairwise (fun t t' => a.acc t < a.acc t') := by
  unfold LR0.shiftsOf
  rw [List.getD_eq_getElem?_getD]
  cases hs : a.shifts[s]? with
  | none => simp
  | some sh =>
    simp only [Option.getD_some]
    refine (H.ordered s sh hs).imp ?_
    rintro t t' ⟨X, X', h1, h2, h3⟩
    rw [((shiftsTo_iff H).mp h1).2, ((shiftsTo_iff H).mp h2).2]
    exact h3

/-- symbols in shift lists are symbols of the grammar -/
theorem acc_range (H : IsLR0Automaton g G a) (hwf : WF G g.nsyms) {s t : Nat}
    (h : t ∈ a.shiftsOf s) : 0 < a.acc t ∧ a.acc t < g.nsyms := by
  have hs := (shiftsTo_iff H).mpr ⟨h, rfl⟩
  obtain ⟨hsl, -, -, -⟩ := H.target _ _ _ hs
  obtain ⟨h0, r, d, -, A, α, hr, hd⟩ := (H.transition s _ hsl).mp ⟨t, hs⟩
  exact ⟨by omega, (hwf.lhs hr).2.2 _ (List.mem_of_getElem? hd)⟩

theorem mem_takeWhile_sorted {l : List Nat} {f : Nat → Nat} {N t : Nat}
    (h : l.Pairwise (fun t t' => f t > f t')) : t ∈ l.takeWhile (fun t => decide (N ≤ f t)) ↔ t ∈ l ∧ N ≤ f t := by
  induction l with
  | nil => simp
  | cons b l ih =>
    rw [List.pairwise_cons] at h
    by_cases hb : N ≤ f b
    · rw [List.takeWhile_cons_of_pos (by simpa using hb), List.mem_cons, ih h.2, List.mem_cons]
      constructor
      · rintro (rfl | h)
        · exact ⟨Or.inl rfl, hb⟩
        · exact ⟨Or.inr h.1, h.2⟩
      · rintro ⟨rfl | h, h'⟩
        · exact Or.inl rfl
        · exact Or.inr ⟨h, h'⟩
    · rw [List.takeWhile_cons_of_neg (by simpa using hb)]
      simp only [List.not_mem_nil, List.mem_cons, false_iff, not_and]
      rintro (rfl | ht)
      · exact hb
      · have := h.1 t ht; omega

theorem isTok_false {X : Nat} : (!g.isTok (X : Int)) = decide (g.ntokens ≤ X) := by
  rw [Bool.eq_iff_iff]
  unfold Gram.isTok
  rw [Bool.not_eq_true', decide_eq_false_iff_not, decide_eq_true_eq]
  unfold Gram.start
  omega

theorem mem_gotoPairs (H : IsLR0Automaton g G a) {p : Nat × Nat} :
    p ∈ gotoPairs g a ↔ ShiftsTo a p.1 (a.acc p.2) p.2 ∧ g.ntokens ≤ a.acc p.2 := by
  obtain ⟨s, t⟩ := p
  simp only [gotoPairs, List.mem_flatMap, List.mem_range, List.mem_map, Prod.mk.injEq]
  have hfun : (fun t => !g.isTok ((a.acc t : Nat) : Int)) = (fun t => decide (g.ntokens ≤ a.acc t)) := by
    funext t
    exact isTok_false
  rw [hfun, shiftsTo_iff H]
  have hpw : ∀ s, (a.shiftsOf s).reverse.Pairwise (fun t t' => a.acc t > a.acc t') := by
    intro s; rw [List.pairwise_reverse]; exact shiftsOf_sorted H s
  constructor
  · rintro ⟨s', hs', t', ht', rfl, rfl⟩
    rw [mem_takeWhile_sorted (hpw _), List.mem_reverse] at ht'
    exact ⟨⟨ht'.1, rfl⟩, ht'.2⟩
  · rintro ⟨⟨h1, -⟩, h2⟩
    have hs := (H.target _ _ _ ((shiftsTo_iff H).mpr ⟨h1, rfl⟩)).1
    refine ⟨s, hs, t, ?_, rfl, rfl⟩
    rw [mem_takeWhile_sorted (hpw _), List.mem_reverse]
    exact ⟨h1, h2⟩

/-- key of a pair -/
def gkey (g : Gram) (a : LR0) (p : Nat × Nat) : Nat := a.acc p.2 - g.ntokens

theorem gotoPairs_key (H : IsLR0Automaton g G a) (hwf : WF G g.nsyms) {p : Nat × Nat}
    (h : p ∈ gotoPairs g a) : gkey g a p < g.nvars := by
  obtain ⟨h1, h2⟩ := (mem_gotoPairs H).mp h
  have := acc_range H hwf ((shiftsTo_iff H).mp h1).1
  unfold gkey Gram.nvars
  omega

/-- pairs of one symbol are ordered by state -/
theorem gotoPairs_sorted (H : IsLR0Automaton g G a) (v : Nat) :
    ((gotoPairs g a).filter (fun p => gkey g a p == v)).Pairwise (fun p q => p.1 < q.1) := by
  have key : (gotoPairs g a).Pairwise (fun p q => gkey g a p = gkey g a q → p.1 < q.1) := by
    unfold gotoPairs
    rw [List.pairwise_flatMap]
    constructor
    · intro s hs
      rw [List.pairwise_map]
      have hpw : (a.shiftsOf s).reverse.Pairwise (fun t t' => a.acc t > a.acc t') := by
        rw [List.pairwise_reverse]; exact shiftsOf_sorted H s
      have htw := hpw.sublist (List.takeWhile_sublist (fun t => !g.isTok ((a.acc t : Nat) : Int)))
      refine htw.imp_of_mem ?_
      intro t t' ht ht' hlt heq
      exfalso
      have h1 := List.mem_takeWhile_imp' _ _ ht
      have h2 := List.mem_takeWhile_imp' _ _ ht'
      rw [isTok_false, decide_eq_true_eq] at h1 h2
      simp only [gkey] at heq
      omega
    · refine List.pairwise_lt_range.imp ?_
      intro s s' hss p hp q hq _
      simp only [List.mem_map] at hp hq
      obtain ⟨_, _, rfl⟩ := hp
      obtain ⟨_, _, rfl⟩ := hq
      exact hss
  have hf := key.filter (fun p => gkey g a p == v)
  refine hf.imp_of_mem ?_
  intro p q hp hq h
  simp only [List.mem_filter, beq_iff_eq] at hp hq
  exact h (by rw [hp.2, hq.2])

structure GotoOK (g : Gram) (a : LR0) (m : GotoMap) : Prop where
  len : m.to_.length = m.from_.length
  trans : ∀ i, i < m.ngotos → ∃ s t, m.from_[i]? = some s ∧ m.to_[i]? = some t ∧
    ShiftsTo a s (a.acc t) t ∧ g.ntokens ≤ a.acc t
  inj : ∀ i j, i < m.ngotos → m.from_[i]? = m.from_[j]? → m.to_[i]? = m.to_[j]? → i = j
  find : ∀ s X t, ShiftsTo a s X t → g.ntokens ≤ X →
    ∃ i, i < m.ngotos ∧ mapGoto g m s X = .found i ∧ m.from_[i]? = some s ∧ m.to_[i]? = some t
  first : ∃ t, m.from_[0]? = some 0 ∧ m.to_[0]? = some t ∧ a.acc t = g.ntokens + 1
  region : ∀ v, v < g.nvars →
    (List.range' (m.map.getD v 0) (m.map.getD (v+1) 0 - m.map.getD v 0)).map
      (fun i => (m.from_.getD i 0, m.to_.getD i 0)) = (gotoPairs g a).filter (fun p => a.acc p.2 - g.ntokens == v)

/-- binary search in a strictly increasing range -/
theorem mapGotoLoop_found (fr : List Nat) (lo hi p state : Nat) (hp : lo ≤ p ∧ p < hi) (hlen : hi ≤ fr.length)
    (hst : fr[p]? = some state)
    (hsorted : ∀ i j x y, lo ≤ i → i < j → j < hi → fr[i]? = some x → fr[j]? = some y → x < y) :
    ∀ (fuel : Nat) (low high : Int), (lo : Int) ≤ low → low ≤ p → (p : Int) ≤ high → high ≤ hi →
      high - low < fuel → mapGotoLoop fr state fuel low high = .found p := by
  intro fuel
  induction fuel with
  | zero => intro low high h1 h2 h3 h4 h5; omega
  | succ n ih =>
    intro low high h1 h2 h3 h4 h5
    unfold mapGotoLoop
    rw [if_neg (by omega)]
    have hm0 : ¬ (low + high) / 2 < 0 := by omega
    simp only
    rw [if_neg hm0]
    generalize hmid : ((low + high) / 2).toNat = mid
    have hmid' : (low + high) / 2 = (mid : Int) := by omega
    rw [hmid']
    have hml : mid < fr.length := by omega
    rw [List.getElem?_eq_getElem hml]
    simp only
    have hget : fr[mid]? = some fr[mid] := List.getElem?_eq_getElem hml
    rcases Nat.lt_trichotomy mid p with hlt | heq | hgt
    · have := hsorted mid p _ _ (by omega) hlt hp.2 hget hst
      rw [if_neg (by omega), if_pos (by omega)]
      exact ih _ _ (by omega) (by omega) (by omega) (by omega) (by omega)
    · subst heq
      rw [hget] at hst
      simp only [Option.some.injEq] at hst
      rw [if_pos hst]
    · have := hsorted p mid _ _ (by omega) hgt (by omega) hst hget
      rw [if_neg (by omega), if_neg (by omega)]
      exact ih _ _ (by omega) (by omega) (by omega) (by omega) (by omega)

theorem gotoOK (H : IsLR0Automaton g G a) (hp : Packs g G) (hwf : WF G g.nsyms) :
    GotoOK g a (setGotoMap g a) := by
  have hkey : ∀ p ∈ gotoPairs g a, gkey g a p < g.nvars := fun p h => gotoPairs_key H hwf h
  -- counts
  obtain ⟨c1, c2⟩ := count_loop (gkey g a) (gotoPairs g a) (g.nvars + 1) (fun p h => Nat.lt_succ_of_lt (hkey p h))
  have hcnt : ∀ v, (gotoCounts g a).getD v 0 = kcount (gkey g a) (gotoPairs g a) v := c2
  -- sums
  obtain ⟨s1, s2, s3⟩ := sums_loop g.nvars (gotoCounts g a) (g.nvars + 1) (by omega)
  have hbase : ∀ v, base (fun v => (gotoCounts g a).getD v 0) v = base (kcount (gkey g a) (gotoPairs g a)) v := by
    intro v; exact base_congr v (fun i _ => hcnt i)
  have htot : base (kcount (gkey g a) (gotoPairs g a)) g.nvars = (gotoPairs g a).length :=
    base_kcount _ _ _ hkey
  have hmap : ∀ v, v ≤ g.nvars → (setGotoMap g a).map.getD v 0 = base (kcount (gkey g a) (gotoPairs g a)) v := by
    intro v hv
    simp only [setGotoMap, prefixSums]
    rw [List.getD_eq_getElem?_getD]
    by_cases e : v = g.nvars
    · subst e
      rw [List.getElem?_set_self (by omega), htot]; rfl
    · rw [List.getElem?_set_ne (by omega), ← List.getD_eq_getElem?_getD, s3 v (by omega), hbase]
  have hlenmap : (setGotoMap g a).map.length = g.nvars + 1 := by
    simp only [setGotoMap, prefixSums, List.length_set]; exact s1
  -- fill
  have hfill := fill_loop (gkey g a) (gotoPairs g a) g.nvars hkey Prod.fst Prod.snd (setGotoMap g a).map
    (by omega) (fun v hv => hmap v (by omega))
  have hfrom : (setGotoMap g a).from_ = ((gotoPairs g a).foldl (fun (st : List Nat × List Nat × List Nat) p =>
      (st.1.set (gkey g a p) (st.1.getD (gkey g a p) 0 + 1), st.2.1.set (st.1.getD (gkey g a p) 0) p.1,
        st.2.2.set (st.1.getD (gkey g a p) 0) p.2))
      ((setGotoMap g a).map, List.replicate (gotoPairs g a).length 0, List.replicate (gotoPairs g a).length 0)).2.1 := rfl
  have hto : (setGotoMap g a).to_ = ((gotoPairs g a).foldl (fun (st : List Nat × List Nat × List Nat) p =>
      (st.1.set (gkey g a p) (st.1.getD (gkey g a p) 0 + 1), st.2.1.set (st.1.getD (gkey g a p) 0) p.1,
        st.2.2.set (st.1.getD (gkey g a p) 0) p.2))
      ((setGotoMap g a).map, List.replicate (gotoPairs g a).length 0, List.replicate (gotoPairs g a).length 0)).2.2 := rfl
  simp only at hfill
  rw [← hfrom, ← hto] at hfill
  obtain ⟨f1, f2, f3⟩ := hfill
  have hng : (setGotoMap g a).ngotos = (gotoPairs g a).length := f1
  -- element at an index
  have hidx : ∀ i, i < (gotoPairs g a).length → ∃ v k p, v < g.nvars ∧ k < kcount (gkey g a) (gotoPairs g a) v ∧
      i = base (kcount (gkey g a) (gotoPairs g a)) v + k ∧
      ((gotoPairs g a).filter (fun p => gkey g a p == v))[k]? = some p ∧
      (setGotoMap g a).from_[i]? = some p.1 ∧ (setGotoMap g a).to_[i]? = some p.2 ∧
      p ∈ gotoPairs g a ∧ gkey g a p = v := by
    intro i hi
    rw [← htot] at hi
    obtain ⟨v, k, hv, hk, rfl⟩ := base_split _ _ hi
    have hget : ((gotoPairs g a).filter (fun p => gkey g a p == v))[k]? = some
        (((gotoPairs g a).filter (fun p => gkey g a p == v))[k]'hk) := List.getElem?_eq_getElem hk
    have hm := List.mem_of_getElem? hget
    simp only [List.mem_filter, beq_iff_eq] at hm
    obtain ⟨o1, o2⟩ := f3 v k _ hv hget
    exact ⟨v, k, _, hv, hk, rfl, hget, o1, o2, hm.1, hm.2⟩
  -- region of a symbol is sorted
  have hsorted : ∀ v, v < g.nvars → ∀ i j x y, base (kcount (gkey g a) (gotoPairs g a)) v ≤ i → i < j →
      j < base (kcount (gkey g a) (gotoPairs g a)) (v+1) →
      (setGotoMap g a).from_[i]? = some x → (setGotoMap g a).from_[j]? = some y → x < y := by
    intro v hv i j x y h1 h2 h3 hx hy
    simp only [base] at h3
    have hki : i - base (kcount (gkey g a) (gotoPairs g a)) v < kcount (gkey g a) (gotoPairs g a) v := by omega
    have hkj : j - base (kcount (gkey g a) (gotoPairs g a)) v < kcount (gkey g a) (gotoPairs g a) v := by omega
    have gi := f3 v _ _ hv (List.getElem?_eq_getElem hki)
    have gj := f3 v _ _ hv (List.getElem?_eq_getElem hkj)
    rw [show base (kcount (gkey g a) (gotoPairs g a)) v + (i - base (kcount (gkey g a) (gotoPairs g a)) v) = i by omega] at gi
    rw [show base (kcount (gkey g a) (gotoPairs g a)) v + (j - base (kcount (gkey g a) (gotoPairs g a)) v) = j by omega] at gj
    rw [gi.1] at hx
    rw [gj.1] at hy
    simp only [Option.some.injEq] at hx hy
    rw [← hx, ← hy]
    exact List.pairwise_iff_getElem.mp (gotoPairs_sorted H v) _ _ hki hkj (by omega)
  -- find
  have hfind : ∀ s X t, ShiftsTo a s X t → g.ntokens ≤ X →
      ∃ i, i < (setGotoMap g a).ngotos ∧ mapGoto g (setGotoMap g a) s X = .found i ∧
        (setGotoMap g a).from_[i]? = some s ∧ (setGotoMap g a).to_[i]? = some t ∧
        base (kcount (gkey g a) (gotoPairs g a)) (X - g.ntokens) ≤ i := by
    intro s X t hst hX
    obtain ⟨ht, hacc⟩ := (shiftsTo_iff H).mp hst
    subst hacc
    have hm : (s, t) ∈ gotoPairs g a := (mem_gotoPairs H).mpr ⟨hst, hX⟩
    have hv := hkey _ hm
    have hmf : (s, t) ∈ (gotoPairs g a).filter (fun p => gkey g a p == (a.acc t - g.ntokens)) := by
      simp only [List.mem_filter, beq_iff_eq]
      exact ⟨hm, rfl⟩
    obtain ⟨k, hk⟩ := List.mem_iff_getElem?.mp hmf
    obtain ⟨o1, o2⟩ := f3 _ k _ hv hk
    have hkl : k < kcount (gkey g a) (gotoPairs g a) (a.acc t - g.ntokens) := (List.getElem?_eq_some_iff.mp hk).1
    refine ⟨_, ?_, ?_, o1, o2, Nat.le_add_right _ _⟩
    · exact (List.getElem?_eq_some_iff.mp o1).1
    · have hv' : a.acc t - g.ntokens < g.nvars := hv
      unfold mapGoto
      simp only
      rw [hmap _ (by omega), show a.acc t + 1 - g.ntokens = (a.acc t - g.ntokens) + 1 by omega, hmap _ (by omega)]
      have hle : base (kcount (gkey g a) (gotoPairs g a)) (a.acc t - g.ntokens + 1) ≤ (gotoPairs g a).length := by
        rw [← htot]; exact base_mono (by omega)
      apply mapGotoLoop_found _ (base (kcount (gkey g a) (gotoPairs g a)) (a.acc t - g.ntokens))
        (base (kcount (gkey g a) (gotoPairs g a)) (a.acc t - g.ntokens + 1)) _ _
        ⟨Nat.le_add_right _ _, by simp only [base]; omega⟩ (by rw [f1]; exact hle) o1 (hsorted _ hv')
      · omega
      · omega
      · simp only [base]; omega
      · omega
      · omega
  have hregion : ∀ v, v < g.nvars →
      (List.range' ((setGotoMap g a).map.getD v 0) ((setGotoMap g a).map.getD (v+1) 0 - (setGotoMap g a).map.getD v 0)).map
      (fun i => ((setGotoMap g a).from_.getD i 0, (setGotoMap g a).to_.getD i 0)) =
      (gotoPairs g a).filter (fun p => a.acc p.2 - g.ntokens == v) := by
    intro v hv
    rw [hmap v (by omega), hmap (v+1) (by omega)]
    have e : base (kcount (gkey g a) (gotoPairs g a)) (v+1) - base (kcount (gkey g a) (gotoPairs g a)) v =
        ((gotoPairs g a).filter (fun p => gkey g a p == v)).length := by
      simp only [base]
      show base _ v + kcount (gkey g a) (gotoPairs g a) v - base _ v = _
      unfold kcount
      omega
    rw [e]
    show _ = (gotoPairs g a).filter (fun p => gkey g a p == v)
    apply List.ext_getElem?
    intro k
    rw [List.getElem?_map]
    rcases Nat.lt_or_ge k ((gotoPairs g a).filter (fun p => gkey g a p == v)).length with hk | hk
    · rw [List.getElem?_range' hk]
      obtain ⟨o1, o2⟩ := f3 v k _ hv (List.getElem?_eq_getElem hk)
      simp only [Option.map_some, one_mul, List.getD_eq_getElem?_getD, o1, o2, Option.getD_some]
      rw [List.getElem?_eq_getElem hk]
    · rw [List.getElem?_eq_none (by simpa using hk), List.getElem?_eq_none hk]
      rfl
  refine ⟨by rw [f1, f2], ?_, ?_, ?_, ?_, hregion⟩
  · intro i hi
    rw [hng] at hi
    obtain ⟨v, k, p, -, -, -, -, h1, h2, h3, -⟩ := hidx i hi
    obtain ⟨h4, h5⟩ := (mem_gotoPairs H).mp h3
    exact ⟨p.1, p.2, h1, h2, h4, h5⟩
  · intro i j hi e1 e2
    rw [hng] at hi
    have hj : j < (gotoPairs g a).length := by
      rw [List.getElem?_eq_getElem (by rw [f1]; exact hi)] at e1
      have := (List.getElem?_eq_some_iff.mp e1.symm).1
      rw [f1] at this; exact this
    obtain ⟨v, k, p, hv, hk, ei, hg, h1, h2, h3, h4⟩ := hidx i hi
    obtain ⟨v', k', p', hv', hk', ej, hg', h1', h2', h3', h4'⟩ := hidx j hj
    rw [h1, h1'] at e1
    rw [h2, h2'] at e2
    simp only [Option.some.injEq] at e1 e2
    have hpp : p = p' := Prod.ext e1 e2
    subst hpp
    have hvv : v = v' := by rw [← h4, ← h4']
    subst hvv
    have hkk : k = k' := by
      obtain ⟨l1, g1⟩ := List.getElem?_eq_some_iff.mp hg
      obtain ⟨l2, g2⟩ := List.getElem?_eq_some_iff.mp hg'
      by_contra hne
      have hs := List.pairwise_iff_getElem.mp (gotoPairs_sorted H v)
      rcases Nat.lt_or_gt_of_ne hne with h | h
      · have := hs k k' l1 l2 h; rw [g1, g2] at this; omega
      · have := hs k' k l2 l1 h; rw [g1, g2] at this; omega
    omega
  · intro s X t h1 h2
    obtain ⟨i, h3, h4, h5, h6, -⟩ := hfind s X t h1 h2
    exact ⟨i, h3, h4, h5, h6⟩
  · -- goto 0
    have hker : KernelItem g G a 0 0 0 := (H.start 0 0).mpr ⟨rfl, rfl⟩
    obtain ⟨t, ht⟩ := (H.transition 0 (g.ntokens + 1) H.sizes.1).mpr
      ⟨by omega, 0, 0, .kern hker, G.ntok, [G.ntok + 1, 0], hwf.acc, by simp [hp.ntok]⟩
    obtain ⟨i, h3, h4, h5, h6, -⟩ := hfind 0 _ t ht (by omega)
    have hacc := ((shiftsTo_iff H).mp ht).2
    have hi0 : i = 0 := by
      rw [hng] at h3
      obtain ⟨v, k, p, hv, hk, ei, hg, q1, q2, q3, q4⟩ := hidx i h3
      rw [h5] at q1
      rw [h6] at q2
      simp only [Option.some.injEq] at q1 q2
      have hpe : p = (0, t) := Prod.ext q1.symm q2.symm
      have hv1 : v = 1 := by
        rw [← q4, hpe]; simp only [gkey, hacc]; omega
      subst hv1
      -- no goto on `$accept`
      have hz : kcount (gkey g a) (gotoPairs g a) 0 = 0 := by
        unfold kcount
        rw [List.length_eq_zero_iff, List.filter_eq_nil_iff]
        intro p hpm
        simp only [beq_iff_eq]
        intro hk0
        obtain ⟨w1, w2⟩ := (mem_gotoPairs H).mp hpm
        have hsl := (H.target _ _ _ w1).1
        obtain ⟨-, r, d, -, A, α, hr, hd⟩ := (H.transition p.1 _ hsl).mp ⟨_, w1⟩
        have hnt := hp.ntok
        have hX : a.acc p.2 = G.ntok := by simp only [gkey] at hk0; omega
        rcases Nat.eq_zero_or_pos r with rfl | hr0
        · rw [hwf.acc] at hr
          simp only [Option.some.injEq, Prod.mk.injEq] at hr
          obtain ⟨-, rfl⟩ := hr
          have := List.mem_of_getElem? hd
          have := hwf.ntok
          simp at *; omega
        · exact ((hwf.user r A α hr0 hr).2.2 _ (List.mem_of_getElem? hd)).2.2 hX
      have hk0 : k = 0 := by
        by_contra hne
        obtain ⟨l1, g1⟩ := List.getElem?_eq_some_iff.mp hg
        have hs := List.pairwise_iff_getElem.mp (gotoPairs_sorted H 1) 0 k (by omega) l1 (by omega)
        rw [g1, hpe] at hs
        omega
      rw [ei, hk0]
      simp [base, hz]
    subst hi0
    exact ⟨t, h5, h6, hacc⟩

end Verif.Byacc
