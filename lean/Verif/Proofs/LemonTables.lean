import Verif.Proofs.LemonReport
/-
What is in the tables made by `report`.
-/
set_option autoImplicit false
namespace Verif.Lemon

variable {g : Gram} {fb : Nat → Option Nat} {cs : List CState} {order : List Nat} {nx : Nat}

/-- contents of the tables -/
structure Reported (g : Gram) (fb : Nat → Option Nat) (cs : List CState) (order : List Nat) (nx : Nat) (T : Tables) : Prop where
  nsymbol : T.nsymbol = g.nsymbol
  nterm : T.nterm = g.nterm
  nxs : T.nx = nx
  msr : T.minShiftReduce = cs.length
  nrule : T.nrule = g.rules.length
  cover : ∀ i, i < T.shiftOfst.length ↔ ∃ j, i ≤ j ∧ j < nx ∧ 0 < nTknAct g (stateAt cs order j)
  shift : ∀ i, i < T.shiftOfst.length → i < nx ∧ ∃ o : Nat, T.shiftOfst[i]? = some (o : Int) ∧ o ≤ T.action.length ∧
    o + g.nterm ≤ T.lookahead.length ∧ ∀ t, t < g.nterm →
      match lastNum g cs.length order (stateAt cs order i) t with
      | some n => T.lookahead[o + t]? = some t ∧ T.action[o + t]? = some n
      | none => ∃ l, l ≠ t ∧ T.lookahead[o + t]? = some l
  reduce : ∀ i, i < nx → ∀ A, g.nlow ≤ A → A < g.nsym → ∀ n, lastNum g cs.length order (stateAt cs order i) A = some n →
    ∃ o : Int, T.reduceOfst[i]? = some o ∧ 0 ≤ o + g.index A ∧ T.lookahead[(o + g.index A).toNat]? = some (g.index A) ∧
      T.action[(o + g.index A).toNat]? = some n
  dflt : ∀ i, i < nx → T.dflt[i]? = some (match dfltReduce g (stateAt cs order i) with
    | none => errAction g cs
    | some r => minReduce g cs + g.iRule r)
  fallback : ∀ t, t < g.nterm → T.fallback[t]? = some ((fb t).getD 0)
  wildcard : T.wildcard = g.wildcard.map g.index
  errsym : T.errsym = g.errsym.map g.index
  ruleLhs : T.ruleLhs = g.ruleList.map fun r => g.index r.lhs
  ruleNRhs : T.ruleNRhs = g.ruleList.map fun r => r.rhs.length
  origin : ∀ i, i < nx → ∀ A, g.nlow ≤ A → A < g.nsym → ∀ (o : Int) (n : Nat), T.reduceOfst[i]? = some o → 0 ≤ o + g.index A →
    T.lookahead[(o + g.index A).toNat]? = some (g.index A) → T.action[(o + g.index A).toNat]? = some n →
    0 < nNtAct g (stateAt cs order i) ∧ ∃ i', i' < nx ∧ T.reduceOfst[i']? = some o ∧ lastNum g cs.length order (stateAt cs order i') A = some n

theorem axOp_ok (wf : g.WF) (he : ErrNT g) (hok : ∀ i, i < nx → ActsOK g cs.length order (stateAt cs order i).acts) {k : Nat}
    (hk : k ∈ axSets g cs order nx) : TransOK g.nsymbol g.nterm (axOp g cs order k).1 (axOp g cs order k).2 := by
  obtain ⟨h1, h2⟩ := mem_axSets.mp hk
  have h3 := hok (k / 2) (by omega)
  unfold axCount at h2
  unfold axOp
  simp only at h2 ⊢
  split_ifs at h2 ⊢ with h4
  · exact tokenSet_ok wf he h3 h2
  · exact ntSet_ok wf he h3 h2

theorem nterm_le_nsymbol (wf : g.WF) : g.nterm ≤ g.nsymbol := by
  have := wf.nsym
  unfold Gram.nlow at this
  unfold Gram.nsymbol; omega

/-- the sets without actions have no offset -/
theorem lastNum_tok_none (wf : g.WF) {c : CState} (h : ActsOK g cs.length order c.acts) (h0 : nTknAct g c = 0) {t : Nat} (ht : t < g.nterm) :
    lastNum g cs.length order c t = none := by
  unfold lastNum
  rw [Option.map_eq_none_iff, List.getLast?_eq_none_iff]
  unfold nTknAct at h0
  rw [List.length_eq_zero_iff, List.filter_eq_nil_iff] at h0
  unfold CState.on onSym
  rw [List.map_eq_nil_iff, List.filter_eq_nil_iff]
  intro a ha hc
  simp only [Bool.and_eq_true, beq_iff_eq] at hc
  refine h0 a ha ?_
  simp only [Bool.and_eq_true, decide_eq_true_eq]
  exact ⟨hc.1, (index_lt_nterm (h.plain wf ha)).mpr (by omega)⟩

theorem lastNum_nt_none (wf : g.WF) {c : CState} (h : ActsOK g cs.length order c.acts) (h0 : nNtAct g c = 0) {A : Nat} (hA : g.nlow ≤ A)
    (hA' : A < g.nsym) : lastNum g cs.length order c A = none := by
  unfold lastNum
  rw [Option.map_eq_none_iff, List.getLast?_eq_none_iff]
  unfold nNtAct at h0
  rw [List.length_eq_zero_iff, List.filter_eq_nil_iff] at h0
  unfold CState.on onSym
  rw [List.map_eq_nil_iff, List.filter_eq_nil_iff]
  intro a ha hc
  simp only [Bool.and_eq_true, beq_iff_eq] at hc
  refine h0 a ha ?_
  simp only [Bool.and_eq_true, decide_eq_true_eq]
  have hlt := index_lt_nterm (h.plain wf ha)
  have hnl : g.nterm ≤ g.nlow := by unfold Gram.nlow; omega
  refine ⟨⟨hc.1, by omega⟩, ?_⟩
  rcases h.sp a ha with h1 | h1
  · exact h1.2
  · omega

theorem index_lt_nsymbol {A : Nat} (hA : g.nlow ≤ A) (hA' : A < g.nsym) : g.index A < g.nsymbol := by
  unfold Gram.index Gram.nsymbol
  unfold Gram.nlow at hA
  split_ifs <;> omega

theorem lastOf_tokenSet_none {c : CState} {X : Nat} (h : g.nterm ≤ X) : lastOf (tokenSet g cs order c) X = none := by
  unfold lastOf
  rw [Option.map_eq_none_iff, List.find?_eq_none]
  intro x hx
  rw [List.mem_reverse] at hx
  unfold tokenSet at hx
  obtain ⟨a, _, h1⟩ := List.mem_filterMap.mp hx
  split_ifs at h1 with h2
  obtain ⟨n, _, rfl⟩ := Option.map_eq_some_iff.mp h1
  simp only [beq_iff_eq]
  omega

theorem report_spec (wf : g.WF) (he : ErrNT g)
    (hok : ∀ i, i < nx → ActsOK g cs.length order (stateAt cs order i).acts) {T : Tables} (h : report g fb cs order nx = some T) :
    Reported g fb cs order nx T := by
  have hTN := nterm_le_nsymbol wf
  have hemp : AInv g.nterm Acttab.empty := ⟨fun j _ => by simp [Acttab.empty, Acttab.slot], fun j l a h => by simp [Acttab.empty, Acttab.slot] at h⟩
  obtain ⟨p, os, h1, h2, h3, _, _, h8⟩ := insertAll_spec wf.nterm hTN ((axSets g cs order nx).map (axOp g cs order)) Acttab.empty hemp
    (by
      intro x hx
      obtain ⟨k, hk, rfl⟩ := List.mem_map.mp hx
      exact axOp_ok wf he hok hk)
  unfold report at h
  simp only [h1, Option.bind_some] at h
  obtain ⟨n, hn, hT⟩ := Option.map_eq_some_iff.mp h
  obtain ⟨n1, n2, n3⟩ := actionSize_spec hn
  rw [List.forall₂_map_left_iff] at h3
  obtain ⟨z1, z2, z3⟩ := zip_lookup axSets_nodup h3
  -- a stored entry
  have hstored : ∀ (o : Int) (X a : Nat), p.look o X = some a → 0 ≤ o + X ∧ (o + X).toNat < n ∧ p.slot (o + X).toNat = some (X, a) := by
    intro o X a hl
    obtain ⟨j, e1, e2⟩ := look_some.mp hl
    have hj : (o + X).toNat = j := by omega
    have hjn : j < p.nAction := by
      by_contra hc
      rw [h2.free j (by omega)] at e2; cases e2
    exact ⟨by omega, by rw [hj]; exact n3 j _ e2 hjn, by rw [hj]; exact e2⟩
  have hact : ∀ j, T.action[j]? = if j < n then some (((p.slot j).map Prod.snd).getD (noAction g cs)) else none := by
    intro j
    rw [← hT]
    simp only [List.getElem?_map]
    by_cases hj : j < n
    · rw [List.getElem?_range hj]; simp [hj]
    · rw [List.getElem?_eq_none (by simp; omega)]; simp [hj]
  have hla1 : ∀ j, j < p.nAction → T.lookahead[j]? = some (((p.slot j).map Prod.fst).getD g.nsymbol) := by
    intro j hj
    rw [← hT]
    rw [List.getElem?_append_left (by simpa using hj), List.getElem?_map, List.getElem?_range hj]
    rfl
  have hla2 : ∀ j, p.nAction ≤ j → j < g.nterm + n → T.lookahead[j]? = some g.nterm := by
    intro j hj hj'
    rw [← hT]
    rw [List.getElem?_append_right (by simpa using hj), List.getElem?_replicate]
    rw [if_pos (by simp; omega)]
  have hlalen : T.lookahead.length = p.nAction + (g.nterm + n - p.nAction) := by rw [← hT]; simp
  have hactlen : T.action.length = n := by rw [← hT]; simp
  have hentry : ∀ (o : Int) (X a : Nat), p.look o X = some a → 0 ≤ o + X ∧ T.lookahead[(o + X).toNat]? = some X ∧ T.action[(o + X).toNat]? = some a := by
    intro o X a hl
    obtain ⟨e1, e2, e3⟩ := hstored o X a hl
    refine ⟨e1, ?_, ?_⟩
    · rw [hla1 _ (by omega), e3]; rfl
    · rw [hact, if_pos e2, e3]; rfl
  -- offsets
  let ofs := fun k => ((axSets g cs order nx).zip os).lookup k
  have hofs : ∀ k, ofs k = none ↔ ¬ (k < 2 * nx ∧ 0 < axCount g cs order k) := by
    intro k; rw [← mem_axSets]; exact z2 k
  have hget : ∀ (f : Nat → Nat) (i : Nat), ((List.range nx).map fun i => ofs (f i))[i]? = if i < nx then some (ofs (f i)) else none := by
    intro f i
    rw [List.getElem?_map]
    split_ifs with hi
    · rw [List.getElem?_range hi]; rfl
    · rw [List.getElem?_eq_none (by simp; omega)]; rfl
  have hso : T.shiftOfst = (trim ((List.range nx).map fun i => ofs (2 * i))).map fun o => o.getD (n : Int) := by rw [← hT]
  obtain ⟨mn, hmn, hro⟩ : ∃ mn, mn = ((((axSets g cs order nx).zip os).filter fun e => e.1 % 2 == 1).map Prod.snd).foldl min 0 - 1 ∧
      T.reduceOfst = (trim ((List.range nx).map fun i => ofs (2 * i + 1))).map fun o => o.getD mn := ⟨_, rfl, by rw [← hT]⟩
  have hcount2 : ∀ i, axCount g cs order (2 * i) = nTknAct g (stateAt cs order i) := by
    intro i
    unfold axCount
    simp only
    rw [if_pos (by omega), show 2 * i / 2 = i by omega]
  have hcount3 : ∀ i, axCount g cs order (2 * i + 1) = nNtAct g (stateAt cs order i) := by
    intro i
    unfold axCount
    simp only
    rw [if_neg (by omega), show (2 * i + 1) / 2 = i by omega]
  have hop2 : ∀ i, axOp g cs order (2 * i) = (true, tokenSet g cs order (stateAt cs order i)) := by
    intro i
    unfold axOp
    simp only
    rw [if_pos (by omega), show 2 * i / 2 = i by omega]
  have hop3 : ∀ i, axOp g cs order (2 * i + 1) = (false, ntSet g cs order (stateAt cs order i)) := by
    intro i
    unfold axOp
    simp only
    rw [if_neg (by omega), show (2 * i + 1) / 2 = i by omega]
  have hcov : ∀ (f : Nat → Nat) (i : Nat), i < (trim ((List.range nx).map fun i => ofs (f i))).length ↔
      ∃ j, i ≤ j ∧ j < nx ∧ ofs (f j) ≠ none := by
    intro f i
    rw [(trim_getElem? _ i).1]
    constructor
    · rintro ⟨j, hij, o, hj⟩
      rw [hget] at hj
      split_ifs at hj with hjn
      simp only [Option.some.injEq] at hj
      exact ⟨j, hij, hjn, by rw [hj]; simp⟩
    · rintro ⟨j, hij, hj, hne⟩
      obtain ⟨o, ho⟩ := Option.ne_none_iff_exists'.mp hne
      exact ⟨j, hij, o, by rw [hget, if_pos hj, ho]⟩
  refine ⟨by rw [← hT], by rw [← hT], by rw [← hT], by rw [← hT]; rfl, by rw [← hT], ?_, ?_, ?_, ?_, ?_, by rw [← hT], by rw [← hT], by rw [← hT], by rw [← hT], ?_⟩
  · intro i
    rw [hso, List.length_map, hcov (fun i => 2 * i)]
    constructor
    · rintro ⟨j, h4, h5, h6⟩
      rw [Ne, hofs, not_not, hcount2] at h6
      exact ⟨j, h4, h5, h6.2⟩
    · rintro ⟨j, h4, h5, h6⟩
      refine ⟨j, h4, h5, ?_⟩
      rw [Ne, hofs, not_not, hcount2]
      exact ⟨by omega, h6⟩
  · intro i hi
    rw [hso, List.length_map] at hi
    obtain ⟨j, h4, h5, h6⟩ := (hcov (fun i => 2 * i) i).mp hi
    have hin : i < nx := by omega
    refine ⟨hin, ?_⟩
    have hgi : T.shiftOfst[i]? = some ((ofs (2 * i)).getD (n : Int)) := by
      rw [hso, List.getElem?_map, (trim_getElem? _ i).2 hi, hget (fun i => 2 * i), if_pos hin]
      rfl
    rw [hgi]
    cases ho : ofs (2 * i) with
    | none =>
      refine ⟨n, rfl, by omega, by omega, ?_⟩
      intro t ht
      have h0 : nTknAct g (stateAt cs order i) = 0 := by
        have := (hofs _).mp ho
        rw [hcount2] at this
        omega
      rw [lastNum_tok_none wf (hok i hin) h0 ht]
      simp only
      by_cases hlt : n + t < p.nAction
      · refine ⟨g.nsymbol, by omega, ?_⟩
        rw [hla1 _ hlt]
        cases hsl : p.slot (n + t) with
        | none => rfl
        | some e => have := n3 _ _ hsl hlt; omega
      · exact ⟨g.nterm, by omega, hla2 _ (by omega) (by omega)⟩
    | some o =>
      obtain ⟨k1, _⟩ := z1 _ _ ho
      rw [hop2] at k1
      obtain ⟨q1, q2, q3, t0, ht0, q4⟩ := k1.tok rfl
      refine ⟨o.toNat, by simp only [Option.getD_some, Option.some.injEq]; omega, ?_, by omega, ?_⟩
      · obtain ⟨a, ha⟩ := Option.ne_none_iff_exists'.mp q4
        have := hstored o t0 a (by rw [q3 t0 ht0, ha])
        omega
      · intro t ht
        have hk := q3 t ht
        rw [lastOf_tokenSet wf he (hok i hin) ht] at hk
        rw [← hk]
        have hot : (o + t).toNat = o.toNat + t := by omega
        cases hl : p.look o t with
        | some a =>
          obtain ⟨_, e2, e3⟩ := hentry o t a hl
          rw [hot] at e2 e3
          exact ⟨e2, e3⟩
        | none =>
          simp only
          have hlt : o.toNat + t < p.nAction := by omega
          refine ⟨_, ?_, hla1 _ hlt⟩
          unfold Acttab.look at hl
          rw [if_pos (by omega), hot] at hl
          cases hsl : p.slot (o.toNat + t) with
          | none => simp; omega
          | some e =>
            obtain ⟨l, a⟩ := e
            rw [hsl] at hl
            simp only at hl
            split_ifs at hl with hlt'
            simpa using hlt'
  · intro i hi A hA hA' m hm
    have hne : ofs (2 * i + 1) ≠ none := by
      rw [Ne, hofs, not_not, hcount3]
      refine ⟨by omega, ?_⟩
      by_contra hc
      rw [lastNum_nt_none wf (hok i hi) (by omega) hA hA'] at hm
      cases hm
    obtain ⟨o, ho⟩ := Option.ne_none_iff_exists'.mp hne
    have hlen : i < (trim ((List.range nx).map fun i => ofs (2 * i + 1))).length :=
      (hcov (fun i => 2 * i + 1) i).mpr ⟨i, Nat.le_refl _, hi, hne⟩
    refine ⟨o, ?_, ?_⟩
    · rw [hro, List.getElem?_map, (trim_getElem? _ i).2 hlen, hget (fun i => 2 * i + 1), if_pos hi, ho]
      rfl
    · obtain ⟨k1, _⟩ := z1 _ _ ho
      rw [hop3] at k1
      refine hentry o (g.index A) m (k1.nt rfl _ _ ?_)
      rw [lastOf_ntSet wf he (hok i hi) hA hA', hm]
  · intro i hi
    rw [← hT]
    rw [List.getElem?_map, List.getElem?_range hi]
    rfl
  · intro t ht
    rw [← hT]
    rw [List.getElem?_map, List.getElem?_range ht]
    rfl
  · intro i hi A hA hA' o m hoi hnn hlam hactm
    have hnt : g.nterm ≤ g.index A := by
      have hp : g.plain A := .inr hA
      have := index_lt_nterm hp
      have hnl : g.nterm ≤ g.nlow := by unfold Gram.nlow; omega
      omega
    have hjn : (o + g.index A).toNat < n := by rw [← hactlen]; exact (List.getElem?_eq_some_iff.mp hactm).1
    have hslot : p.slot (o + g.index A).toNat = some (g.index A, m) := by
      rw [hla1 _ (by omega)] at hlam
      rw [hact, if_pos hjn] at hactm
      cases hs : p.slot (o + g.index A).toNat with
      | none =>
        rw [hs] at hlam
        simp only [Option.map_none, Option.getD_none, Option.some.injEq] at hlam
        have : g.index A < g.nsymbol := index_lt_nsymbol hA hA'
        omega
      | some e =>
        rw [hs] at hlam hactm
        simp only [Option.map_some, Option.getD_some, Option.some.injEq] at hlam hactm
        rw [← hlam, ← hactm]
    rcases h8 _ _ _ hslot with h9 | ⟨k, x, o', e1, e2, e3, e4⟩
    · simp [Acttab.empty, Acttab.slot] at h9
    have ho' : o' = o := by omega
    subst ho'
    rw [List.getElem?_map] at e1
    obtain ⟨kk, e5, rfl⟩ := Option.map_eq_some_iff.mp e1
    have hmem := List.mem_of_getElem? e5
    obtain ⟨m1, m2⟩ := mem_axSets.mp hmem
    have hzip : (kk, o') ∈ (axSets g cs order nx).zip os := by
      refine List.mem_of_getElem? (i := k) ?_
      rw [List.getElem?_zip_eq_some]
      exact ⟨e5, e2⟩
    have hlook : ofs kk = some o' := (z3 kk o').mpr hzip
    have hodd : kk % 2 = 1 := by
      by_contra hc
      rw [show kk = 2 * (kk / 2) by omega, hop2] at e4
      rw [lastOf_tokenSet_none hnt] at e4
      cases e4
    have hk : kk = 2 * (kk / 2) + 1 := by omega
    have hin : kk / 2 < nx := by omega
    have hofo : ∀ j o, j < nx → ofs (2 * j + 1) = some o → T.reduceOfst[j]? = some o := by
      intro j o hj ho
      have hlen : j < (trim ((List.range nx).map fun i => ofs (2 * i + 1))).length :=
        (hcov (fun i => 2 * i + 1) j).mpr ⟨j, Nat.le_refl _, hj, by simp only [ho]; exact Option.some_ne_none _⟩
      rw [hro, List.getElem?_map, (trim_getElem? _ j).2 hlen, hget (fun i => 2 * i + 1), if_pos hj, ho]
      rfl
    refine ⟨?_, kk / 2, hin, hofo _ _ hin (by rw [← hk]; exact hlook), ?_⟩
    · rw [Nat.pos_iff_ne_zero]
      intro h0
      have hnone : ofs (2 * i + 1) = none := by
        rw [hofs, hcount3]; omega
      rw [hro, List.getElem?_map, Option.map_eq_some_iff] at hoi
      obtain ⟨y, y1, y2⟩ := hoi
      have hil : i < (trim ((List.range nx).map fun i => ofs (2 * i + 1))).length := (List.getElem?_eq_some_iff.mp y1).1
      rw [(trim_getElem? _ i).2 hil, hget (fun i => 2 * i + 1), if_pos hi, hnone] at y1
      simp only [Option.some.injEq] at y1
      subst y1
      simp only [Option.getD_none] at y2
      have hle : ∀ (L : List Int) (a : Int), L.foldl min a ≤ a ∧ ∀ x ∈ L, L.foldl min a ≤ x := by
        intro L
        induction L with
        | nil => intro a; simp
        | cons b L ih =>
          intro a
          obtain ⟨i1, i2⟩ := ih (min a b)
          simp only [List.foldl_cons, List.mem_cons]
          refine ⟨by omega, ?_⟩
          rintro x (rfl | hx)
          · omega
          · exact i2 x hx
      have := (hle ((((axSets g cs order nx).zip os).filter fun e => e.1 % 2 == 1).map Prod.snd) 0).2 o'
        (List.mem_map.mpr ⟨(kk, o'), List.mem_filter.mpr ⟨hzip, by simpa using hodd⟩, rfl⟩)
      omega
    · rw [hk, hop3] at e4
      rw [← lastOf_ntSet wf he (hok _ hin) hA hA']
      exact e4

/-- the tables can be made if the transaction inserted last is one that leaves the table in its array -/
theorem report_some (wf : g.WF) (he : ErrNT g)
    (hok : ∀ i, i < nx → ActsOK g cs.length order (stateAt cs order i).acts)
    (hlast : ∀ k, (axSets g cs order nx).getLast? = some k → k % 2 = 1 ∨
      ∃ t, t < g.nterm ∧ t + g.nterm ≤ g.nsymbol ∧ (stateAt cs order (k / 2)).on t ≠ []) :
    ∃ T, report g fb cs order nx = some T := by
  have hTN := nterm_le_nsymbol wf
  have hemp : AInv g.nterm Acttab.empty := ⟨fun j _ => by simp [Acttab.empty, Acttab.slot], fun j l a h => by simp [Acttab.empty, Acttab.slot] at h⟩
  obtain ⟨p, os, h1, _, _, _, h5, _⟩ := insertAll_spec wf.nterm hTN ((axSets g cs order nx).map (axOp g cs order)) Acttab.empty hemp
    (by
      intro x hx
      obtain ⟨k, hk, rfl⟩ := List.mem_map.mp hx
      exact axOp_ok wf he hok hk)
  have h6 := h5 (by simp [Acttab.empty]) (by
    intro x hx
    rw [List.getLast?_map] at hx
    obtain ⟨k, hk, rfl⟩ := Option.map_eq_some_iff.mp hx
    have hmem := List.mem_of_getLast? hk
    unfold axOp
    simp only
    split_ifs with hev
    · right
      rcases hlast k hk with h7 | ⟨t, ht, h7, h8⟩
      · omega
      · have hkn := (mem_axSets.mp hmem).1
        have h9 := hok (k / 2) (by omega)
        simp only
        obtain ⟨e, hme⟩ := List.exists_mem_of_ne_nil _ h8
        obtain ⟨a, ha, hl, hsp, _⟩ := mem_onSym.mp hme
        have hin : (a.sp, actNum g cs.length order a.sp (a.type, a.x)) ∈ tokenSet g cs order (stateAt cs order (k / 2)) := by
          rw [tokenSet_eq wf he h9]
          refine List.mem_map.mpr ⟨a, List.mem_filter.mpr ⟨ha, ?_⟩, rfl⟩
          rw [hl, hsp]
          simpa using ht
        have := (minEntry_spec (List.ne_nil_of_mem hin)).2 _ hin
        simp only [hsp] at this
        omega
    · exact .inl rfl)
  unfold report
  simp only [h1, Option.bind_some]
  have : ∃ n, p.actionSize = some n := by
    unfold Acttab.actionSize
    rw [if_neg (by omega)]
    exact ⟨_, rfl⟩
  obtain ⟨n, hn⟩ := this
  rw [hn]
  exact ⟨_, rfl⟩

end Verif.Lemon
