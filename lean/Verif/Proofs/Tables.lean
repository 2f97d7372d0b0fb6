import Verif.Proofs.Vectors
import Verif.Props.C13
import Verif.Byacc.Skel
/-
The emitted tables describe the automaton and the action rows.
-/
set_option autoImplicit false
namespace Verif.Byacc
open Spec

theorem insertOrder_mem (vs : List Vec) (order : List Nat) (i k : Nat) :
    k ∈ insertOrder vs order i ↔ k = i ∨ k ∈ order := by
  unfold insertOrder
  simp only
  generalize (List.dropWhile _ (List.dropWhile _ order.reverse)).length = n
  rw [List.mem_append, List.mem_cons]
  have : k ∈ order ↔ k ∈ order.take n ∨ k ∈ order.drop n := by
    rw [← List.mem_append, List.take_append_drop]
  tauto

theorem insertOrder_nodup (vs : List Vec) (order : List Nat) (i : Nat) (h : order.Nodup) (hi : i ∉ order) :
    (insertOrder vs order i).Nodup := by
  unfold insertOrder
  simp only
  generalize (List.dropWhile _ (List.dropWhile _ order.reverse)).length = n
  have hp : (order.take n ++ i :: order.drop n).Perm (i :: order) := by
    refine List.perm_middle.trans ?_
    rw [List.take_append_drop]
  rw [hp.nodup_iff]
  exact List.nodup_cons.2 ⟨hi, h⟩

theorem sortActions_spec (vs : List Vec) :
    (sortActions vs).Nodup ∧ ∀ k, k ∈ sortActions vs ↔ k < vs.length ∧ 0 < (vs.getD k {}).tally := by
  unfold sortActions
  have := loop_inv (n := vs.length) (s := ([] : List Nat))
    (f := fun order i => if (vs.getD i {}).tally > 0 then insertOrder vs order i else order)
    (fun i order => order.Nodup ∧ ∀ k, k ∈ order ↔ k < i ∧ 0 < (vs.getD k {}).tally) ?_ ?_
  · exact this
  · simp
  · rintro i order hi ⟨h1, h2⟩
    split
    · rename_i ht
      refine ⟨insertOrder_nodup vs order i h1 (by rw [h2]; omega), ?_⟩
      intro k
      rw [insertOrder_mem, h2]
      constructor
      · rintro (rfl | h)
        · exact ⟨by omega, ht⟩
        · exact ⟨by omega, h.2⟩
      · rintro ⟨h, h'⟩
        rcases Nat.lt_succ_iff_lt_or_eq.1 h with h | rfl
        · exact .inr ⟨h, h'⟩
        · exact .inl rfl
    · rename_i ht
      refine ⟨h1, ?_⟩
      intro k
      rw [h2]
      constructor
      · rintro ⟨h, h'⟩; exact ⟨by omega, h'⟩
      · rintro ⟨h, h'⟩
        rcases Nat.lt_succ_iff_lt_or_eq.1 h with h | rfl
        · exact ⟨h, h'⟩
        · omega

theorem packTable_spec {vs : List Vec} (nstates : Nat) (hvs : ∀ k, VecOK (vs.getD k {})) :
    packTable nstates vs (sortActions vs) = .fatal ∨
    (packTable nstates vs (sortActions vs) = .outOfBounds ∧
      1200 ≤ ((sortActions vs).map (fun k => (entsAt vs k).length)).sum) ∨
    ∃ p, packTable nstates vs (sortActions vs) = .ok p ∧ PInv vs (sortActions vs) p := by
  obtain ⟨h1, h2⟩ := sortActions_spec vs
  unfold packTable
  have := packLoop_spec (nstates := nstates) hvs (sortActions vs) [] (PInv.init vs) (by simpa using h1)
    (fun i hi => (h2 i).1 hi)
  simpa using this

/-- Looking up in the packed arrays. -/
theorem PInv.probe {vs : List Vec} {order : List Nat} {p : Pack} (H : PInv vs order p) (hvs : ∀ k, VecOK (vs.getD k {}))
    (hord : ∀ k, k ∈ order ↔ k < vs.length ∧ 0 < (vs.getD k {}).tally) (i : Nat) (x : Int) (hx : 0 ≤ x) (y : Nat) :
    (p.baseAt i ≠ 0 ∧ 0 ≤ p.baseAt i + x ∧ p.baseAt i + x ≤ p.high ∧ p.check[(p.baseAt i + x).toNat]? = some x ∧
      p.table[(p.baseAt i + x).toNat]? = some y) ↔ (x, y) ∈ entsAt vs i := by
  constructor
  · rintro ⟨h1, h2, h3, h4, h5⟩
    have hi : i ∈ order := by
      by_contra hi
      exact h1 (H.rest i hi)
    obtain ⟨k, hk, e, he, heq⟩ := H.cell _ x h4 (by omega)
    obtain ⟨g0, g1, g2, g3⟩ := H.ent k hk e he
    have hloc : (p.baseAt k + e.1).toNat = (p.baseAt i + x).toNat := by omega
    rw [hloc] at g2 g3
    rw [h4] at g2
    rw [h5] at g3
    simp only [Option.some.injEq] at g2 g3
    have hb : p.baseAt k = p.baseAt i := by omega
    have := H.same k hk i hi hb
    rw [← this, g2, g3]
    exact he
  · intro h
    have hlt : 0 < (vs.getD i {}).tally := by
      rw [(hvs i).tally]; exact List.length_pos_of_mem h
    have hi : i ∈ order := by
      rw [hord]
      refine ⟨?_, hlt⟩
      by_contra hge
      rw [List.getD_eq_getElem?_getD, List.getElem?_eq_none (by omega)] at hlt
      simp at hlt
    obtain ⟨g0, g1, g2, g3⟩ := H.ent i hi _ h
    exact ⟨H.nz i hi, g0, g1, g2, g3⟩


/-! ### rows -/

theorem no_accept_reduce {g : Gram} {G : CFG} {a : LR0} {m : GotoMap} (C : GCtx g G a m) {q d : Nat}
    (hi : AItem g G a q 0 d) (hc : Complete G 0 d) : False := by
  obtain ⟨A, α, hr, rfl⟩ := hc
  rw [C.wf.acc] at hr
  simp only [Option.some.injEq, Prod.mk.injEq] at hr
  obtain ⟨-, rfl⟩ := hr
  obtain ⟨γ, hγ⟩ := C.A.path_to q hi.1
  cases hγ with
  | nil =>
    rw [C.A.item0] at hi
    have := Verif.Byacc.Closed.kern_of_pos hi (by simp)
    simp at this
  | snoc _ ht =>
    rw [C.A.tgt _ _ _ ht] at hi
    obtain ⟨d', e, hi', hX⟩ := Verif.Byacc.Closed.kern_of_pos hi (by simp)
    have hd : d' = 1 := by simpa using e.symm
    subst hd
    obtain ⟨A, α, hr, hX⟩ := hX
    rw [C.wf.acc] at hr
    simp only [Option.some.injEq, Prod.mk.injEq] at hr
    obtain ⟨-, rfl⟩ := hr
    simp only [List.getElem?_cons_succ, List.getElem?_cons_zero, Option.some.injEq] at hX
    subst hX
    exact ((C.A.ex _ 0 (C.A.lt _ _ _ ht).1).1 ⟨_, ht⟩).1 rfl

section
variable {g : Gram} {G : CFG} {sp : SymPrec} {lemon : Bool} {e1 e2 : Int} {o : Generated}

theorem GenOK.mem_row (K : GenOK g G sp lemon e1 e2 o) {q : Nat} (hq : q < o.aut.nstates) {x : Action}
    (hx : x ∈ o.parser.rows.getD q []) : x.supp 0 ∈ o.acts g sp q := by
  rw [List.getD_eq_getElem?_getD, K.rows q hq] at hx
  rw [← (K.row q hq).same]
  exact List.mem_map.mpr ⟨x, hx, rfl⟩

theorem GenOK.rowOK (K : GenOK g G sp lemon e1 e2 o) (q : Nat) (hq : q < o.aut.nstates) :
    RowOK g.ntokens (o.parser.rows.getD q []) := by
  have hrow : o.parser.rows.getD q [] = (crRow lemon (q == o.parser.final) (o.acts g sp q)).visited := by
    rw [List.getD_eq_getElem?_getD, K.rows q hq]; rfl
  have R := K.row q hq
  have hsame := R.same
  rw [← hrow] at hsame
  have hk : ∀ x ∈ o.parser.rows.getD q [], (x.suppressed = 0 ↔
          Kept (lemon && !(q == o.parser.final && x.symbol == 0)) (competitors (o.acts g sp q) x.symbol) (x.supp 0)) := by
    intro x hx
    apply (R.group x.symbol).kept x
    rw [← hrow]
    exact List.mem_filter.2 ⟨hx, by simp⟩
  have hm : ∀ x ∈ o.parser.rows.getD q [], x.symbol < g.ntokens ∧ 0 < x.number ∧ (x.code = .REDUCE → 3 ≤ x.number) := by
    intro x hx
    rcases (K.mem q hq _).1 (K.mem_row hq hx) with ⟨X, t, hX, hs, e⟩ | ⟨r, t, ⟨d, hi, hc⟩, hla, ht, e⟩
    · have e1 : x.symbol = X := congrArg Action.symbol e
      have e2 : x.number = t := congrArg Action.number e
      have e3 : x.code = .SHIFT := congrArg Action.code e
      have := K.ctx.packs.ntok
      have := (K.ctx.aut.target _ _ _ hs).2.2.1
      refine ⟨by omega, by omega, fun h => by rw [e3] at h; cases h⟩
    · have e1 : x.symbol = t := congrArg Action.symbol e
      have e2 : x.number = r + 2 := congrArg Action.number e
      have := K.ctx.packs.ntok
      have : r ≠ 0 := by
        rintro rfl
        exact no_accept_reduce K.ctx hi hc
      exact ⟨by omega, by omega, fun _ => by omega⟩
  refine ⟨fun x hx => (hm x hx).1, fun x hx => (hm x hx).2.1, fun x hx => (hm x hx).2.2, ?_, ?_⟩
  · have : (o.acts g sp q).Nodup := (K.sorted q hq).imp (fun h e => by subst e; exact ActLt.irrefl h)
    rw [← hsame] at this
    exact this.of_map _
  · intro x hx y hy hxy h0 h0'
    have k1 := (hk x hx).mp h0
    have k2 := (hk y hy).mp h0'
    rw [← hxy] at k2
    have hs : (competitors (o.acts g sp q) x.symbol).Pairwise ActLt := (K.sorted q hq).filter _
    have hX : ∀ z ∈ competitors (o.acts g sp q) x.symbol, z.symbol = x.symbol := by
      intro z hz
      have := (List.mem_filter.mp hz).2
      simpa using this
    have hin : ∀ z ∈ o.parser.rows.getD q [], z.symbol = x.symbol → z.supp 0 ∈ competitors (o.acts g sp q) x.symbol := by
      intro z hz hzx
      rw [← hsame]
      refine List.mem_filter.mpr ⟨List.mem_map.mpr ⟨z, hz, rfl⟩, ?_⟩
      simpa [Action.supp] using hzx
    have i1 := hin x hx rfl
    have i2 := hin y hy hxy.symm
    rw [← supp_zero h0, ← supp_zero h0']
    rcases k1 with ⟨c1, k1⟩ | ⟨c1, k1⟩ <;> rcases k2 with ⟨c2, k2⟩ | ⟨c2, k2⟩
    · exact shift_eq hs hX i1 i2 c1 c2
    · exact absurd (k2.1.2.2 _ i1 c1) (k1 _ i2 c2).1
    · exact absurd (k1.1.2.2 _ i2 c2) (k2 _ i1 c1).1
    · exact Best.unique hs hX k1 k2

theorem GenOK.defred (K : GenOK g G sp lemon e1 e2 o) {q : Nat} (hq : q < o.aut.nstates) {r : Nat} (hr : 0 < r) :
    o.parser.defred.getD q 0 = r ↔
      (∀ x ∈ o.parser.rows.getD q [], x.suppressed = 0 → x.code = .REDUCE ∧ x.number = r) ∧
      (∃ x ∈ o.parser.rows.getD q [], x.suppressed = 0 ∧ x.symbol ≠ 1) := by
  have hd : o.parser.defred = o.parser.rows.map soleReduction := by rw [K.parser]; rfl
  have hl : q < o.parser.rows.length := by rw [K.rows_len]; exact hq
  rw [hd, List.getD_eq_getElem?_getD, List.getElem?_map, List.getD_eq_getElem?_getD,
    List.getElem?_eq_getElem hl]
  simp only [Option.map_some, Option.getD_some]
  have := soleLoop_spec r hr o.parser.rows[q] 0 0 (fun _ => rfl) (by
    intro x hx _
    refine (K.rowOK q hq).num x ?_
    rw [List.getD_eq_getElem?_getD, List.getElem?_eq_getElem hl]
    exact hx)
  unfold soleReduction
  rw [this]
  simp [live_iff]

/-- the goto column of a nonterminal: its transitions, by increasing source state -/
theorem GenOK.column (K : GenOK g G sp lemon e1 e2 o) {i : Nat} (hi : i < g.nsyms - (g.ntokens + 1)) :
    (∀ s t, (s, t) ∈ columnOf g (setGotoMap g o.aut) (g.ntokens + 1 + i) ↔ ShiftsTo o.aut s (g.ntokens + 1 + i) t) ∧
    (columnOf g (setGotoMap g o.aut) (g.ntokens + 1 + i)).Pairwise (fun p q => p.1 < q.1) := by
  have hr := K.ctx.ok.region (i + 1) (by unfold Gram.nvars; omega)
  have hcol : columnOf g (setGotoMap g o.aut) (g.ntokens + 1 + i) =
      (gotoPairs g o.aut).filter (fun p => o.aut.acc p.2 - g.ntokens == i + 1) := by
    rw [← hr]
    unfold columnOf
    simp only
    rw [show g.ntokens + 1 + i - g.ntokens = i + 1 by omega, show g.ntokens + 1 + i + 1 - g.ntokens = i + 1 + 1 by omega]
  rw [hcol]
  refine ⟨?_, gotoPairs_sorted K.ctx.aut (i + 1)⟩
  intro s t
  rw [List.mem_filter, mem_gotoPairs K.ctx.aut]
  simp only [beq_iff_eq]
  constructor
  · rintro ⟨⟨h1, h2⟩, h3⟩
    rw [show g.ntokens + 1 + i = o.aut.acc t by omega]
    exact h1
  · intro h
    have hacc : o.aut.acc t = g.ntokens + 1 + i := by
      exact ((shiftsTo_iff K.ctx.aut).1 h).2
    rw [hacc]
    exact ⟨⟨h, by omega⟩, by omega⟩

/-- What the emitted arrays say. -/
structure TablesOK (g : Gram) (G : CFG) (sv : List Int) (o : Generated) (t : Tables) : Prop where
  shift : ∀ q, q < o.aut.nstates → ∀ (x : Int) (y : Nat), 0 ≤ x → (t.shiftOn q x = some y ↔
    ∃ a ∈ o.parser.rows.getD q [], a.isSh ∧ x = sv.getD a.symbol 0 ∧ y = a.number)
  reduce : ∀ q, q < o.aut.nstates → ∀ (x : Int) (y : Nat), 0 ≤ x → (t.reduceOn q x = some y ↔
    ∃ a ∈ o.parser.rows.getD q [], a.isRe (o.parser.defred.getD q 0) ∧ x = sv.getD a.symbol 0 ∧ y + 2 = a.number)
  goto : ∀ s A q, g.ntokens < A → ShiftsTo o.aut s A q → t.gotoOf s ((A : Int) - g.ntokens - 1) = q
  defred : ∀ q, q < o.aut.nstates → (o.parser.defred.getD q 0 = 0 ∧ t.defred[q]? = some 0) ∨
    ∃ r, 0 < r ∧ o.parser.defred.getD q 0 = r + 2 ∧ t.defred[q]? = some r
  lhs : ∀ (r A : Nat) (α : List Nat), G.rules[r]? = some (A, α) → t.lhs[r]? = some ((A : Int) - g.ntokens - 1)
  len : ∀ (r A : Nat) (α : List Nat), G.rules[r]? = some (A, α) → t.len[r]? = some (α.length : Int)
  final : t.final = o.parser.final
  errcode : t.errcode = sv.getD 1 0

theorem probe_iff {vs : List Vec} {order : List Nat} {p : Pack} (H : PInv vs order p) (hvs : ∀ k, VecOK (vs.getD k {}))
    (hord : ∀ k, k ∈ order ↔ k < vs.length ∧ 0 < (vs.getD k {}).tally) {t : Tables}
    (ht : t.table = p.table.take (p.high + 1)) (hc : t.check = p.check.take (p.high + 1)) (hs : t.size = p.high)
    (i : Nat) (x : Int) (hx : 0 ≤ x) (y : Nat) :
    t.probe (p.baseAt i) x = some y ↔ (x, y) ∈ entsAt vs i := by
  rw [← H.probe hvs hord i x hx y]
  unfold Tables.probe
  rw [ht, hc, hs]
  split
  · rename_i h
    obtain ⟨h1, h2, h3, h4⟩ := h
    rw [List.getElem?_take_of_lt (by omega)] at h4 ⊢
    simp [h1, h2, h3, h4]
  · rename_i h
    simp only [reduceCtorEq, false_iff]
    rintro ⟨h1, h2, h3, h4, h5⟩
    refine h ⟨h1, h2, h3, ?_⟩
    rw [List.getElem?_take_of_lt (by omega)]
    exact h4

theorem vectors_spec (K : GenOK g G sp lemon e1 e2 o) {per : Nat} (hper : 2 ≤ per) {sv : List Int}
    (hsv : SymVals g.ntokens g.nsyms sv) :
    let n := o.aut.nstates
    let dv := vectors per g sv o
    dv.2.length = per * n + g.nvars ∧ (∀ k, VecOK (dv.2.getD k {})) ∧
    (∀ q, q < n → ∀ x y, (x, y) ∈ entsAt dv.2 q ↔
      ∃ a ∈ o.parser.rows.getD q [], a.isSh ∧ x = sv.getD a.symbol 0 ∧ y = a.number) ∧
    (∀ q, q < n → ∀ x y, (x, y) ∈ entsAt dv.2 (n + q) ↔
      ∃ a ∈ o.parser.rows.getD q [], a.isRe (o.parser.defred.getD q 0) ∧ x = sv.getD a.symbol 0 ∧ y = a.number - 2) ∧
    (∀ k, 2 * n ≤ k → k < per * n → dv.2.getD k {} = {}) ∧
    dv.1.length = g.nsyms - (g.ntokens + 1) ∧
    (∀ i, i < g.nsyms - (g.ntokens + 1) →
      dv.1[i]? = some (defaultGoto n (columnOf g (setGotoMap g o.aut) (g.ntokens + 1 + i))) ∧
      dv.2.getD (per * n + i) {} = saveColumn (columnOf g (setGotoMap g o.aut) (g.ntokens + 1 + i))
        (defaultGoto n (columnOf g (setGotoMap g o.aut) (g.ntokens + 1 + i)))) := by
  intro n dv
  have hle : 2 * n ≤ per * n := Nat.mul_le_mul_right _ hper
  have h0 : ∀ k, (List.replicate (per * n + g.nvars) ({} : Vec)).getD k {} = {} := by
    intro k
    rw [List.getD_eq_getElem?_getD, List.getElem?_replicate]
    split <;> rfl
  obtain ⟨t1, t2, t3, t4, t5⟩ := tokenActions_spec (n := n) hsv (rows := o.parser.rows) (defred := o.parser.defred)
    (fun q hq => K.rowOK q hq) (vs0 := List.replicate (per * n + g.nvars) {}) (by rw [List.length_replicate]; omega) h0
  rw [List.length_replicate] at t1
  obtain ⟨g1, g2, g3, g4, g5⟩ := gotoActions_spec (per := per) (n := n) (m := setGotoMap g o.aut) hsv t1
    (fun k hk => t5 k (by omega))
  have hlt : ∀ k, k < per * n → dv.2.getD k {} = _ := g2
  refine ⟨by rw [← t1, ← g1]; rfl, ?_, ?_, ?_, ?_, g3, g4⟩
  · intro k
    by_cases hk : k < per * n
    · rw [hlt k hk]; exact t2 k
    · by_cases hk' : k < per * n + (g.nsyms - (g.ntokens + 1))
      · obtain ⟨i, rfl⟩ : ∃ i, k = per * n + i := ⟨k - per * n, by omega⟩
        have hi : i < g.nsyms - (g.ntokens + 1) := by omega
        have : dv.2.getD (per * n + i) {} = _ := (g4 i hi).2
        rw [this]
        exact (saveColumn_spec _ _ (K.column hi).2).1
      · have : dv.2.getD k {} = {} := g5 k (by omega)
        rw [this]; exact .empty
  · intro q hq x y
    unfold entsAt
    rw [hlt q (by omega)]
    exact t3 q hq x y
  · intro q hq x y
    unfold entsAt
    rw [hlt (n + q) (by omega)]
    exact t4 q hq x y
  · intro k h1 h2
    rw [hlt k h2]
    exact t5 k h1

theorem outputTables_ok (K : GenOK g G sp lemon e1 e2 o) {per : Nat} (hper : 2 ≤ per) {sv : List Int}
    (hsv : SymVals g.ntokens g.nsyms sv) {t : Tables} (ht : outputTables per g sv o = .ok t) : TablesOK g G sv o t := by
  obtain ⟨v1, v2, v3, v4, v5, v6, v7⟩ := vectors_spec K hper hsv
  have hle : 2 * o.aut.nstates ≤ per * o.aut.nstates := Nat.mul_le_mul_right _ hper
  have hps := packTable_spec (vs := (vectors per g sv o).2) o.aut.nstates v2
  unfold outputTables at ht
  simp only at ht
  rcases hps with h | ⟨h, -⟩ | ⟨p, h, H⟩
  · rw [h] at ht; cases ht
  · rw [h] at ht; cases ht
  rw [h] at ht
  simp only [Out.bind] at ht
  split at ht
  · cases ht
  have hord := (sortActions_spec (vectors per g sv o).2).2
  simp only [Out.ok.injEq] at ht
  have hpr : ∀ i x y, 0 ≤ x → (t.probe (p.baseAt i) x = some y ↔ (x, y) ∈ entsAt (vectors per g sv o).2 i) :=
    fun i x y hx => probe_iff H v2 hord (by rw [← ht]) (by rw [← ht]) (by rw [← ht]) i x hx y
  have hntok := K.ctx.packs.ntok
  have hnr := K.ctx.packs.nrules
  refine ⟨?_, ?_, ?_, ?_, ?_, ?_, by rw [← ht], by rw [← ht]⟩
  · intro q hq x y hx
    rw [← v3 q hq x y, ← hpr q x y hx]
    have : t.sindex.getD q 0 = p.baseAt q := by
      rw [← ht]
      simp only [List.getD_eq_getElem?_getD, Pack.baseAt]
      rw [List.getElem?_take_of_lt hq]
    unfold Tables.shiftOn
    rw [this]
  · intro q hq x y hx
    have hb : t.rindex.getD q 0 = p.baseAt (o.aut.nstates + q) := by
      rw [← ht]
      simp only [List.getD_eq_getElem?_getD, Pack.baseAt]
      rw [List.getElem?_take_of_lt hq, List.getElem?_drop]
    unfold Tables.reduceOn
    rw [hb, hpr _ x y hx, v4 q hq x y]
    constructor
    · rintro ⟨a, ha, hre, h1, h2⟩
      have := (K.rowOK q hq).red a ha hre.2.1
      exact ⟨a, ha, hre, h1, by omega⟩
    · rintro ⟨a, ha, hre, h1, h2⟩
      exact ⟨a, ha, hre, h1, by omega⟩
  · intro s A q hA hs
    have hAlt : A < g.nsyms := by
      obtain ⟨h1, h2⟩ := (shiftsTo_iff K.ctx.aut).1 hs
      have := (acc_range K.ctx.aut K.ctx.wf h1).2
      omega
    obtain ⟨i, rfl⟩ : ∃ i, A = g.ntokens + 1 + i := ⟨A - (g.ntokens + 1), by omega⟩
    have hi : i < g.nsyms - (g.ntokens + 1) := by omega
    obtain ⟨c1, c2⟩ := K.column hi
    have hidx : (((g.ntokens + 1 + i : Nat) : Int) - g.ntokens - 1).toNat = i := by omega
    have hgi : t.gindex.getD i 0 = p.baseAt (per * o.aut.nstates + i) := by
      rw [← ht]
      simp only [List.getD_eq_getElem?_getD, Pack.baseAt]
      rw [List.getElem?_take_of_lt (by unfold Gram.nvars; omega), List.getElem?_drop]
    have hdg : t.dgoto.getD i 0 = defaultGoto o.aut.nstates (columnOf g (setGotoMap g o.aut) (g.ntokens + 1 + i)) := by
      rw [← ht]
      simp only [List.getD_eq_getElem?_getD]
      rw [(v7 i hi).1]; rfl
    have hmem : ∀ y, t.probe (t.gindex.getD i 0) (s : Int) = some y ↔
        y = q ∧ q ≠ defaultGoto o.aut.nstates (columnOf g (setGotoMap g o.aut) (g.ntokens + 1 + i)) := by
      intro y
      rw [hgi, hpr _ _ _ (by omega)]
      unfold entsAt
      rw [(v7 i hi).2, (saveColumn_spec _ _ c2).2]
      constructor
      · rintro ⟨s', e, h1, h2⟩
        have : s' = s := by omega
        subst this
        have := K.ctx.A.det ((c1 _ _).1 h1) hs
        subst this
        exact ⟨rfl, h2⟩
      · rintro ⟨rfl, h2⟩
        exact ⟨s, rfl, (c1 _ _).2 hs, h2⟩
    unfold Tables.gotoOf
    rw [hidx]
    cases hp : t.probe (t.gindex.getD i 0) (s : Int) with
    | some y => exact ((hmem y).1 hp).1
    | none =>
      simp only
      rw [hdg]
      by_contra hne
      have := (hmem q).2 ⟨rfl, fun e => hne e.symm⟩
      rw [hp] at this
      cases this
  · intro q hq
    have hd : t.defred[q]? = some (if o.parser.defred.getD q 0 ≠ 0 then o.parser.defred.getD q 0 - 2 else 0) := by
      rw [← ht]
      simp [List.getElem?_map, List.getElem?_range hq]
    by_cases h0 : o.parser.defred.getD q 0 = 0
    · exact .inl ⟨h0, by rw [hd, if_neg (by simpa using h0)]⟩
    · obtain ⟨-, x, hx, hl, -⟩ := (K.defred hq (Nat.pos_of_ne_zero h0)).1 rfl
      obtain ⟨h1, h2⟩ := (K.defred hq (Nat.pos_of_ne_zero h0)).1 rfl |>.1 x hx hl
      have := (K.rowOK q hq).red x hx h1
      exact .inr ⟨o.parser.defred.getD q 0 - 2, by omega, by omega, by rw [hd, if_pos (by simpa using h0)]⟩
  · intro r A α hr
    have hlhs := K.ctx.packs.lhs r A α hr
    have hA := K.ctx.wf.lhs hr
    have hlt := (List.getElem?_eq_some_iff.1 hr).1
    rw [← ht]
    simp only
    rcases r with _ | r
    · rw [K.ctx.wf.acc] at hr
      simp only [Option.some.injEq, Prod.mk.injEq] at hr
      obtain ⟨rfl, -⟩ := hr
      rw [List.getElem?_cons_zero, hsv.nt _ (le_refl _) (by omega), hntok]
    · rw [List.getElem?_cons_succ, List.getElem?_map, List.getElem?_range' (by omega)]
      simp only [Option.map_some, Option.some.injEq]
      rw [show 3 + 1 * r = r + 1 + 2 by omega]
      unfold Gram.lhs at hlhs
      rw [hlhs, hsv.nt A (by omega) hA.2.1]
  · intro r A α hr
    have hlt := (List.getElem?_eq_some_iff.1 hr).1
    have hnext := K.ctx.packs.next r A α hr
    rw [← ht]
    simp only
    rcases r with _ | r
    · rw [K.ctx.wf.acc] at hr
      simp only [Option.some.injEq, Prod.mk.injEq] at hr
      obtain ⟨-, rfl⟩ := hr
      rfl
    · rw [List.getElem?_cons_succ, List.getElem?_map, List.getElem?_range' (by omega)]
      simp only [Option.map_some, Option.some.injEq]
      unfold Gram.rhs at hnext
      rw [show 3 + 1 * r = r + 1 + 2 by omega, show r + 1 + 2 + 1 = r + 1 + 3 by omega, hnext]
      omega

end
end Verif.Byacc
