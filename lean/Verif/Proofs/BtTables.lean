import Verif.Proofs.BtConf
/-
The tables of a backtracking parser describe the automaton, the action rows and the conflicts.
-/
set_option autoImplicit false
namespace Verif.Byacc
open Spec

theorem soleLoopB_spec (r : Nat) (hr : 0 < r) : ∀ (acts : List Action) (c r0 : Nat), (r0 = 0 → c = 0) →
    (∀ x ∈ acts, x.code = .REDUCE → 0 < x.number) →
    (soleLoopB acts c r0 = r ↔ (∀ x ∈ acts, x.may = true → x.code = .REDUCE ∧ x.number = r) ∧ (r0 = 0 ∨ r0 = r) ∧
      (0 < c ∨ ∃ x ∈ acts, x.may = true ∧ x.symbol ≠ 1)) := by
  intro acts
  induction acts with
  | nil =>
    intro c r0 hc _
    simp only [soleLoopB]
    split
    · rename_i h; simp; omega
    · rename_i h; simp; omega
  | cons p l ih =>
    intro c r0 hc hpos
    have hpos' : ∀ x ∈ l, x.code = .REDUCE → 0 < x.number := fun x hx => hpos x (by simp [hx])
    simp only [soleLoopB, List.mem_cons, forall_eq_or_imp, exists_eq_or_imp]
    by_cases hl : p.may = true
    · cases hcode : p.code with
      | SHIFT =>
        simp only [hl, and_self, if_true]
        constructor
        · intro h; omega
        · rintro ⟨⟨h, -⟩, -⟩
          have := (h trivial).1; cases this
      | REDUCE =>
        have hp := hpos p (by simp) hcode
        simp only [hl, and_self, and_true, if_true, true_and, reduceCtorEq, if_false]
        split
        · rename_i h
          constructor
          · intro h'; omega
          · rintro ⟨⟨h1, -⟩, h2, -⟩
            have := h1 trivial; omega
        · rename_i h
          rw [ih _ _ (by intro h'; omega) hpos']
          constructor
          · rintro ⟨h1, h2, h3⟩
            have e1 : p.number = r := by clear h3; omega
            have e2 : r0 = 0 ∨ r0 = r := by clear h3; omega
            refine ⟨⟨fun _ => e1, h1⟩, e2, ?_⟩
            rcases h3 with h3 | h3
            · split at h3
              · rename_i h4; exact .inr (.inl h4)
              · exact .inl h3
            · exact .inr (.inr h3)
          · rintro ⟨⟨h1, h1'⟩, h2, h3⟩
            have := h1 trivial
            refine ⟨h1', .inr this, ?_⟩
            rcases h3 with h3 | h3 | h3
            · left; split <;> omega
            · left; rw [if_pos h3]; omega
            · exact .inr h3
    · simp only [hl, and_false, if_false, false_and, false_or, IsEmpty.forall_iff, true_and, Bool.false_eq_true]
      exact ih c r0 hc hpos'

/-- the parser that would be made without backtracking -/
def Generated.plain (g : Gram) (sp : SymPrec) (lemon : Bool) (e1 e2 : Int) (o : Generated) : Generated :=
  { o with parser := makeParser g sp lemon e1 e2 o.aut o.look }

/-- Everything known about a generated backtracking parser. -/
structure GenB (g : Gram) (G : CFG) (sp : SymPrec) (lemon : Bool) (e1 e2 : Int) (o : Generated) : Prop where
  A : GenOK g G sp lemon e1 e2 (o.plain g sp lemon e1 e2)
  parser : o.parser = makeParserB g sp lemon e1 e2 o.aut o.look

theorem generateB_ok (lp : Bool) (ntokens nsyms : Nat) (rs : List SrcRule)
    (h : UserRules ntokens nsyms (rs.map SrcRule.rule)) (g : Gram)
    (hg : g = packGrammar lp ntokens nsyms (rs.map SrcRule.p) (encPitem rs))
    (sp : SymPrec) (lemon : Bool) (e1 e2 : Int) :
    ∃ o, generateB g sp lemon e1 e2 = some o ∧ generate g sp lemon e1 e2 = some (o.plain g sp lemon e1 e2) ∧
      GenB g (augCFG ntokens (rs.map SrcRule.rule)) sp lemon e1 e2 o := by
  obtain ⟨o, ho, K⟩ := generate_ok lp ntokens nsyms rs h g hg sp lemon e1 e2
  have ho' := ho
  simp only [generate, Option.bind_eq_bind, Option.bind_eq_some_iff] at ho
  obtain ⟨a, ha, N, hN, lo, hlo, e⟩ := ho
  have e : o = ⟨a, N, lo, makeParser g sp lemon e1 e2 a lo⟩ := (Option.some.inj e).symm
  refine ⟨⟨a, N, lo, makeParserB g sp lemon e1 e2 a lo⟩, ?_, ?_, ?_, rfl⟩
  · simp only [generateB, ha, hN, hlo, Option.bind_eq_bind, Option.bind_some]; rfl
  · rw [ho', e]; rfl
  · rw [e] at K; exact K

section
variable {g : Gram} {G : CFG} {sp : SymPrec} {lemon : Bool} {e1 e2 : Int} {o : Generated}

theorem GenB.final (K : GenB g G sp lemon e1 e2 o) : o.parser.final = (o.plain g sp lemon e1 e2).parser.final := by
  rw [K.parser]; rfl

theorem GenB.row (K : GenB g G sp lemon e1 e2 o) {q : Nat} (hq : q < o.aut.nstates) :
    o.parser.rows.getD q [] = (crRowB lemon (q == o.parser.final) (o.acts g sp q)).visited := by
  rw [K.parser]
  simp [makeParserB, List.getElem?_map, List.getElem?_range hq, List.getD_eq_getElem?_getD, Generated.acts]

theorem GenB.rows_len (K : GenB g G sp lemon e1 e2 o) : o.parser.rows.length = o.aut.nstates := by
  rw [K.parser]; simp [makeParserB]

theorem GenB.rel (K : GenB g G sp lemon e1 e2 o) {q : Nat} (hq : q < o.aut.nstates) :
    List.Forall₂ MarkRel ((o.plain g sp lemon e1 e2).parser.rows.getD q []) (o.parser.rows.getD q []) := by
  rw [K.row hq, List.getD_eq_getElem?_getD, K.A.rows q hq, K.final]
  exact (crRow_rel _ _ _).visited

theorem markRel_map {l m : List Action} (h : List.Forall₂ MarkRel l m) :
    m.map (fun x => x.supp 0) = l.map (fun x => x.supp 0) := by
  induction h with
  | nil => rfl
  | cons h _ ih => simp only [List.map_cons]; rw [h.1, ih]

theorem markRel_right {l m : List Action} (h : List.Forall₂ MarkRel l m) {y : Action} (hy : y ∈ m) : ∃ x ∈ l, MarkRel x y := by
  induction h with
  | nil => simp at hy
  | cons h _ ih =>
    rcases List.mem_cons.1 hy with rfl | hy
    · exact ⟨_, by simp, h⟩
    · obtain ⟨x, hx, h'⟩ := ih hy
      exact ⟨x, by simp [hx], h'⟩

theorem markRel_left {l m : List Action} (h : List.Forall₂ MarkRel l m) {x : Action} (hx : x ∈ l) : ∃ y ∈ m, MarkRel x y := by
  induction h with
  | nil => simp at hx
  | cons h _ ih =>
    rcases List.mem_cons.1 hx with rfl | hx
    · exact ⟨_, by simp, h⟩
    · obtain ⟨y, hy, h'⟩ := ih hx
      exact ⟨y, by simp [hy], h'⟩

theorem markRel_live {x y : Action} (h : MarkRel x y) (h0 : y.suppressed = 0) : x = y := by
  obtain ⟨h1, h2⟩ := h
  have hx : x.suppressed = 0 := by omega
  rw [← supp_zero h0, ← supp_zero hx, h1]

/-- the actions of the state, with marks -/
theorem GenB.same (K : GenB g G sp lemon e1 e2 o) {q : Nat} (hq : q < o.aut.nstates) :
    (o.parser.rows.getD q []).map (fun x => x.supp 0) = o.acts g sp q := by
  rw [markRel_map (K.rel hq), List.getD_eq_getElem?_getD, K.A.rows q hq]
  exact (K.A.row q hq).same

theorem GenB.mem_row (K : GenB g G sp lemon e1 e2 o) {q : Nat} (hq : q < o.aut.nstates) {x : Action}
    (hx : x ∈ o.parser.rows.getD q []) : x.supp 0 ∈ o.acts g sp q := by
  rw [← K.same hq]
  exact List.mem_map.mpr ⟨x, hx, rfl⟩

theorem GenB.rowOK (K : GenB g G sp lemon e1 e2 o) (q : Nat) (hq : q < o.aut.nstates) :
    RowOK g.ntokens (o.parser.rows.getD q []) := by
  have R := K.A.rowOK q hq
  have hr := K.rel hq
  refine ⟨?_, ?_, ?_, ?_, ?_⟩
  · intro y hy
    obtain ⟨x, hx, h⟩ := markRel_right hr hy
    rw [h.fields.1]; exact R.sym x hx
  · intro y hy
    obtain ⟨x, hx, h⟩ := markRel_right hr hy
    rw [h.fields.2.1]; exact R.num x hx
  · intro y hy hc
    obtain ⟨x, hx, h⟩ := markRel_right hr hy
    rw [h.fields.2.2.2.1] at hc
    rw [h.fields.2.1]; exact R.red x hx hc
  · have : (o.acts g sp q).Nodup := (K.A.sorted q hq).imp (fun h e => by subst e; exact ActLt.irrefl h)
    rw [← K.same hq] at this
    exact this.of_map _
  · intro x hx y hy he h0 h0'
    obtain ⟨x', hx', h⟩ := markRel_right hr hx
    obtain ⟨y', hy', h'⟩ := markRel_right hr hy
    obtain rfl := markRel_live h h0
    obtain rfl := markRel_live h' h0'
    exact R.uniq _ hx' _ hy' he h0 h0'

theorem GenB.sorted (K : GenB g G sp lemon e1 e2 o) {q : Nat} (hq : q < o.aut.nstates) :
    (o.parser.rows.getD q []).Pairwise ActLt := by
  have h := K.A.sorted q hq
  have e : (o.plain g sp lemon e1 e2).acts g sp q = o.acts g sp q := rfl
  rw [e, ← K.same hq, List.pairwise_map] at h
  exact h.imp (fun h => h)

theorem GenB.alt (K : GenB g G sp lemon e1 e2 o) {q : Nat} (hq : q < o.aut.nstates) (x : Action)
    (hx : x ∈ o.parser.rows.getD q []) : 0 ≤ x.alt := by
  have R := K.rowOK q hq
  unfold Action.alt
  split
  · omega
  · rename_i h
    have := R.red x hx (by cases hc : x.code <;> simp_all)
    omega

theorem GenB.defred (K : GenB g G sp lemon e1 e2 o) {q : Nat} (hq : q < o.aut.nstates) {r : Nat} (hr : 0 < r) :
    o.parser.defred.getD q 0 = r ↔
      (∀ x ∈ o.parser.rows.getD q [], x.suppressed ≤ 1 → x.code = .REDUCE ∧ x.number = r) ∧
      (∃ x ∈ o.parser.rows.getD q [], x.suppressed ≤ 1 ∧ x.symbol ≠ 1) := by
  have hd : o.parser.defred = o.parser.rows.map soleReductionB := by rw [K.parser]; rfl
  have hl : q < o.parser.rows.length := by rw [K.rows_len]; exact hq
  rw [hd, List.getD_eq_getElem?_getD, List.getElem?_map, List.getD_eq_getElem?_getD,
    List.getElem?_eq_getElem hl]
  simp only [Option.map_some, Option.getD_some]
  have := soleLoopB_spec r hr o.parser.rows[q] 0 0 (fun _ => rfl) (by
    intro x hx _
    refine (K.rowOK q hq).num x ?_
    rw [List.getD_eq_getElem?_getD, List.getElem?_eq_getElem hl]
    exact hx)
  unfold soleReductionB
  rw [this]
  simp [Action.may]

theorem GenB.column (K : GenB g G sp lemon e1 e2 o) {i : Nat} (hi : i < g.nsyms - (g.ntokens + 1)) :
    (∀ s t, (s, t) ∈ columnOf g (setGotoMap g o.aut) (g.ntokens + 1 + i) ↔ ShiftsTo o.aut s (g.ntokens + 1 + i) t) ∧
    (columnOf g (setGotoMap g o.aut) (g.ntokens + 1 + i)).Pairwise (fun p q => p.1 < q.1) := K.A.column hi

/-! ### the vectors -/

theorem weight_nil : weight [] = 0 := by simp [weight, markedOnes]

theorem confActions_spec {cap nt nsyms n : Nat} {sv : List Int} (hsv : SymVals nt nsyms sv) {rows : List (List Action)}
    {defred : List Nat} (hrows : ∀ q, q < n → RowOK nt (rows.getD q [])) (halt : ∀ q, q < n → ∀ x ∈ rows.getD q [], 0 ≤ x.alt)
    (hsort : ∀ q, q < n → (rows.getD q []).Pairwise ActLt) :
    ∀ (rest : List Nat) (st : List Int × List Vec), (∀ q ∈ rest, q < n) → rest.Nodup → EndsNeg st.1 →
      st.1.length + (rest.map (fun q => weight (rows.getD q []))).sum ≤ cap → 3 * n ≤ st.2.length →
      (∀ q ∈ rest, st.2.getD (2 * n + q) {} = {}) →
      ∃ st', confActions cap nt n sv rows defred rest st = .ok st' ∧ st.1 <+: st'.1 ∧ EndsNeg st'.1 ∧
        st'.2.length = st.2.length ∧ (∀ k, (∀ q ∈ rest, k ≠ 2 * n + q) → st'.2.getD k {} = st.2.getD k {}) ∧
        (∀ q ∈ rest, VecOK (st'.2.getD (2 * n + q) {}) ∧
          (∀ x y, (x, y) ∈ entsAt st'.2 (2 * n + q) → ∃ s, s < nt ∧ Marked (rows.getD q []) s ∧ x = sv.getD s 0 ∧
            (altsOf (listing (defred.getD q 0) (rows.getD q []) s) ++ [-1]) <+: st'.1.drop y) ∧
          (∀ s, Marked (rows.getD q []) s → ∃ y, (sv.getD s 0, y) ∈ entsAt st'.2 (2 * n + q))) := by
  intro rest
  induction rest with
  | nil =>
    intro st _ _ he _ _ _
    exact ⟨st, rfl, List.prefix_refl _, he, rfl, fun _ _ => rfl, by simp⟩
  | cons i rest ih =>
    intro st hlt hnd he hcap hlen hemp
    have hi := hlt i (by simp)
    have hnd' := List.nodup_cons.1 hnd
    simp only [List.map_cons, List.sum_cons] at hcap
    unfold confActions
    split
    · rename_i hnil
      obtain ⟨st', h1, h2, h3, h4, h5, h6⟩ := ih st (fun q hq => hlt q (by simp [hq])) hnd'.2 he (by omega) hlen
        (fun q hq => hemp q (by simp [hq]))
      refine ⟨st', h1, h2, h3, h4, fun k hk => h5 k (fun q hq => hk q (by simp [hq])), ?_⟩
      intro q hq
      rcases List.mem_cons.1 hq with rfl | hq
      · have e : st'.2.getD (2 * n + q) {} = {} := by
          rw [h5 _ (fun q' hq' e => hnd'.1 (by rw [show q = q' by omega]; exact hq')), hemp q (by simp)]
        refine ⟨by rw [e]; exact .empty, ?_, ?_⟩
        · intro x y h
          unfold entsAt at h
          rw [e] at h; simp at h
        · rintro s ⟨x, hx, -⟩
          rw [hnil] at hx; simp at hx
      · exact h6 q hq
    · rename_i acts hne
      have R := hrows i hi
      obtain ⟨c, hc, S⟩ := confRow_spec (cap := cap) (nt := nt) (d := defred.getD i 0) (c0 := st.1) (acts := rows.getD i []) R.sym
        (halt i hi) ((hsort i hi).imp (fun h => by unfold ActLt at h; omega)) he (by omega)
      rw [hc]
      simp only [Out.bind]
      obtain ⟨r1, r2⟩ := rowVec_spec (sub := 1) (S := fun j v => j < nt ∧ v ≠ 0 ∧ c.row.getD j 0 = v) hsv
        ⟨fun j hj v hv => by rw [S.half.get j hj v hv]; exact ⟨fun h => ⟨hj, h⟩, fun h => h.2⟩, S.half.cnt⟩ (fun j v h => ⟨h.1, h.2.1⟩)
      have hslen := S.len
      obtain ⟨st', h1, h2, h3, h4, h5, h6⟩ := ih (c.conflicts, st.2.set (2 * n + i) (rowVec nt sv c.row c.count 0 1))
        (fun q hq => hlt q (by simp [hq])) hnd'.2 S.ends (by simp only; omega) (by simpa using hlen) (by
          intro q hq
          simp only
          rw [getD_set_vec (by omega), if_neg (fun e => hnd'.1 (by rw [show i = q by omega]; exact hq))]
          exact hemp q (by simp [hq]))
      refine ⟨st', h1, S.init.trans h2, h3, by rw [h4]; simp, ?_, ?_⟩
      · intro k hk
        rw [h5 k (fun q hq => hk q (by simp [hq]))]
        simp only
        rw [getD_set_vec (by omega), if_neg (hk i (by simp))]
      · intro q hq
        rcases List.mem_cons.1 hq with rfl | hq
        · have e : st'.2.getD (2 * n + q) {} = rowVec nt sv c.row c.count 0 1 := by
            rw [h5 _ (fun q' hq' e => hnd'.1 (by rw [show q = q' by omega]; exact hq'))]
            simp only
            rw [getD_set_vec (by omega), if_pos rfl]
          refine ⟨by rw [e]; exact r1, ?_, ?_⟩
          · intro x y h
            unfold entsAt at h
            rw [e, r2] at h
            obtain ⟨j, v, ⟨hj, hv, hjv⟩, rfl, rfl⟩ := h
            have hm : Marked (rows.getD q []) j := by
              by_contra hm
              have := S.unmarked j hm
              omega
            obtain ⟨y, k1, k2⟩ := S.closed j hm
            refine ⟨j, hj, hm, rfl, ?_⟩
            rw [show v - 1 = y by omega]
            exact k2.trans (h2.drop y)
          · rintro s hm
            obtain ⟨y, k1, -⟩ := S.closed s hm
            obtain ⟨x, hx, rfl, -⟩ := hm
            refine ⟨y, ?_⟩
            unfold entsAt
            rw [e, r2]
            exact ⟨x.symbol, y + 1, ⟨R.sym x hx, by omega, k1⟩, rfl, by omega⟩
        · exact h6 q hq

theorem foldl_add_map {α : Type} (f : α → Nat) (l : List α) (n : Nat) : l.foldl (fun n c => n + f c) n = n + (l.map f).sum := by
  induction l generalizing n with
  | nil => simp
  | cons a l ih => rw [List.foldl_cons, ih, List.map_cons, List.sum_cons]; omega

theorem GenB.totals (K : GenB g G sp lemon e1 e2 o) :
    o.parser.SRtotal = ((List.range o.aut.nstates).map
      (fun q => (crRowB lemon (q == o.parser.final) (o.acts g sp q)).sr)).sum ∧
    o.parser.RRtotal = ((List.range o.aut.nstates).map
      (fun q => (crRowB lemon (q == o.parser.final) (o.acts g sp q)).rr)).sum := by
  have hs : o.parser.SRtotal = ((List.range o.aut.nstates).map
      (fun q => (crRowB lemon (q == o.parser.final) (o.acts g sp q)).sr)).sum := by
    rw [K.parser]
    simp only [makeParserB]
    rw [foldl_add_map CR.sr, Nat.zero_add, List.map_map]
    apply congrArg List.sum
    apply List.map_congr_left
    intro q hq
    have hq := List.mem_range.1 hq
    simp [List.getElem?_map, List.getElem?_range hq, List.getD_eq_getElem?_getD, Generated.acts]
  have hr : o.parser.RRtotal = ((List.range o.aut.nstates).map
      (fun q => (crRowB lemon (q == o.parser.final) (o.acts g sp q)).rr)).sum := by
    rw [K.parser]
    simp only [makeParserB]
    rw [foldl_add_map CR.rr, Nat.zero_add, List.map_map]
    apply congrArg List.sum
    apply List.map_congr_left
    intro q hq
    have hq := List.mem_range.1 hq
    simp [List.getElem?_map, List.getElem?_range hq, List.getD_eq_getElem?_getD, Generated.acts]
  exact ⟨hs, hr⟩

/-- the array of conflicts is large enough -/
theorem GenB.weight_le (K : GenB g G sp lemon e1 e2 o) :
    ((List.range o.aut.nstates).map (fun q => weight (o.parser.rows.getD q []))).sum ≤ 4 * (o.parser.SRtotal + o.parser.RRtotal) := by
  have hact : ∀ q, q < o.aut.nstates → ∀ x ∈ o.acts g sp q, x.suppressed = 0 := by
    intro q hq x hx
    rw [← K.same hq] at hx
    obtain ⟨y, -, rfl⟩ := List.mem_map.1 hx
    rfl
  obtain ⟨hs, hr⟩ := K.totals
  rw [hs, hr]
  have : ∀ l : List Nat, (∀ q ∈ l, q < o.aut.nstates) → (l.map (fun q => weight (o.parser.rows.getD q []))).sum ≤
      4 * ((l.map (fun q => (crRowB lemon (q == o.parser.final) (o.acts g sp q)).sr)).sum +
        (l.map (fun q => (crRowB lemon (q == o.parser.final) (o.acts g sp q)).rr)).sum) := by
    intro l
    induction l with
    | nil => simp
    | cons q l ih =>
      intro hl
      have h1 := crRowB_weight lemon (q == o.parser.final) (o.acts g sp q) (hact q (hl q (by simp)))
      rw [← K.row (hl q (by simp))] at h1
      have h2 := ih (fun q hq => hl q (by simp [hq]))
      simp only [List.map_cons, List.sum_cons]
      omega
  exact this _ (fun q hq => List.mem_range.1 hq)

/-- The counts of conflicts are those without backtracking. -/
theorem GenB.counts (K : GenB g G sp lemon e1 e2 o) :
    o.parser.SRconflicts = (o.plain g sp lemon e1 e2).parser.SRconflicts ∧
    o.parser.RRconflicts = (o.plain g sp lemon e1 e2).parser.RRconflicts ∧
    o.parser.SRtotal = (o.plain g sp lemon e1 e2).parser.SRtotal ∧
    o.parser.RRtotal = (o.plain g sp lemon e1 e2).parser.RRtotal ∧
    o.parser.failed = (o.plain g sp lemon e1 e2).parser.failed := by
  have hsr : ∀ (fin : Bool) acts, (crRowB lemon fin acts).sr = (crRow lemon fin acts).sr := fun fin acts => (crRow_rel lemon fin acts).sr
  have hrr : ∀ (fin : Bool) acts, (crRowB lemon fin acts).rr = (crRow lemon fin acts).rr := fun fin acts => (crRow_rel lemon fin acts).rr
  rw [K.parser]
  simp only [Generated.plain, makeParserB, makeParser]
  simp only [foldl_add_map CR.sr, foldl_add_map CR.rr, List.map_map, Function.comp_def, hsr, hrr, and_self]

/-- What the emitted arrays of a backtracking parser say. -/
structure BTablesOK (g : Gram) (G : CFG) (sv : List Int) (o : Generated) (t : BTables) : Prop extends
    TablesOK g G sv o t.toTables where
  conflict : ∀ q, q < o.aut.nstates → ∀ s, Marked (o.parser.rows.getD q []) s → ∃ j, t.conflictOn q (sv.getD s 0) = some j
  list : ∀ q, q < o.aut.nstates → ∀ x j, 0 ≤ x → t.conflictOn q x = some j →
    ∃ s, s < g.ntokens ∧ Marked (o.parser.rows.getD q []) s ∧ x = sv.getD s 0 ∧
      (altsOf (listing (o.parser.defred.getD q 0) (o.parser.rows.getD q []) s) ++ [-1]) <+: t.ctable.drop j

theorem tokenActionsB_ok (K : GenB g G sp lemon e1 e2 o) {sv : List Int} (hsv : SymVals g.ntokens g.nsyms sv) :
    ∃ st, tokenActionsB g sv o = .ok st ∧ st.2.length = 3 * o.aut.nstates + g.nvars ∧ EndsNeg st.1 ∧
      (∀ k, VecOK (st.2.getD k {})) ∧
      (∀ k, 3 * o.aut.nstates ≤ k → st.2.getD k {} = {}) ∧
      (∀ q, q < o.aut.nstates → ∀ x y, (x, y) ∈ entsAt st.2 q ↔
        ∃ a ∈ o.parser.rows.getD q [], a.isSh ∧ x = sv.getD a.symbol 0 ∧ y = a.number) ∧
      (∀ q, q < o.aut.nstates → ∀ x y, (x, y) ∈ entsAt st.2 (o.aut.nstates + q) ↔
        ∃ a ∈ o.parser.rows.getD q [], a.isRe (o.parser.defred.getD q 0) ∧ x = sv.getD a.symbol 0 ∧ y = a.number - 2) ∧
      (∀ q, q < o.aut.nstates → (∀ x y, (x, y) ∈ entsAt st.2 (2 * o.aut.nstates + q) → ∃ s, s < g.ntokens ∧
          Marked (o.parser.rows.getD q []) s ∧ x = sv.getD s 0 ∧
          (altsOf (listing (o.parser.defred.getD q 0) (o.parser.rows.getD q []) s) ++ [-1]) <+: st.1.drop y) ∧
        (∀ s, Marked (o.parser.rows.getD q []) s → ∃ y, (sv.getD s 0, y) ∈ entsAt st.2 (2 * o.aut.nstates + q))) := by
  have h0 : ∀ k, (List.replicate (3 * o.aut.nstates + g.nvars) ({} : Vec)).getD k {} = {} := by
    intro k
    rw [List.getD_eq_getElem?_getD, List.getElem?_replicate]
    split <;> rfl
  obtain ⟨t1, t2, t3, t4, t5⟩ := tokenActions_spec (n := o.aut.nstates) hsv (rows := o.parser.rows) (defred := o.parser.defred)
    (fun q hq => K.rowOK q hq) (vs0 := List.replicate (3 * o.aut.nstates + g.nvars) {}) (by rw [List.length_replicate]; omega) h0
  rw [List.length_replicate] at t1
  unfold tokenActionsB
  simp only
  generalize hvs : tokenActions g.ntokens o.aut.nstates sv o.parser.rows o.parser.defred
    (List.replicate (3 * o.aut.nstates + g.nvars) {}) = vs at *
  obtain ⟨st, h1, h2, h3, h4, h5, h6⟩ := confActions_spec (cap := 4 * (o.parser.SRtotal + o.parser.RRtotal)) hsv
    (rows := o.parser.rows) (defred := o.parser.defred) (n := o.aut.nstates) (fun q hq => K.rowOK q hq) (fun q hq => K.alt hq)
    (fun q hq => K.sorted hq) (List.range o.aut.nstates) ([], vs) (fun q hq => List.mem_range.1 hq) List.nodup_range
    (.inl rfl) (by simpa using K.weight_le) (by simp only; omega) (fun q hq => t5 _ (by omega))
  simp only at h4 h5
  have hne : ∀ k, k < 2 * o.aut.nstates ∨ 3 * o.aut.nstates ≤ k → st.2.getD k {} = vs.getD k {} := by
    intro k hk
    refine h5 k ?_
    intro q hq
    have := List.mem_range.1 hq
    omega
  refine ⟨st, h1, by omega, h3, ?_, ?_, ?_, ?_, ?_⟩
  · intro k
    by_cases hk : k < 2 * o.aut.nstates ∨ 3 * o.aut.nstates ≤ k
    · rw [hne k hk]; exact t2 k
    · have := (h6 (k - 2 * o.aut.nstates) (List.mem_range.2 (by omega))).1
      rwa [show 2 * o.aut.nstates + (k - 2 * o.aut.nstates) = k by omega] at this
  · intro k hk
    rw [hne k (.inr hk)]
    exact t5 k (by omega)
  · intro q hq x y
    unfold entsAt
    rw [hne q (.inl (by omega))]
    exact t3 q hq x y
  · intro q hq x y
    unfold entsAt
    rw [hne _ (.inl (by omega))]
    exact t4 q hq x y
  · intro q hq
    exact (h6 q (List.mem_range.2 hq)).2

theorem outputTablesB_ok (K : GenB g G sp lemon e1 e2 o) {sv : List Int}
    (hsv : SymVals g.ntokens g.nsyms sv) {t : BTables} (ht : outputTablesB g sv o = .ok t) : BTablesOK g G sv o t := by
  obtain ⟨st, hst, s1, -, s3, s4, s5, s6, s7⟩ := tokenActionsB_ok K hsv
  obtain ⟨g1, g2, g3, g4, g5⟩ := gotoActions_spec (per := 3) (n := o.aut.nstates) (m := setGotoMap g o.aut) hsv s1 s4
  have hdet : ∀ {s A q q'}, ShiftsTo o.aut s A q → ShiftsTo o.aut s A q' → q = q' := fun h h' => K.A.ctx.A.det h h'
  unfold outputTablesB at ht
  simp only at ht
  rw [hst] at ht
  simp only [Out.bind] at ht
  generalize hdv : gotoActions 3 g o.aut.nstates (setGotoMap g o.aut) sv st.2 = dv at *
  have v2 : ∀ k, VecOK (dv.2.getD k {}) := by
    intro k
    by_cases hk : k < 3 * o.aut.nstates
    · rw [g2 k hk]; exact s3 k
    · by_cases hk' : k < 3 * o.aut.nstates + (g.nsyms - (g.ntokens + 1))
      · obtain ⟨i, rfl⟩ : ∃ i, k = 3 * o.aut.nstates + i := ⟨k - 3 * o.aut.nstates, by omega⟩
        have hi : i < g.nsyms - (g.ntokens + 1) := by omega
        rw [(g4 i hi).2]
        exact (saveColumn_spec _ _ (K.A.column hi).2).1
      · rw [g5 k (by omega)]; exact .empty
  have hent : ∀ k, k < 3 * o.aut.nstates → entsAt dv.2 k = entsAt st.2 k := by
    intro k hk
    unfold entsAt
    rw [g2 k hk]
  have hps := packTable_spec (vs := dv.2) o.aut.nstates v2
  rcases hps with h | ⟨h, -⟩ | ⟨p, h, H⟩
  · rw [h] at ht; cases ht
  · rw [h] at ht; cases ht
  rw [h] at ht
  simp only [Out.bind] at ht
  split at ht
  · cases ht
  have hord := (sortActions_spec dv.2).2
  simp only [Out.ok.injEq] at ht
  have hpr : ∀ i x y, 0 ≤ x → (t.toTables.probe (p.baseAt i) x = some y ↔ (x, y) ∈ entsAt dv.2 i) :=
    fun i x y hx => probe_iff H v2 hord (by rw [← ht]) (by rw [← ht]) (by rw [← ht]) i x hx y
  have hntok := K.A.ctx.packs.ntok
  have hnr := K.A.ctx.packs.nrules
  have hcx : ∀ q, q < o.aut.nstates → t.cindex.getD q 0 = p.baseAt (2 * o.aut.nstates + q) := by
    intro q hq
    rw [← ht]
    simp only [List.getD_eq_getElem?_getD, Pack.baseAt]
    rw [List.getElem?_take_of_lt hq, List.getElem?_drop]
  have hct : st.1 <+: t.ctable := by
    rw [← ht]
    simp only [outputCtable]
    by_cases e : st.1 = []
    · rw [e]; exact List.nil_prefix
    · rw [if_neg e]
      exact List.prefix_append _ _
  refine ⟨⟨?_, ?_, ?_, ?_, ?_, ?_, by rw [← ht], by rw [← ht]⟩, ?_, ?_⟩
  · intro q hq x y hx
    rw [← s5 q hq x y, ← hent q (by omega), ← hpr q x y hx]
    have : t.sindex.getD q 0 = p.baseAt q := by
      rw [← ht]
      simp only [List.getD_eq_getElem?_getD, Pack.baseAt]
      rw [List.getElem?_take_of_lt hq]
    unfold Tables.shiftOn
    rw [this]
  · intro q hq x y hx
    have hb : t.rindex.getD q 0 = p.baseAt (o.aut.nstates + q) := by
      rw [← ht]
      simp only [List.getD_eq_getElem?_getD, Pack.baseAt]
      rw [List.getElem?_take_of_lt hq, List.getElem?_drop]
    unfold Tables.reduceOn
    rw [hb, hpr _ x y hx, hent _ (by omega), s6 q hq x y]
    constructor
    · rintro ⟨a, ha, hre, h1, h2⟩
      have := (K.rowOK q hq).red a ha hre.2.1
      exact ⟨a, ha, hre, h1, by omega⟩
    · rintro ⟨a, ha, hre, h1, h2⟩
      exact ⟨a, ha, hre, h1, by omega⟩
  · intro s A q hA hs
    have hAlt : A < g.nsyms := by
      obtain ⟨h1, h2⟩ := (shiftsTo_iff K.A.ctx.aut).1 hs
      have := (acc_range K.A.ctx.aut K.A.ctx.wf h1).2
      rw [h2] at this
      exact this
    obtain ⟨i, rfl⟩ : ∃ i, A = g.ntokens + 1 + i := ⟨A - (g.ntokens + 1), by omega⟩
    have hi : i < g.nsyms - (g.ntokens + 1) := by omega
    obtain ⟨c1, c2⟩ := K.column hi
    have hidx : (((g.ntokens + 1 + i : Nat) : Int) - g.ntokens - 1).toNat = i := by omega
    have hgi : t.gindex.getD i 0 = p.baseAt (3 * o.aut.nstates + i) := by
      rw [← ht]
      simp only [List.getD_eq_getElem?_getD, Pack.baseAt]
      rw [List.getElem?_take_of_lt (by unfold Gram.nvars; omega), List.getElem?_drop]
    have hdg : t.dgoto.getD i 0 = defaultGoto o.aut.nstates (columnOf g (setGotoMap g o.aut) (g.ntokens + 1 + i)) := by
      rw [← ht]
      simp only [List.getD_eq_getElem?_getD]
      rw [(g4 i hi).1]; rfl
    have hmem : ∀ y, t.toTables.probe (t.gindex.getD i 0) (s : Int) = some y ↔
        y = q ∧ q ≠ defaultGoto o.aut.nstates (columnOf g (setGotoMap g o.aut) (g.ntokens + 1 + i)) := by
      intro y
      rw [hgi, hpr _ _ _ (by omega)]
      unfold entsAt
      rw [(g4 i hi).2, (saveColumn_spec _ _ c2).2]
      constructor
      · rintro ⟨s', e, h1, h2⟩
        have : s' = s := by omega
        subst this
        have := hdet ((c1 _ _).1 h1) hs
        subst this
        exact ⟨rfl, h2⟩
      · rintro ⟨rfl, h2⟩
        exact ⟨s, rfl, (c1 _ _).2 hs, h2⟩
    unfold Tables.gotoOf
    rw [hidx]
    cases hp : t.toTables.probe (t.gindex.getD i 0) (s : Int) with
    | some y => exact ((hmem y).1 hp).1
    | none =>
      simp only
      rw [hdg]
      by_contra hne
      have := (hmem q).2 ⟨rfl, fun e => hne e.symm⟩
      rw [hp] at this
      cases this
  · intro q hq
    have hd : t.defred[q]? = some (if o.parser.defred.getD q 0 ≠ 0 then o.parser.defred.getD q 0 - 2 else 0) := by
      rw [← ht]
      simp [List.getElem?_map, List.getElem?_range hq]
    by_cases h0 : o.parser.defred.getD q 0 = 0
    · exact .inl ⟨h0, by rw [hd, if_neg (by simpa using h0)]⟩
    · obtain ⟨-, x, hx, hl, -⟩ := (K.defred hq (Nat.pos_of_ne_zero h0)).1 rfl
      obtain ⟨h1, h2⟩ := (K.defred hq (Nat.pos_of_ne_zero h0)).1 rfl |>.1 x hx hl
      have := (K.rowOK q hq).red x hx h1
      exact .inr ⟨o.parser.defred.getD q 0 - 2, by omega, by omega, by rw [hd, if_pos (by simpa using h0)]⟩
  · intro r A α hr
    have hlhs := K.A.ctx.packs.lhs r A α hr
    have hA := K.A.ctx.wf.lhs hr
    have hlt := (List.getElem?_eq_some_iff.1 hr).1
    rw [← ht]
    simp only
    rcases r with _ | r
    · rw [K.A.ctx.wf.acc] at hr
      simp only [Option.some.injEq, Prod.mk.injEq] at hr
      obtain ⟨rfl, -⟩ := hr
      rw [List.getElem?_cons_zero, hsv.nt _ (le_refl _) (by omega), hntok]
    · rw [List.getElem?_cons_succ, List.getElem?_map, List.getElem?_range' (by omega)]
      simp only [Option.map_some, Option.some.injEq]
      rw [show 3 + 1 * r = r + 1 + 2 by omega]
      unfold Gram.lhs at hlhs
      rw [hlhs, hsv.nt A (by omega) hA.2.1]
  · intro r A α hr
    have hlt := (List.getElem?_eq_some_iff.1 hr).1
    have hnext := K.A.ctx.packs.next r A α hr
    rw [← ht]
    simp only
    rcases r with _ | r
    · rw [K.A.ctx.wf.acc] at hr
      simp only [Option.some.injEq, Prod.mk.injEq] at hr
      obtain ⟨-, rfl⟩ := hr
      rfl
    · rw [List.getElem?_cons_succ, List.getElem?_map, List.getElem?_range' (by omega)]
      simp only [Option.map_some, Option.some.injEq]
      unfold Gram.rhs at hnext
      rw [show 3 + 1 * r = r + 1 + 2 by omega, show r + 1 + 2 + 1 = r + 1 + 3 by omega, hnext]
      omega
  · intro q hq s hm
    obtain ⟨y, hy⟩ := (s7 q hq).2 s hm
    obtain ⟨x, hx, rfl, -⟩ := hm
    refine ⟨y, ?_⟩
    unfold BTables.conflictOn
    rw [hcx q hq, hpr _ _ _ (hsv.nonneg _ ((K.rowOK q hq).sym x hx)), hent _ (by omega)]
    exact hy
  · intro q hq x j hx hj
    unfold BTables.conflictOn at hj
    rw [hcx q hq, hpr _ _ _ hx, hent _ (by omega)] at hj
    obtain ⟨s, k1, k2, k3, k4⟩ := (s7 q hq).1 x j hj
    exact ⟨s, k1, k2, k3, k4.trans (hct.drop j)⟩

end
end Verif.Byacc
