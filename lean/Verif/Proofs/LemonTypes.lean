import Verif.Spec.LemonTypes
import Verif.Proofs.LemonLoop
import Verif.Proofs.LemonGen
import Verif.Props.C44
import Mathlib.Data.Bool.Count
/-
The ranges of the numbers in the tables.
-/
set_option autoImplicit false
namespace Verif.Lemon

/-! ### entries of the packed table -/

theorem write_mem {mn i : Nat} {p p' : Acttab} {e : Nat × Nat} (h : Acttab.write mn i p e = some p') {x : Nat × Nat} (hx : some x ∈ p'.tab) :
    x = e ∨ some x ∈ p.tab := by
  unfold Acttab.write at h
  simp only at h
  split_ifs at h
  cases h
  simp only at hx
  rcases List.mem_or_eq_of_mem_set hx with h | h
  · exact .inr h
  · exact .inl (Option.some.inj h)

theorem writes_mem {mn i : Nat} : ∀ (L : List (Nat × Nat)) (p p' : Acttab), L.foldlM (Acttab.write mn i) p = some p' →
    ∀ x, some x ∈ p'.tab → x ∈ L ∨ some x ∈ p.tab := by
  intro L
  induction L with
  | nil =>
    intro p p' h x hx
    simp only [List.foldlM_nil, Option.pure_def, Option.some.injEq] at h
    rw [h]; exact .inr hx
  | cons e L ih =>
    intro p p' h x hx
    rw [List.foldlM_cons] at h
    obtain ⟨p1, h1, h2⟩ := Option.bind_eq_some_iff.mp h
    rcases ih p1 p' h2 x hx with h3 | h3
    · exact .inl (List.mem_cons_of_mem _ h3)
    · rcases write_mem h1 h3 with rfl | h4
      · exact .inl List.mem_cons_self
      · exact .inr h4

theorem insert_mem {N T : Nat} {safe : Bool} {L : List (Nat × Nat)} {p p' : Acttab} {o : Int} (h : p.insert N T safe L = some (p', o))
    {x : Nat × Nat} (hx : some x ∈ p'.tab) : x ∈ L ∨ some x ∈ p.tab := by
  unfold Acttab.insert at h
  simp only at h
  split_ifs at h
  obtain ⟨p1, h1, h2⟩ := Option.map_eq_some_iff.mp h
  simp only [Prod.mk.injEq] at h2
  have : p'.tab = p1.tab := by
    rw [← h2.1]
    split_ifs <;> rfl
  rw [this] at hx
  rcases writes_mem _ _ _ h1 x hx with h3 | h3
  · exact .inl h3
  · right
    unfold Acttab.grow at h3
    simp only at h3
    split_ifs at h3
    · rcases List.mem_append.mp h3 with h4 | h4
      · exact h4
      · have := (List.mem_replicate.mp h4).2
        cases this
    · exact h3

/-- all entries come from transactions -/
theorem insertAll_mem {N T : Nat} : ∀ (ops : List (Bool × List (Nat × Nat))) (p p' : Acttab) (os : List Int),
    insertAll N T ops p = some (p', os) → ∀ x, some x ∈ p'.tab → (∃ op ∈ ops, x ∈ op.2) ∨ some x ∈ p.tab := by
  intro ops
  induction ops with
  | nil =>
    intro p p' os h x hx
    simp only [insertAll, Option.some.injEq, Prod.mk.injEq] at h
    rw [h.1]; exact .inr hx
  | cons op ops ih =>
    intro p p' os h x hx
    obtain ⟨safe, L⟩ := op
    have : insertAll N T ((safe, L) :: ops) p = (do
      let (p, o) ← p.insert N T safe L
      let (p, os) ← insertAll N T ops p
      return (p, o :: os)) := rfl
    rw [this] at h
    obtain ⟨⟨p1, o⟩, h1, h2⟩ := Option.bind_eq_some_iff.mp h
    simp only at h2
    obtain ⟨⟨p2, os2⟩, h3, h4⟩ := Option.bind_eq_some_iff.mp h2
    simp only [Option.pure_def, Option.some.injEq, Prod.mk.injEq] at h4
    rw [h4.1] at h3
    rcases ih p1 p' os2 h3 x hx with ⟨op, h5, h6⟩ | h5
    · exact .inl ⟨op, List.mem_cons_of_mem _ h5, h6⟩
    · rcases insert_mem h1 h5 with h6 | h6
      · exact .inl ⟨_, List.mem_cons_self, h6⟩
      · exact .inr h6

theorem slot_mem {p : Acttab} {j : Nat} {e : Nat × Nat} (h : p.slot j = some e) : some e ∈ p.tab := by
  unfold Acttab.slot at h
  rw [List.getD_eq_getElem?_getD] at h
  cases hj : p.tab[j]? with
  | none => rw [hj] at h; cases h
  | some s =>
    rw [hj] at h
    simp only [Option.getD_some] at h
    subst h
    exact List.mem_of_getElem? hj

/-! ### numbers -/

variable {g : Gram} {fb : Nat → Option Nat} {compress : Bool} {m : Mach} {F : List TSet} {A : Acts} {cs : List CState} {T : Tables}

theorem iRule_le (g : Gram) (r : Nat) : g.iRule r ≤ g.rules.length := by
  unfold Gram.iRule
  obtain ⟨h1, h2⟩ := iRules_eq (g.rules.map Rule.code)
  rw [List.getD_eq_getElem?_getD]
  cases hc : (g.rules.map Rule.code)[r]? with
  | none =>
    rw [List.getElem?_eq_none_iff] at hc
    rw [List.getElem?_eq_none (by omega)]
    simp
  | some b =>
    have hr := (List.getElem?_eq_some_iff.mp hc).1
    have hl : (g.rules.map Rule.code).length = g.rules.length := List.length_map _
    cases b with
    | true =>
      rw [(h2 r).1 hc]
      have := List.count_le_length (a := true) (l := (g.rules.map Rule.code).take r)
      simp only [Option.getD_some, Int.toNat_natCast]
      rw [List.length_take] at this
      omega
    | false =>
      rw [(h2 r).2 hc]
      have k1 := ((g.rules.map Rule.code).take_sublist r).count_le false
      have k2 := List.count_add_count_not (g.rules.map Rule.code) true
      simp only [Bool.not_true] at k2
      simp only [Option.getD_some, Int.toNat_natCast]
      omega

theorem actNum_le (g : Gram) {nstate : Nat} {order : List Nat} (ho : order.length = nstate) (X : Nat) (e : AType × Nat) :
    actNum g nstate order X e ≤ nstate + g.rules.length + 3 + g.rules.length := by
  have h1 := iRule_le g
  have h2 : ∀ q, order.idxOf q ≤ nstate := fun q => by rw [← ho]; exact List.idxOf_le_length
  unfold actNum
  split
  · rename_i q; have := h2 q; omega
  · rename_i r; have := h1 r; split_ifs <;> omega
  · rename_i r; have := h1 r; omega
  · omega
  · omega

theorem dflt_le {c : CState} : (match dfltReduce g c with
    | none => errAction g cs
    | some r => minReduce g cs + g.iRule r) ≤ cs.length + g.rules.length + 3 + g.rules.length := by
  have h1 : errAction g cs = cs.length + g.rules.length := rfl
  have h2 : minReduce g cs = cs.length + g.rules.length + 3 := rfl
  split
  · omega
  · rename_i r _
    have := iRule_le g r
    show minReduce g cs + g.iRule r ≤ _
    omega

theorem foldl_min_le (l : List Int) : ∀ a : Int, l.foldl min a ≤ a ∧ ∀ x ∈ l, l.foldl min a ≤ x := by
  induction l with
  | nil => intro a; simp
  | cons y l ih =>
    intro a
    obtain ⟨h1, h2⟩ := ih (min a y)
    rw [List.foldl_cons]
    refine ⟨by omega, ?_⟩
    intro x hx
    rcases List.mem_cons.mp hx with rfl | hx
    · omega
    · exact h2 x hx

theorem le_foldl_max (l : List Int) : ∀ a : Int, a ≤ l.foldl max a ∧ ∀ x ∈ l, x ≤ l.foldl max a := by
  induction l with
  | nil => intro a; simp
  | cons y l ih =>
    intro a
    obtain ⟨h1, h2⟩ := ih (max a y)
    rw [List.foldl_cons]
    refine ⟨by omega, ?_⟩
    intro x hx
    rcases List.mem_cons.mp hx with rfl | hx
    · omega
    · exact h2 x hx

theorem foldl_min_nonneg (l : List Int) : ∀ a : Int, 0 ≤ a → (∀ x ∈ l, 0 ≤ x) → 0 ≤ l.foldl min a := by
  induction l with
  | nil => intro a h _; exact h
  | cons y l ih =>
    intro a h hl
    rw [List.foldl_cons]
    have := hl y List.mem_cons_self
    exact ih _ (by omega) fun x hx => hl x (List.mem_cons_of_mem _ hx)

theorem lookup_mem {l : List (Nat × Int)} {k : Nat} {o : Int} (h : l.lookup k = some o) : (k, o) ∈ l := by
  induction l with
  | nil => cases h
  | cons e l ih =>
    obtain ⟨k', o'⟩ := e
    rw [List.lookup_cons] at h
    split at h
    · rename_i hk
      simp only [beq_iff_eq] at hk
      cases h
      rw [hk]; exact List.mem_cons_self
    · exact List.mem_cons_of_mem _ (ih h)

theorem trim_sub {l : List (Option Int)} {x : Option Int} (h : x ∈ trim l) : x ∈ l := by
  obtain ⟨k, h1, _⟩ := trim_spec l
  rw [h1]
  exact List.mem_append_left _ h

theorem Usable.rules_lt (u : Usable g) : g.rules.length < 2 ^ 32 := by
  have h : ∀ l : List Rule, l.length ≤ (l.map fun r => r.rhs.length + 1).sum := by
    intro l
    induction l with
    | nil => simp
    | cons r l ih => simp only [List.length_cons, List.map_cons, List.sum_cons]; omega
  have := h g.rules
  have := u.items
  unfold Gram.nitems at this
  omega

/-- the ranges of the numbers in the tables -/
structure Ranges (T : Tables) : Prop where
  action : ∀ a ∈ T.action, a ≤ T.minReduce + T.nrule
  dflt : ∀ a ∈ T.dflt, a ≤ T.minReduce + T.nrule
  lookahead : ∀ X ∈ T.lookahead, X ≤ T.nsymbol
  fallback : ∀ X ∈ T.fallback, X ≤ T.nsymbol
  ruleLhs : ∀ X ∈ T.ruleLhs, X ≤ T.nsymbol
  errsym : ∀ X, T.errsym = some X → X ≤ T.nsymbol
  nterm : T.nterm ≤ T.nsymbol
  shift : ∀ o ∈ T.shiftOfst, T.shiftMin ≤ o ∧ o ≤ T.nterm + T.action.length
  reduce : ∀ o ∈ T.reduceOfst, T.reduceMin - 1 ≤ o ∧ o ≤ T.reduceMax

theorem index_le (g : Gram) (h : g.nlow ≤ g.nsym) {X : Nat} (hX : X < g.nsym) : g.index X ≤ g.nsymbol := by
  unfold Gram.index Gram.nsymbol
  unfold Gram.nlow at h
  split_ifs <;> omega

theorem Generated.ranges (u : Usable g) (hfb : FallbackOK g fb) (h : Generated g fb compress m F A cs T) : Ranges T := by
  have R := h.reported u
  have hok := h.toPrepared.rowsOK u
  have hTN := nterm_le_nsymbol u.wf
  have hmax : T.minReduce + T.nrule = cs.length + g.rules.length + 3 + g.rules.length := by
    unfold Tables.minReduce Tables.noAction Tables.accAction Tables.errAction
    rw [R.msr, R.nrule]
  have hord := order_length g cs
  have ht := h.tables
  unfold report at ht
  simp only at ht
  obtain ⟨⟨p, os⟩, h1, h2⟩ := Option.bind_eq_some_iff.mp ht
  simp only at h2
  obtain ⟨n, hn, hT⟩ := Option.map_eq_some_iff.mp h2
  have hent : ∀ j e, p.slot j = some e → e.1 ≤ g.nsymbol ∧ e.2 ≤ T.minReduce + T.nrule := by
    intro j e he
    rcases insertAll_mem _ _ _ _ h1 e (slot_mem he) with ⟨op, h3, h4⟩ | h3
    · obtain ⟨k, hk, rfl⟩ := List.mem_map.mp h3
      have hk' := (mem_axSets.mp hk).1
      have hrow := hok (k / 2) (by omega)
      rw [hmax]
      unfold axOp at h4
      simp only at h4
      split_ifs at h4 with hpar
      · simp only at h4
        rw [tokenSet_eq u.wf u.err hrow] at h4
        obtain ⟨a, ha, rfl⟩ := List.mem_map.mp h4
        refine ⟨?_, actNum_le g hord _ _⟩
        have hsp := (List.mem_filter.mp ha)
        simp only [Bool.and_eq_true, decide_eq_true_eq] at hsp
        simp only
        omega
      · simp only at h4
        rw [ntSet_eq u.wf u.err hrow] at h4
        obtain ⟨a, ha, rfl⟩ := List.mem_map.mp h4
        refine ⟨?_, actNum_le g hord _ _⟩
        have hsp := (List.mem_filter.mp ha)
        simp only [Bool.and_eq_true, decide_eq_true_eq] at hsp
        exact index_le g u.wf.nsym hsp.2.2.2
    · exact absurd h3 (by simp [Acttab.empty])
  have hE : ∀ E, g.errsym = some E → g.index E ≤ g.nsymbol := fun E hE => index_le g u.wf.nsym (u.err E hE).2
  refine ⟨?_, ?_, ?_, ?_, ?_, ?_, ?_, ?_, ?_⟩
  · intro a ha
    rw [← hT] at ha
    simp only at ha
    obtain ⟨j, _, rfl⟩ := List.mem_map.mp ha
    cases hs : p.slot j with
    | none =>
      rw [hmax]
      show noAction g cs ≤ _
      unfold noAction accAction errAction minShiftReduce; omega
    | some e => exact (hent j e hs).2
  · intro a ha
    rw [hmax]
    rw [← hT] at ha
    simp only at ha
    obtain ⟨j, _, rfl⟩ := List.mem_map.mp ha
    exact dflt_le
  · intro X hX
    rw [R.nsymbol]
    rw [← hT] at hX
    simp only at hX
    rcases List.mem_append.mp hX with hX | hX
    · obtain ⟨j, _, rfl⟩ := List.mem_map.mp hX
      cases hs : p.slot j with
      | none => exact Nat.le_refl _
      | some e => exact (hent j e hs).1
    · rw [(List.mem_replicate.mp hX).2]; exact hTN
  · intro X hX
    rw [R.nsymbol]
    rw [← hT] at hX
    simp only at hX
    obtain ⟨t, _, rfl⟩ := List.mem_map.mp hX
    cases hf : fb t with
    | none => exact Nat.zero_le _
    | some t' => have := (hfb t t' hf).2.2.2; simp only [Option.getD_some]; omega
  · intro X hX
    rw [R.nsymbol]
    rw [R.ruleLhs] at hX
    obtain ⟨r, hr, rfl⟩ := List.mem_map.mp hX
    exact index_le g u.wf.nsym (u.wf.lhs r ((mem_ruleList (u.rules_lt) r).mp hr)).2
  · intro X hX
    rw [R.nsymbol]
    rw [R.errsym] at hX
    obtain ⟨E, hE1, rfl⟩ := Option.map_eq_some_iff.mp hX
    exact hE E hE1
  · rw [R.nterm, R.nsymbol]; exact hTN
  · intro o ho
    obtain ⟨i, hi⟩ := List.mem_iff_getElem?.mp ho
    obtain ⟨_, o', k1, k2, _⟩ := R.shift i (List.getElem?_eq_some_iff.mp hi).1
    rw [hi] at k1
    cases k1
    refine ⟨?_, by omega⟩
    rw [← hT]
    have := (foldl_min_le ((((axSets g cs (resortStates g cs) (nxstate cs (resortStates g cs))).zip os).filter fun e => e.1 % 2 == 0).map Prod.snd) 0).1
    simp only at this ⊢
    omega
  · intro o ho
    rw [← hT] at ho ⊢
    simp only at ho ⊢
    obtain ⟨x, hx, rfl⟩ := List.mem_map.mp ho
    have k1 := foldl_min_le ((((axSets g cs (resortStates g cs) (nxstate cs (resortStates g cs))).zip os).filter fun e => e.1 % 2 == 1).map Prod.snd) 0
    have k2 := le_foldl_max ((((axSets g cs (resortStates g cs) (nxstate cs (resortStates g cs))).zip os).filter fun e => e.1 % 2 == 1).map Prod.snd) 0
    cases x with
    | none => simp only [Option.getD_none]; omega
    | some o =>
      have hm := trim_sub hx
      obtain ⟨i, _, hi⟩ := List.mem_map.mp hm
      have hz := lookup_mem hi
      have hin : o ∈ ((((axSets g cs (resortStates g cs) (nxstate cs (resortStates g cs))).zip os).filter fun e => e.1 % 2 == 1).map Prod.snd) :=
        List.mem_map.mpr ⟨(2 * i + 1, o), List.mem_filter.mpr ⟨hz, by simp⟩, rfl⟩
      have := k1.2 o hin
      have := k2.2 o hin
      simp only [Option.getD_some]
      omega

end Verif.Lemon
