import Verif.Proofs.LemonCompress
/-
`CompressTables`, second and third pass: lemmas.
-/
set_option autoImplicit false
namespace Verif.Lemon

variable {g : Gram}

/-! ### Second pass -/

/-- the second pass on type and argument -/
def srPair (auto : Nat → Option Nat) (e : AType × Nat) : AType × Nat :=
  match e with
  | (.SHIFT, q) => match auto q with
    | some r => (.SHIFTREDUCE, r)
    | none => (.SHIFT, q)
  | e => e

/-- `autoReduce` of a state -/
def autoOf (cs : List CState) (q : Nat) : Option Nat := (cs.getD q ⟨[], none⟩).auto

theorem shiftReduce_sp (sts : List CState) (a : Act) : (shiftReduce sts a).sp = a.sp := by
  unfold shiftReduce
  split_ifs
  · split <;> rfl
  · rfl

theorem shiftReduce_pair (sts : List CState) (a : Act) :
    ((shiftReduce sts a).type, (shiftReduce sts a).x) = srPair (autoOf sts) (a.type, a.x) := by
  unfold shiftReduce
  by_cases h : a.type = .SHIFT
  · rw [if_pos (by simp [h])]
    simp only [srPair, h, autoOf]
    split <;> simp_all
  · rw [if_neg (by simpa using h)]
    unfold srPair
    split
    · rename_i heq; simp only [Prod.mk.injEq] at heq; exact absurd heq.1 h
    · rfl

theorem shiftReduce_live (sts : List CState) (a : Act) : (shiftReduce sts a).type.live = a.type.live := by
  unfold shiftReduce
  split_ifs with h
  · simp only [beq_iff_eq] at h
    split <;> simp [h, AType.live]
  · rfl

theorem onSym_shiftReduce (sts : List CState) (X : Nat) : ∀ l : List Act,
    onSym (l.map (shiftReduce sts)) X = (onSym l X).map (srPair (autoOf sts)) := by
  intro l
  induction l with
  | nil => rfl
  | cons a l ih =>
    rw [List.map_cons, onSym_cons, onSym_cons, List.map_append, ih, shiftReduce_live, shiftReduce_sp]
    congr 1
    split_ifs
    · simp [shiftReduce_pair]
    · rfl

/-! ### Third pass -/

theorem elidable_lhs (wf : g.WF) {a : Act} (h : g.elidable a = true) : g.nlow ≤ (g.rule a.x).lhs := by
  unfold Gram.elidable at h
  simp only [Bool.and_eq_true, beq_iff_eq] at h
  obtain ⟨⟨⟨_, _⟩, h⟩, _⟩ := h
  unfold Gram.rule at h ⊢
  rw [List.getD_eq_getElem?_getD] at h ⊢
  cases hr : g.rules[a.x]? with
  | none => rw [hr] at h; simp at h
  | some r => exact (wf.lhs r (List.mem_of_getElem? hr)).1

/-- one step of the third pass -/
def UnitStep (g : Gram) (l0 : List Act) (X Y : Nat) : Prop :=
  ∃ a ∈ l0, a.sp = X ∧ g.elidable a = true ∧ Y = (g.rule a.x).lhs

/-- steps of the third pass -/
def UnitReach (g : Gram) (l0 : List Act) : Nat → Nat → Prop := Relation.ReflTransGen (UnitStep g l0)

theorem unitReach_nt (wf : g.WF) {l0 : List Act} {X Y : Nat} (h : UnitReach g l0 X Y) (hX : g.nlow ≤ X) : g.nlow ≤ Y := by
  induction h with
  | refl => exact hX
  | tail _ h _ =>
    obtain ⟨a, _, _, h2, rfl⟩ := h
    exact elidable_lhs wf h2

theorem index_nt {X : Nat} (h : g.nlow ≤ X) : g.nterm ≤ g.index X := by
  unfold Gram.nlow at h
  unfold Gram.index
  split_ifs <;> omega

/-- entry `a` comes from entry `a0` of the list before the third pass -/
def Elided (g : Gram) (l0 : List Act) (a0 a : Act) : Prop :=
  a.sp = a0.sp ∧ ((a.type, a.x) = (a0.type, a0.x) ∨
    (g.elidable a0 = true ∧ ∃ b ∈ l0, UnitReach g l0 (g.rule a0.x).lhs b.sp ∧ (a.type, a.x) = (b.type, b.x)))

theorem elidable_congr {a b : Act} (h : (a.type, a.x) = (b.type, b.x)) (hi : g.nterm ≤ g.index b.sp) (he : g.elidable a = true) :
    g.elidable b = true := by
  simp only [Prod.mk.injEq] at h
  unfold Gram.elidable at he ⊢
  rw [← h.1, ← h.2]
  simp only [Bool.and_eq_true, decide_eq_true_eq] at he ⊢
  exact ⟨he.1, hi⟩

theorem elidable_index {a : Act} (h : g.elidable a = true) : g.nterm ≤ g.index a.sp := by
  unfold Gram.elidable at h
  simp only [Bool.and_eq_true, decide_eq_true_eq] at h
  exact h.2

theorem elideAt_spec (wf : g.WF) (l0 : List Act) (i : Nat) : ∀ (fuel : Nat) (l l' : List Act), elideAt g fuel l i = some l' →
    List.Forall₂ (Elided g l0) l0 l →
    List.Forall₂ (Elided g l0) l0 l' ∧ (∀ k, k ≠ i → l'[k]? = l[k]?) ∧ ∀ a, l'[i]? = some a → g.elidable a = false := by
  intro fuel
  induction fuel with
  | zero =>
    intro l l' h hl
    rw [elideAt] at h
    cases hi : l[i]? with
    | none => rw [hi] at h; cases h; exact ⟨hl, fun _ _ => rfl, fun a ha => by rw [hi] at ha; cases ha⟩
    | some ap =>
      rw [hi] at h
      simp only at h
      split_ifs at h with he
      cases h
      refine ⟨hl, fun _ _ => rfl, fun a ha => ?_⟩
      rw [hi] at ha; cases ha; simpa using he
  | succ fuel ih =>
    intro l l' h hl
    rw [elideAt] at h
    cases hi : l[i]? with
    | none => rw [hi] at h; cases h; exact ⟨hl, fun _ _ => rfl, fun a ha => by rw [hi] at ha; cases ha⟩
    | some ap =>
      rw [hi] at h
      simp only at h
      split_ifs at h with he
      · cases hf : l.zipIdx.find? fun e => e.2 != i && e.1.sp == (g.rule ap.x).lhs with
        | none => rw [hf] at h; cases h
        | some e =>
          obtain ⟨ap2, k⟩ := e
          rw [hf] at h
          simp only at h
          have hm := List.mem_of_find?_eq_some hf
          have hp := List.find?_some hf
          simp only [Bool.and_eq_true, bne_iff_ne, ne_eq, beq_iff_eq] at hp
          have hk : l[k]? = some ap2 := (List.mem_zipIdx_iff_getElem?.mp hm)
          have hil : i < l.length := (List.getElem?_eq_some_iff.mp hi).1
          have hil0 : i < l0.length := by rw [hl.length_eq]; exact hil
          have hkl : k < l.length := (List.getElem?_eq_some_iff.mp hk).1
          have hkl0 : k < l0.length := by rw [hl.length_eq]; exact hkl
          have hgi : l[i] = ap := (List.getElem?_eq_some_iff.mp hi).2
          have hgk : l[k] = ap2 := (List.getElem?_eq_some_iff.mp hk).2
          have hEi : Elided g l0 l0[i] ap := by rw [← hgi]; exact (List.forall₂_iff_get.mp hl).2 i hil0 hil
          have hEk : Elided g l0 l0[k] ap2 := by rw [← hgk]; exact (List.forall₂_iff_get.mp hl).2 k hkl0 hkl
          have hk2 : ∃ b ∈ l0, UnitReach g l0 ap2.sp b.sp ∧ (ap2.type, ap2.x) = (b.type, b.x) := by
            obtain ⟨e1, e2 | ⟨e2, b, hb, e3, e4⟩⟩ := hEk
            · exact ⟨l0[k], List.getElem_mem hkl0, by rw [e1]; exact .refl, e2⟩
            · exact ⟨b, hb, .head ⟨l0[k], List.getElem_mem hkl0, e1.symm, e2, rfl⟩ e3, e4⟩
          obtain ⟨b, hb, hb1, hb2⟩ := hk2
          have hnew : Elided g l0 l0[i] { ap with type := ap2.type, x := ap2.x } := by
            obtain ⟨e1, e2⟩ := hEi
            refine ⟨e1, .inr ?_⟩
            have hidx := elidable_index he
            rcases e2 with e2 | ⟨e2, c, hc, e3, e4⟩
            · have h0 : g.elidable l0[i] = true := elidable_congr e2 (by rw [← e1]; exact hidx) he
              refine ⟨h0, b, hb, ?_, hb2⟩
              simp only [Prod.mk.injEq] at e2
              rw [← e2.2, ← hp.2]
              exact hb1
            · refine ⟨e2, b, hb, ?_, hb2⟩
              have hcnt := unitReach_nt wf e3 (elidable_lhs wf e2)
              have hce : g.elidable c = true := elidable_congr e4 (index_nt hcnt) he
              simp only [Prod.mk.injEq] at e4
              have : UnitReach g l0 (g.rule l0[i].x).lhs ap2.sp := .tail e3 ⟨c, hc, rfl, hce, by rw [hp.2, e4.2]⟩
              exact this.trans hb1
          have hl2 : List.Forall₂ (Elided g l0) l0 (l.set i { ap with type := ap2.type, x := ap2.x }) := by
            rw [List.forall₂_iff_get]
            refine ⟨by rw [List.length_set]; exact hl.length_eq, ?_⟩
            intro n h1 h2
            simp only [List.get_eq_getElem, List.getElem_set]
            split_ifs with hn
            · subst hn; exact hnew
            · exact (List.forall₂_iff_get.mp hl).2 n h1 (by simpa using h2)
          obtain ⟨r1, r2, r3⟩ := ih _ _ h hl2
          refine ⟨r1, ?_, r3⟩
          intro k' hk'
          rw [r2 k' hk', List.getElem?_set_ne (Ne.symm hk')]
      · cases h
        refine ⟨hl, fun _ _ => rfl, fun a ha => ?_⟩
        rw [hi] at ha; cases ha; simpa using he

theorem elided_refl (l0 : List Act) : ∀ l : List Act, List.Forall₂ (Elided g l0) l l := by
  intro l
  induction l with
  | nil => exact .nil
  | cons a l ih => exact .cons ⟨rfl, .inl rfl⟩ ih

theorem elideAll_spec (wf : g.WF) {fuel : Nat} {l0 l' : List Act} (h : elideAll g fuel l0 = some l') :
    List.Forall₂ (Elided g l0) l0 l' ∧ ∀ a ∈ l', g.elidable a = false := by
  unfold elideAll at h
  have key : ∀ n l, (List.range n).foldlM (elideAt g fuel) l0 = some l → List.Forall₂ (Elided g l0) l0 l ∧
      ∀ i, i < n → ∀ a, l[i]? = some a → g.elidable a = false := by
    intro n
    induction n with
    | zero => intro l hl; simp at hl; subst hl; exact ⟨elided_refl l0 l0, by simp⟩
    | succ n ih =>
      intro l hl
      rw [List.range_succ, List.foldlM_append] at hl
      obtain ⟨l1, h1, h2⟩ := Option.bind_eq_some_iff.mp hl
      simp only [List.foldlM_cons, List.foldlM_nil] at h2
      obtain ⟨l2, h3, h4⟩ := Option.bind_eq_some_iff.mp h2
      cases h4
      obtain ⟨i1, i2⟩ := ih l1 h1
      obtain ⟨r1, r2, r3⟩ := elideAt_spec wf l0 n fuel l1 l h3 i1
      refine ⟨r1, ?_⟩
      intro i hi a ha
      by_cases hin : i = n
      · subst hin; exact r3 a ha
      · rw [r2 i hin] at ha
        exact i2 i (by omega) a ha
  obtain ⟨k1, k2⟩ := key _ _ h
  refine ⟨k1, ?_⟩
  intro a ha
  obtain ⟨i, hi, he⟩ := List.getElem_of_mem ha
  exact k2 i (by rw [k1.length_eq]; exact hi) a (by rw [List.getElem?_eq_getElem hi, he])

/-- entries on symbols that are not nonterminals are unchanged -/
theorem elided_low {l0 l : List Act} (h : List.Forall₂ (Elided g l0) l0 l) {X : Nat} (hX : g.index X < g.nterm) :
    onSym l X = onSym l0 X := by
  have key : ∀ l1 l : List Act, List.Forall₂ (Elided g l0) l1 l → onSym l X = onSym l1 X := by
    intro l1 l h
    induction h with
    | nil => rfl
    | @cons a b l1 l h1 _ ih =>
      rw [onSym_cons, onSym_cons, ih]
      congr 1
      obtain ⟨e1, e2 | ⟨e2, _⟩⟩ := h1
      · simp only [Prod.mk.injEq] at e2
        rw [e1, e2.1, e2.2]
      · have := elidable_index e2
        have hne : ¬ a.sp = X := by
          intro he; rw [he] at this; omega
        rw [e1]
        simp [hne]
  exact key l0 l h

/-- entries on `{default}` too -/
theorem elided_ty {l0 l : List Act} (h : List.Forall₂ (Elided g l0) l0 l) {X : Nat} (hX : ∀ a ∈ l0, a.sp = X → a.type ≠ .SHIFTREDUCE) :
    onSym l X = onSym l0 X := by
  have key : ∀ l1 l : List Act, List.Forall₂ (Elided g l0) l1 l → (∀ a ∈ l1, a.sp = X → a.type ≠ .SHIFTREDUCE) → onSym l X = onSym l1 X := by
    intro l1 l h
    induction h with
    | nil => intro _; rfl
    | @cons a b l1 l h1 _ ih =>
      intro hX
      rw [onSym_cons, onSym_cons, ih fun a ha => hX a (List.mem_cons_of_mem _ ha)]
      congr 1
      obtain ⟨e1, e2 | ⟨e2, _⟩⟩ := h1
      · simp only [Prod.mk.injEq] at e2
        rw [e1, e2.1, e2.2]
      · have hne : ¬ a.sp = X := by
          intro he
          apply hX a List.mem_cons_self he
          unfold Gram.elidable at e2
          simp only [Bool.and_eq_true, beq_iff_eq] at e2
          exact e2.1.1.1
        rw [e1]
        simp [hne]
  exact key l0 l h hX

/-- the list before the third pass has for each nonterminal its action, if there is one -/
def PreElide (g : Gram) (on : Nat → List (AType × Nat)) (auto : Nat → Option Nat) (l0 : List Act) : Prop :=
  ∀ X, g.nlow ≤ X → X ≠ g.nsym → ((l0.filter fun a => a.sp == X) = [] ∧ on X = []) ∨
    ∃ a0, (l0.filter fun a => a.sp == X) = [a0] ∧ ((on X = [(.ACCEPT, 0)] ∧ (a0.type, a0.x) = (.ACCEPT, 0)) ∨
      ∃ q, on X = [(.SHIFT, q)] ∧ (a0.type, a0.x) = srPair auto (.SHIFT, q))

theorem unitRule_elidable {a : Act} {r : Nat} (h : (a.type, a.x) = (.SHIFTREDUCE, r)) (hi : g.nterm ≤ g.index a.sp) :
    g.elidable a = true ↔ g.unitRule r := by
  simp only [Prod.mk.injEq] at h
  unfold Gram.elidable Gram.unitRule
  rw [h.1, h.2]
  simp [hi, and_comm]

theorem elidable_type {a : Act} (h : g.elidable a = true) : a.type = .SHIFTREDUCE := by
  unfold Gram.elidable at h
  simp only [Bool.and_eq_true, beq_iff_eq] at h
  exact h.1.1.1

theorem elidable_lhs_lt (wf : g.WF) {a : Act} (h : g.elidable a = true) : (g.rule a.x).lhs < g.nsym := by
  unfold Gram.elidable at h
  simp only [Bool.and_eq_true, beq_iff_eq] at h
  obtain ⟨⟨⟨_, _⟩, h⟩, _⟩ := h
  unfold Gram.rule at h ⊢
  rw [List.getD_eq_getElem?_getD] at h ⊢
  cases hr : g.rules[a.x]? with
  | none => rw [hr] at h; simp at h
  | some r => exact (wf.lhs r (List.mem_of_getElem? hr)).2

theorem lands_of_reach (wf : g.WF) {on : Nat → List (AType × Nat)} {auto : Nat → Option Nat} {l0 : List Act} (h0 : PreElide g on auto l0)
    {b : Act} (hb : b ∈ l0) (hne : g.elidable b = false) {X : Nat} (h : UnitReach g l0 X b.sp) (hX : g.nlow ≤ X) (hX' : X < g.nsym) :
    Lands g on auto X (b.type, b.x) := by
  induction h using Relation.ReflTransGen.head_induction_on with
  | refl =>
    have hbm : b ∈ l0.filter fun a => a.sp == b.sp := List.mem_filter.mpr ⟨hb, by simp⟩
    rcases h0 b.sp hX (by omega) with ⟨e, _⟩ | ⟨a0, e, e'⟩
    · rw [e] at hbm; cases hbm
    · rw [e, List.mem_singleton] at hbm
      subst hbm
      rcases e' with ⟨e1, e2⟩ | ⟨q, e1, e2⟩
      · rw [e2]; exact .accept e1
      · cases hq : auto q with
        | none =>
          have : srPair auto (.SHIFT, q) = (.SHIFT, q) := by simp [srPair, hq]
          rw [e2, this]; exact .shift e1 hq
        | some r =>
          have : srPair auto (.SHIFT, q) = (.SHIFTREDUCE, r) := by simp [srPair, hq]
          rw [this] at e2
          have hu : ¬ g.unitRule r := by
            intro hu
            rw [(unitRule_elidable e2 (index_nt hX)).mpr hu] at hne
            cases hne
          rw [e2]; exact .reduce e1 hq hu
  | @head X Y hs _ ih =>
    obtain ⟨a, ha, rfl, he, rfl⟩ := hs
    have ham : a ∈ l0.filter fun b => b.sp == a.sp := List.mem_filter.mpr ⟨ha, by simp⟩
    rcases h0 a.sp hX (by omega) with ⟨e, _⟩ | ⟨a0, e, e'⟩
    · rw [e] at ham; cases ham
    · rw [e, List.mem_singleton] at ham
      subst ham
      have hty := elidable_type he
      rcases e' with ⟨e1, e2⟩ | ⟨q, e1, e2⟩
      · simp only [Prod.mk.injEq] at e2; rw [e2.1] at hty; cases hty
      · cases hq : auto q with
        | none =>
          have : srPair auto (.SHIFT, q) = (.SHIFT, q) := by simp [srPair, hq]
          rw [this] at e2
          simp only [Prod.mk.injEq] at e2; rw [e2.1] at hty; cases hty
        | some r =>
          have : srPair auto (.SHIFT, q) = (.SHIFTREDUCE, r) := by simp [srPair, hq]
          rw [this] at e2
          have hu := (unitRule_elidable e2 (index_nt hX)).mp he
          have hx : a.x = r := by simp only [Prod.mk.injEq] at e2; exact e2.2
          rw [← hx] at hq hu
          exact .unit e1 hq hu (ih (elidable_lhs wf he) (elidable_lhs_lt wf he))

/-- the third pass on a nonterminal -/
theorem elideAll_nt (wf : g.WF) {fuel : Nat} {on : Nat → List (AType × Nat)} {auto : Nat → Option Nat} {l0 l' : List Act}
    (h0 : PreElide g on auto l0) (h : elideAll g fuel l0 = some l') {X : Nat} (hX : g.nlow ≤ X) (hX' : X < g.nsym) :
    (on X = [] ∧ onSym l' X = []) ∨ (on X ≠ [] ∧ ∃ e, onSym l' X = [e] ∧ Lands g on auto X e) := by
  obtain ⟨k1, k2⟩ := elideAll_spec wf h
  have key : ∀ l1 l : List Act, List.Forall₂ (Elided g l0) l1 l →
      List.Forall₂ (Elided g l0) (l1.filter fun a => a.sp == X) (l.filter fun a => a.sp == X) := by
    intro l1 l hh
    induction hh with
    | nil => exact .nil
    | @cons a b l1 l h1 _ ih =>
      rw [List.filter_cons, List.filter_cons, h1.1]
      split_ifs
      · exact .cons h1 ih
      · exact ih
  have hk := key l0 l' k1
  have hon : onSym l' X = ((l'.filter fun a => a.sp == X).filter fun a => a.type.live).map fun a => (a.type, a.x) := by
    unfold onSym
    rw [List.filter_filter]
  rcases h0 X hX (by omega) with ⟨e, e'⟩ | ⟨a0, e, e'⟩
  · left
    rw [e] at hk
    generalize (l'.filter fun a => a.sp == X) = L at hk hon
    cases hk
    exact ⟨e', by simp [hon]⟩
  · right
    rw [e] at hk
    have ha0 : a0 ∈ l0 ∧ a0.sp = X := by
      have : a0 ∈ l0.filter fun a => a.sp == X := by rw [e]; simp
      simpa using List.mem_filter.mp this
    have hsub : ∀ a ∈ l'.filter fun a => a.sp == X, g.elidable a = false := fun a ha => k2 a (List.mem_filter.mp ha).1
    generalize (l'.filter fun a => a.sp == X) = L at hk hon hsub
    cases hk with
    | @cons _ a _ _ h1 h2 =>
      cases h2
      have hnea := hsub a (by simp)
      have hne : on X ≠ [] := by
        rcases e' with ⟨e1, _⟩ | ⟨q, e1, _⟩ <;> rw [e1] <;> simp
      have hl : Lands g on auto X (a.type, a.x) := by
        obtain ⟨e1, e2 | ⟨e2, b, hb, e3, e4⟩⟩ := h1
        · have : g.elidable a0 = false := by
            by_contra hc
            have hc : g.elidable a0 = true := by simpa using hc
            have := elidable_congr e2.symm (by rw [e1, ha0.2]; exact index_nt hX) hc
            rw [this] at hnea; cases hnea
          rw [e2]
          exact lands_of_reach wf h0 ha0.1 this (by rw [ha0.2]; exact .refl) hX hX'
        · have hnt := unitReach_nt wf e3 (elidable_lhs wf e2)
          have : g.elidable b = false := by
            by_contra hc
            have hc : g.elidable b = true := by simpa using hc
            have := elidable_congr e4.symm (by rw [e1, ha0.2]; exact index_nt hX) hc
            rw [this] at hnea; cases hnea
          rw [e4]
          refine lands_of_reach wf h0 hb this (.head ⟨a0, ha0.1, ha0.2, e2, rfl⟩ e3) hX hX'
      have hlive : a.type.live = true := by
        have : ∀ {X e}, Lands g on auto X e → e.1.live = true := by
          intro X e h
          induction h <;> first | rfl | assumption
        exact this hl
      exact ⟨hne, (a.type, a.x), by rw [hon]; simp [hlive], hl⟩

end Verif.Lemon
