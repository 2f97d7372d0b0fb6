import Verif.Proofs.Acttab
import Verif.Spec.LemonParse
import Verif.Proofs.LemonMeaning
/-
The tables made by `report`: lemmas.
-/
set_option autoImplicit false
namespace Verif.Lemon

theorem mem_takeWhile_of_sorted {f : Nat → Nat} : ∀ {l : List Nat}, l.Pairwise (fun a b => f b ≤ f a) → ∀ {k : Nat},
    k ∈ l.takeWhile (fun k => decide (0 < f k)) ↔ k ∈ l ∧ 0 < f k := by
  intro l
  induction l with
  | nil => simp
  | cons a l ih =>
    intro h k
    rw [List.pairwise_cons] at h
    rw [List.takeWhile_cons]
    by_cases ha : 0 < f a
    · simp only [ha, decide_true, if_true, List.mem_cons, ih h.2]
      constructor
      · rintro (rfl | ⟨h1, h2⟩)
        · exact ⟨.inl rfl, ha⟩
        · exact ⟨.inr h1, h2⟩
      · rintro ⟨rfl | h1, h2⟩
        · exact .inl rfl
        · exact .inr ⟨h1, h2⟩
    · simp only [ha, decide_false, Bool.false_eq_true, if_false, List.not_mem_nil, List.mem_cons, false_iff]
      rintro ⟨rfl | h1, h2⟩
      · exact ha h2
      · have := h.1 k h1; omega

theorem sortInsert_perm (le : Nat → Nat → Bool) (a : Nat) : ∀ l : List Nat, (sortInsert le a l).Perm (a :: l)
  | [] => .refl _
  | b :: l => by
    unfold sortInsert
    split_ifs
    · exact .refl _
    · exact ((sortInsert_perm le a l).cons b).trans (.swap a b l)

theorem qsort_perm (le : Nat → Nat → Bool) : ∀ l : List Nat, (qsort le l).Perm l
  | [] => .refl _
  | a :: l => (sortInsert_perm le a _).trans ((qsort_perm le l).cons a)

theorem pairwise_sortInsert {le : Nat → Nat → Bool} (htr : ∀ a b c : Nat, le a b = true → le b c = true → le a c = true)
    (hto : ∀ a b : Nat, (le a b || le b a) = true) (a : Nat) : ∀ l : List Nat, l.Pairwise (fun a b => le a b = true) →
    (sortInsert le a l).Pairwise fun a b => le a b = true
  | [], _ => by simp [sortInsert]
  | b :: l, h => by
    rw [List.pairwise_cons] at h
    unfold sortInsert
    split_ifs with hab
    · refine List.pairwise_cons.mpr ⟨?_, List.pairwise_cons.mpr h⟩
      intro c hc
      rcases List.mem_cons.mp hc with rfl | hc
      · exact hab
      · exact htr _ _ _ hab (h.1 c hc)
    · refine List.pairwise_cons.mpr ⟨?_, pairwise_sortInsert htr hto a l h.2⟩
      intro c hc
      rcases List.mem_cons.mp ((sortInsert_perm le a l).mem_iff.mp hc) with rfl | hc
      · have := hto c b
        simpa [hab] using this
      · exact h.1 c hc

theorem pairwise_qsort {le : Nat → Nat → Bool} (htr : ∀ a b c : Nat, le a b = true → le b c = true → le a c = true)
    (hto : ∀ a b : Nat, (le a b || le b a) = true) : ∀ l : List Nat, (qsort le l).Pairwise fun a b => le a b = true
  | [] => .nil
  | a :: l => pairwise_sortInsert htr hto a _ (pairwise_qsort htr hto l)

variable {g : Gram} {fb : Nat → Option Nat} {cs : List CState} {order : List Nat} {nx : Nat}

theorem mem_axSets {k : Nat} : k ∈ axSets g cs order nx ↔ k < 2 * nx ∧ 0 < axCount g cs order k := by
  unfold axSets
  have htr : ∀ a b c : Nat, axLe g cs order a b = true → axLe g cs order b c = true → axLe g cs order a c = true := by
    intro a b c
    unfold axLe
    simp only [Bool.or_eq_true, Bool.and_eq_true, decide_eq_true_eq, beq_iff_eq]
    omega
  have hto : ∀ a b : Nat, (axLe g cs order a b || axLe g cs order b a) = true := by
    intro a b
    unfold axLe
    simp only [Bool.or_eq_true, Bool.and_eq_true, decide_eq_true_eq, beq_iff_eq]
    omega
  have hs := pairwise_qsort htr hto (List.range (2 * nx))
  have hs' : (qsort (axLe g cs order) (List.range (2 * nx))).Pairwise fun a b => axCount g cs order b ≤ axCount g cs order a := by
    refine hs.imp ?_
    intro a b h
    unfold axLe at h
    simp only [Bool.or_eq_true, Bool.and_eq_true, decide_eq_true_eq, beq_iff_eq] at h
    omega
  rw [mem_takeWhile_of_sorted hs', (qsort_perm _ _).mem_iff, List.mem_range]

theorem axSets_nodup : (axSets g cs order nx).Nodup := by
  unfold axSets
  refine List.Nodup.sublist (List.takeWhile_sublist _) ?_
  exact (qsort_perm _ _).nodup_iff.mpr List.nodup_range

/-- the offsets -/
theorem zip_lookup {P : Nat → Int → Prop} : ∀ {ks : List Nat} {os : List Int}, ks.Nodup → List.Forall₂ P ks os →
    (∀ k o, (ks.zip os).lookup k = some o → P k o ∧ k ∈ ks) ∧ (∀ k, (ks.zip os).lookup k = none ↔ k ∉ ks) ∧
      ∀ k o, (ks.zip os).lookup k = some o ↔ (k, o) ∈ ks.zip os := by
  intro ks os hn h
  induction h with
  | nil => simp
  | cons h _ ih =>
    rename_i a b l1 l2 _
    rw [List.nodup_cons] at hn
    obtain ⟨i1, i2, i3⟩ := ih hn.2
    rw [List.zip_cons_cons]
    have hl : ∀ k, List.lookup k ((a, b) :: l1.zip l2) = if k = a then some b else (l1.zip l2).lookup k := by
      intro k
      rw [List.lookup_cons]
      by_cases hk : k = a
      · simp [hk]
      · have : (k == a) = false := by simpa using hk
        rw [this]; simp [hk]
    refine ⟨?_, ?_, ?_⟩
    · intro k o hk
      rw [hl] at hk
      split_ifs at hk with hka
      · cases hk; rw [hka]; exact ⟨h, List.mem_cons_self⟩
      · exact ⟨(i1 k o hk).1, List.mem_cons_of_mem _ (i1 k o hk).2⟩
    · intro k
      rw [hl]
      split_ifs with hka
      · simp [hka]
      · rw [i2]; simp [hka]
    · intro k o
      rw [hl, List.mem_cons, Prod.mk.injEq]
      split_ifs with hka
      · constructor
        · intro h; cases h; exact .inl ⟨hka, rfl⟩
        · rintro (⟨_, rfl⟩ | h)
          · rfl
          · exact absurd (List.of_mem_zip h).1 (hka ▸ hn.1)
      · rw [i3]
        simp [hka]

theorem actionSize_spec {p : Acttab} {n : Nat} (h : p.actionSize = some n) :
    p.nAction ≤ p.tab.length ∧ n ≤ p.nAction ∧ ∀ j e, p.slot j = some e → j < p.nAction → j < n := by
  unfold Acttab.actionSize at h
  split_ifs at h with h1
  simp only [Option.some.injEq] at h
  refine ⟨by omega, by omega, ?_⟩
  intro j e hj hlt
  by_contra hc
  rw [← h] at hc
  -- the suffix of empty slots has length at most nAction - 1 - j
  have key : ∀ (q : Nat → Bool) (m j : Nat), j < m → q j = false → ((List.range m).reverse.takeWhile q).length ≤ m - 1 - j := by
    intro q m
    induction m with
    | zero => intro j hj; omega
    | succ m ih =>
      intro j hj hq
      rw [List.range_succ, List.reverse_append]
      simp only [List.reverse_cons, List.reverse_nil, List.nil_append, List.singleton_append, List.takeWhile_cons]
      by_cases hm : j = m
      · rw [← hm, hq]; simp
      · cases hqm : q m with
        | false => simp
        | true =>
          have := ih j (by omega) hq
          simp only [if_true, List.length_cons]
          omega
  have := key (fun i => decide ((p.slot i).la < 0)) p.nAction j hlt (by simp [hj, Slot.la])
  omega

theorem trim_spec (l : List (Option Int)) : ∃ k, l = trim l ++ List.replicate k none ∧ (∀ x, (trim l).getLast? = some x → x ≠ none) := by
  unfold trim
  refine ⟨(l.reverse.takeWhile Option.isNone).length, ?_, ?_⟩
  · have h := List.takeWhile_append_dropWhile (p := Option.isNone) (l := l.reverse)
    have h2 : l = (l.reverse.dropWhile Option.isNone).reverse ++ (l.reverse.takeWhile Option.isNone).reverse := by
      rw [← List.reverse_append, h, List.reverse_reverse]
    have h3 : (l.reverse.takeWhile Option.isNone).reverse = List.replicate (l.reverse.takeWhile Option.isNone).length none := by
      rw [List.eq_replicate_iff]
      refine ⟨by simp, ?_⟩
      intro b hb
      rw [List.mem_reverse] at hb
      have := List.all_eq_true.mp (List.all_takeWhile (l := l.reverse) (p := Option.isNone)) b hb
      simpa using this
    rw [h3] at h2
    exact h2
  · intro x hx
    rw [List.getLast?_reverse] at hx
    have := List.head?_dropWhile_not Option.isNone l.reverse
    rw [hx] at this
    simp at this
    intro hc; rw [hc] at this; cases this

/-- an index is covered iff at or after it there is an offset -/
theorem trim_getElem? (l : List (Option Int)) (i : Nat) :
    (i < (trim l).length ↔ ∃ j, i ≤ j ∧ ∃ o, l[j]? = some (some o)) ∧
    (i < (trim l).length → (trim l)[i]? = l[i]?) := by
  obtain ⟨k, h1, h2⟩ := trim_spec l
  constructor
  · constructor
    · intro hi
      have hne : trim l ≠ [] := by intro h; rw [h] at hi; simp at hi
      refine ⟨(trim l).length - 1, by omega, ?_⟩
      have hl := List.getLast?_eq_getElem? (l := trim l)
      obtain ⟨x, hx⟩ : ∃ x, (trim l).getLast? = some x := by
        cases hg : (trim l).getLast? with
        | none => rw [List.getLast?_eq_none_iff] at hg; exact absurd hg hne
        | some x => exact ⟨x, rfl⟩
      have hxn := h2 x hx
      obtain ⟨o, rfl⟩ := Option.ne_none_iff_exists'.mp hxn
      refine ⟨o, ?_⟩
      rw [hl] at hx
      generalize hn : (trim l).length - 1 = n at hx ⊢
      rw [h1, List.getElem?_append_left (by omega), hx]
    · rintro ⟨j, hij, o, hj⟩
      by_contra hc
      rw [h1, List.getElem?_append_right (by omega)] at hj
      rw [List.getElem?_replicate] at hj
      split_ifs at hj
      cases hj
  · intro hi
    conv_rhs => rw [h1]
    rw [List.getElem?_append_left hi]

theorem lastOf_eq (L : List (Nat × Nat)) (X : Nat) : lastOf L X = ((L.filter fun e => e.1 == X).getLast?).map Prod.snd := by
  unfold lastOf
  rw [List.getLast?_eq_head?_reverse, ← List.filter_reverse, List.head?_filter]

/-- the error symbol is a nonterminal -/
def ErrNT (g : Gram) : Prop := ∀ E, g.errsym = some E → g.nlow ≤ E ∧ E < g.nsym

theorem index_inj {X Y : Nat} (hX : g.plain X) (hY : g.plain Y) (h : g.index X = g.index Y) : X = Y := by
  rw [← sym_index hX, h, sym_index hY]

theorem index_lt_nterm {X : Nat} (h : g.plain X) : g.index X < g.nterm ↔ X < g.nterm := by
  unfold Gram.plain Gram.nlow at h
  unfold Gram.index
  split_ifs <;> omega

theorem plain_nsym (wf : g.WF) : g.plain g.nsym := .inr wf.nsym

theorem plain_of_index' {X : Nat} (h : g.nlow ≤ X) (h' : g.index X < g.nsymbol) : X < g.nsym := by
  unfold Gram.index Gram.nsymbol at h'
  unfold Gram.nlow at h
  split_ifs at h' <;> omega

/-- the number computed is the one specified -/
theorem computeAction_eq (he : ErrNT g) {a : Act} (hp : g.plain a.sp) :
    computeAction g cs order a = if a.type.live then some (actNum g cs.length order a.sp (a.type, a.x)) else none := by
  have haft : g.afterReduce a.sp = true ↔ ¬ (a.sp < g.nterm ∨ g.errsym = some a.sp) := by
    unfold Gram.afterReduce
    rw [not_or, ← index_lt_nterm hp]
    simp only [Bool.and_eq_true, decide_eq_true_eq, not_lt]
    refine and_congr_right fun _ => ?_
    cases h : g.errsym with
    | none => simp
    | some E =>
      simp only [bne_iff_ne, ne_eq, Option.some.injEq, not_iff_not]
      exact ⟨fun h1 => (index_inj hp (.inr (he E h).1) h1).symm, fun h1 => by rw [h1]⟩
  unfold computeAction
  cases ht : a.type with
  | SHIFTREDUCE =>
    simp only [AType.live, if_true, actNum, minShiftReduce, minReduce, noAction, accAction, errAction]
    by_cases h : a.sp < g.nterm ∨ g.errsym = some a.sp
    · rw [if_pos h, if_neg (by rw [haft]; exact not_not.mpr h)]
    · rw [if_neg h, if_pos (haft.mpr h)]
  | _ => simp [AType.live, actNum, minShiftReduce, minReduce, noAction, accAction, errAction]

/-- what the list of actions of a state to be reported satisfies -/
structure ActsOK (g : Gram) (nstate : Nat) (order : List Nat) (l : List Act) : Prop where
  sp : ∀ a ∈ l, (g.plain a.sp ∧ g.index a.sp < g.nsymbol) ∨ a.sp = g.nsym
  nodup : ∀ X, X < g.nsym → ((onSym l X).map (actNum g nstate order X)).Nodup

theorem ActsOK.plain (wf : g.WF) {l : List Act} (h : ActsOK g cs.length order l) {a : Act} (ha : a ∈ l) : g.plain a.sp := by
  rcases h.sp a ha with h1 | h1
  · exact h1.1
  · rw [h1]; exact plain_nsym wf

theorem tokenSet_eq (wf : g.WF) (he : ErrNT g) {c : CState} (h : ActsOK g cs.length order c.acts) :
    tokenSet g cs order c = (c.acts.filter fun a => a.type.live && decide (a.sp < g.nterm)).map
      fun a => (a.sp, actNum g cs.length order a.sp (a.type, a.x)) := by
  have key : ∀ l : List Act, (∀ a ∈ l, g.plain a.sp) → (l.filterMap fun a =>
      if g.nterm ≤ g.index a.sp then none else (computeAction g cs order a).map fun n => (g.index a.sp, n)) =
      (l.filter fun a => a.type.live && decide (a.sp < g.nterm)).map
        fun a => (a.sp, actNum g cs.length order a.sp (a.type, a.x)) := by
    intro l
    induction l with
    | nil => intro _; rfl
    | cons a l ih =>
      intro h
      have hp := h a List.mem_cons_self
      rw [List.filterMap_cons, List.filter_cons, ih fun b hb => h b (List.mem_cons_of_mem _ hb), computeAction_eq he hp]
      have hlt := index_lt_nterm hp
      by_cases h1 : a.sp < g.nterm
      · have hi : g.index a.sp = a.sp := by unfold Gram.index; rw [if_pos h1]
        rw [if_neg (by omega)]
        cases hl : a.type.live with
        | true => simp [h1, hi]
        | false => simp
      · rw [if_pos (by omega)]
        simp [h1]
  exact key _ fun a ha => h.plain wf ha

theorem ntSet_eq (wf : g.WF) (he : ErrNT g) {c : CState} (h : ActsOK g cs.length order c.acts) :
    ntSet g cs order c = (c.acts.filter fun a => a.type.live && (decide (g.nlow ≤ a.sp) && decide (a.sp < g.nsym))).map
      fun a => (g.index a.sp, actNum g cs.length order a.sp (a.type, a.x)) := by
  have key : ∀ l : List Act, (∀ a ∈ l, (g.plain a.sp ∧ g.index a.sp < g.nsymbol) ∨ a.sp = g.nsym) → (l.filterMap fun a =>
      if g.index a.sp < g.nterm then none else if g.index a.sp = g.nsymbol then none
      else (computeAction g cs order a).map fun n => (g.index a.sp, n)) =
      (l.filter fun a => a.type.live && (decide (g.nlow ≤ a.sp) && decide (a.sp < g.nsym))).map
        fun a => (g.index a.sp, actNum g cs.length order a.sp (a.type, a.x)) := by
    intro l
    induction l with
    | nil => intro _; rfl
    | cons a l ih =>
      intro h
      have hsp := h a List.mem_cons_self
      have hp : g.plain a.sp := by
        rcases hsp with h1 | h1
        · exact h1.1
        · rw [h1]; exact plain_nsym wf
      rw [List.filterMap_cons, List.filter_cons, ih fun b hb => h b (List.mem_cons_of_mem _ hb), computeAction_eq he hp]
      have hlt := index_lt_nterm hp
      have hnl : g.nterm ≤ g.nlow := by unfold Gram.nlow; omega
      by_cases h1 : a.sp < g.nterm
      · rw [if_pos (by omega)]
        have : ¬ g.nlow ≤ a.sp := by omega
        simp [this]
      · have hlow : g.nlow ≤ a.sp := by rcases hp with h2 | h2 <;> omega
        rw [if_neg (by omega)]
        rcases hsp with ⟨_, h2⟩ | h2
        · have h3 : a.sp < g.nsym := plain_of_index' hlow h2
          rw [if_neg (by omega)]
          cases hl : a.type.live with
          | true => simp [hlow, h3]
          | false => simp
        · rw [if_pos (by rw [h2, index_nsym wf])]
          have : ¬ a.sp < g.nsym := by omega
          simp [this]
  exact key _ h.sp

theorem nodup_map_by {α : Type} {f : α → Nat × Nat} {key : α → Nat} : ∀ {l : List α}, (∀ a ∈ l, ∀ b ∈ l, f a = f b → key a = key b) →
    (∀ a ∈ l, ((l.filter fun b => key b == key a).map f).Nodup) → (l.map f).Nodup := by
  intro l
  induction l with
  | nil => intro _ _; simp
  | cons a l ih =>
    intro h1 h2
    rw [List.map_cons, List.nodup_cons]
    refine ⟨?_, ih (fun a ha b hb => h1 a (List.mem_cons_of_mem _ ha) b (List.mem_cons_of_mem _ hb)) ?_⟩
    · intro hm
      obtain ⟨b, hb, hfb⟩ := List.mem_map.mp hm
      have hk := h1 b (List.mem_cons_of_mem _ hb) a List.mem_cons_self hfb
      have := h2 a List.mem_cons_self
      rw [List.filter_cons] at this
      simp only [beq_self_eq_true, if_true, List.map_cons, List.nodup_cons] at this
      apply this.1
      rw [← hfb]
      exact List.mem_map_of_mem (List.mem_filter.mpr ⟨hb, by simp [hk]⟩)
    · intro b hb
      have := h2 b (List.mem_cons_of_mem _ hb)
      refine List.Nodup.sublist ?_ this
      refine List.Sublist.map _ ?_
      exact (List.sublist_cons_self a l).filter _

theorem onSym_filter {l : List Act} {q : Act → Bool} {X : Nat} (hq : ∀ a : Act, a.sp = X → q a = true) :
    ((l.filter fun a => a.type.live && q a).filter fun a => a.sp == X) = l.filter fun a => a.type.live && a.sp == X := by
  rw [List.filter_filter]
  refine List.filter_congr ?_
  intro a _
  by_cases h : a.sp = X
  · rw [hq a h]; simp [h]
  · have : (a.sp == X) = false := by simpa using h
    rw [this]; simp

theorem tokenSet_ok (wf : g.WF) (he : ErrNT g) {c : CState} (h : ActsOK g cs.length order c.acts) (hne : 0 < nTknAct g c) :
    TransOK g.nsymbol g.nterm true (tokenSet g cs order c) := by
  have hlen : (tokenSet g cs order c).length = nTknAct g c := by
    rw [tokenSet_eq wf he h, List.length_map]
    unfold nTknAct
    congr 1
    refine List.filter_congr ?_
    intro a ha
    rw [decide_eq_decide.mpr (index_lt_nterm (h.plain wf ha))]
  have hlt : ∀ e ∈ tokenSet g cs order c, e.1 < g.nterm := by
    intro e hm
    rw [tokenSet_eq wf he h] at hm
    obtain ⟨a, ha, rfl⟩ := List.mem_map.mp hm
    have := (List.mem_filter.mp ha).2
    simp only [Bool.and_eq_true, decide_eq_true_eq] at this
    exact this.2
  have hTN : g.nterm ≤ g.nsymbol := by
    have := wf.nsym
    unfold Gram.nlow at this
    unfold Gram.nsymbol; omega
  refine ⟨?_, ?_, fun e hm => Nat.lt_of_lt_of_le (hlt e hm) hTN, fun _ => hlt, fun h => (by cases h)⟩
  · intro hn
    rw [hn] at hlen
    simp at hlen; omega
  · rw [tokenSet_eq wf he h]
    refine nodup_map_by (key := Act.sp) ?_ ?_
    · intro a _ b _ hab
      simp only [Prod.mk.injEq] at hab
      exact hab.1
    · intro a ha
      have hlt := (List.mem_filter.mp ha).2
      simp only [Bool.and_eq_true, decide_eq_true_eq] at hlt
      rw [onSym_filter (X := a.sp) (q := fun a => decide (a.sp < g.nterm)) (by intro b hb; rw [hb]; simpa using hlt.2)]
      have hnd := h.nodup a.sp (by have := wf.nsym; unfold Gram.nlow at this; omega)
      have heq : (c.acts.filter fun b => b.type.live && b.sp == a.sp).map (fun b => (b.sp, actNum g cs.length order b.sp (b.type, b.x))) =
          ((onSym c.acts a.sp).map (actNum g cs.length order a.sp)).map fun n => (a.sp, n) := by
        unfold onSym
        rw [List.map_map, List.map_map]
        refine List.map_congr_left ?_
        intro b hb
        have := (List.mem_filter.mp hb).2
        simp only [Bool.and_eq_true, beq_iff_eq] at this
        simp [Function.comp, this.2]
      rw [heq]
      exact hnd.map fun x y h => by simpa using h

theorem ntSet_ok (wf : g.WF) (he : ErrNT g) {c : CState} (h : ActsOK g cs.length order c.acts) (hne : 0 < nNtAct g c) :
    TransOK g.nsymbol g.nterm false (ntSet g cs order c) := by
  have hlen : (ntSet g cs order c).length = nNtAct g c := by
    rw [ntSet_eq wf he h, List.length_map]
    unfold nNtAct
    congr 1
    refine List.filter_congr ?_
    intro a ha
    rw [Bool.and_assoc]
    congr 1
    have hp := h.plain wf ha
    have hlt := index_lt_nterm hp
    have hnl : g.nterm ≤ g.nlow := by unfold Gram.nlow; omega
    rcases h.sp a ha with ⟨_, h1⟩ | h1
    · rw [Bool.eq_iff_iff]
      simp only [Bool.and_eq_true, decide_eq_true_eq]
      constructor
      · rintro ⟨h2, h3⟩; exact ⟨by omega, h1⟩
      · rintro ⟨h2, h3⟩
        have : g.nlow ≤ a.sp := by rcases hp with h4 | h4 <;> omega
        exact ⟨this, plain_of_index' this h1⟩
    · rw [h1, index_nsym wf]; simp
  have hge : ∀ e ∈ ntSet g cs order c, g.nterm ≤ e.1 ∧ e.1 < g.nsymbol := by
    intro e hm
    rw [ntSet_eq wf he h] at hm
    obtain ⟨a, ha, rfl⟩ := List.mem_map.mp hm
    have := (List.mem_filter.mp ha).2
    simp only [Bool.and_eq_true, decide_eq_true_eq] at this
    unfold Gram.nlow at this
    simp only
    unfold Gram.index Gram.nsymbol
    split_ifs <;> omega
  refine ⟨?_, ?_, fun e hm => (hge e hm).2, fun h => (by cases h), fun _ e hm => (hge e hm).1⟩
  · intro hn
    rw [hn] at hlen
    simp at hlen; omega
  · rw [ntSet_eq wf he h]
    refine nodup_map_by (key := Act.sp) ?_ ?_
    · intro a ha b hb hab
      simp only [Prod.mk.injEq] at hab
      exact index_inj (h.plain wf (List.mem_filter.mp ha).1) (h.plain wf (List.mem_filter.mp hb).1) hab.1
    · intro a ha
      have hlt := (List.mem_filter.mp ha).2
      simp only [Bool.and_eq_true, decide_eq_true_eq] at hlt
      rw [onSym_filter (X := a.sp) (q := fun a => decide (g.nlow ≤ a.sp) && decide (a.sp < g.nsym)) (by intro b hb; rw [hb]; simpa using hlt.2)]
      have hnd := h.nodup a.sp hlt.2.2
      have heq : (c.acts.filter fun b => b.type.live && b.sp == a.sp).map (fun b => (g.index b.sp, actNum g cs.length order b.sp (b.type, b.x))) =
          ((onSym c.acts a.sp).map (actNum g cs.length order a.sp)).map fun n => (g.index a.sp, n) := by
        unfold onSym
        rw [List.map_map, List.map_map]
        refine List.map_congr_left ?_
        intro b hb
        have := (List.mem_filter.mp hb).2
        simp only [Bool.and_eq_true, beq_iff_eq] at this
        simp [Function.comp, this.2]
      rw [heq]
      exact hnd.map fun x y h => by simpa using h

/-- the number of the action of a state on a symbol: the last one, if there is one -/
def lastNum (g : Gram) (nstate : Nat) (order : List Nat) (c : CState) (X : Nat) : Option Nat :=
  (c.on X).getLast?.map (actNum g nstate order X)

theorem lastOf_tokenSet (wf : g.WF) (he : ErrNT g) {c : CState} (h : ActsOK g cs.length order c.acts) {t : Nat} (ht : t < g.nterm) :
    lastOf (tokenSet g cs order c) t = lastNum g cs.length order c t := by
  rw [lastOf_eq, tokenSet_eq wf he h, List.filter_map]
  have : ((fun e : Nat × Nat => e.1 == t) ∘ fun a : Act => (a.sp, actNum g cs.length order a.sp (a.type, a.x))) = fun a : Act => a.sp == t := rfl
  rw [this, onSym_filter (X := t) (q := fun a => decide (a.sp < g.nterm)) (by intro b hb; rw [hb]; simpa using ht)]
  unfold lastNum CState.on onSym
  rw [List.getLast?_map, List.getLast?_map, Option.map_map, Option.map_map]
  cases hl : (c.acts.filter fun a => a.type.live && a.sp == t).getLast? with
  | none => rfl
  | some b =>
    have := (List.mem_filter.mp (List.mem_of_getLast? hl)).2
    simp only [Bool.and_eq_true, beq_iff_eq] at this
    simp [Function.comp, this.2]

theorem lastOf_ntSet (wf : g.WF) (he : ErrNT g) {c : CState} (h : ActsOK g cs.length order c.acts) {A : Nat} (hA : g.nlow ≤ A) (hA' : A < g.nsym) :
    lastOf (ntSet g cs order c) (g.index A) = lastNum g cs.length order c A := by
  rw [lastOf_eq, ntSet_eq wf he h, List.filter_map]
  have heq : ((c.acts.filter fun a => a.type.live && (decide (g.nlow ≤ a.sp) && decide (a.sp < g.nsym))).filter
      ((fun e : Nat × Nat => e.1 == g.index A) ∘ fun a : Act => (g.index a.sp, actNum g cs.length order a.sp (a.type, a.x)))) =
      (c.acts.filter fun a => a.type.live && (decide (g.nlow ≤ a.sp) && decide (a.sp < g.nsym))).filter fun a => a.sp == A := by
    refine List.filter_congr ?_
    intro a ha
    have hp := h.plain wf (List.mem_filter.mp ha).1
    simp only [Function.comp]
    rw [Bool.eq_iff_iff]
    simp only [beq_iff_eq]
    exact ⟨fun h1 => index_inj hp (.inr hA) h1, fun h1 => by rw [h1]⟩
  rw [heq, onSym_filter (X := A) (q := fun a => decide (g.nlow ≤ a.sp) && decide (a.sp < g.nsym)) (by intro b hb; rw [hb]; simp [hA, hA'])]
  unfold lastNum CState.on onSym
  rw [List.getLast?_map, List.getLast?_map, Option.map_map, Option.map_map]
  cases hl : (c.acts.filter fun a => a.type.live && a.sp == A).getLast? with
  | none => rfl
  | some b =>
    have := (List.mem_filter.mp (List.mem_of_getLast? hl)).2
    simp only [Bool.and_eq_true, beq_iff_eq] at this
    simp [Function.comp, this.2]

end Verif.Lemon
