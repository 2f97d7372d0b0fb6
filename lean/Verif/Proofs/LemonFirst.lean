import Verif.Lemon.First
import Verif.Spec.Lemon
import Verif.Proofs.LemonSet
import Verif.Proofs.Grammar
import Verif.Props.C44
/-
`FindFirstSets` computes the nullable nonterminals and the first sets.
-/
set_option autoImplicit false
namespace Verif.Lemon
open Verif.Spec

variable {g : Gram}

theorem mem_ruleList (hn : g.rules.length < 2 ^ 32) (r : Rule) : r ∈ g.ruleList ↔ r ∈ g.rules := by
  unfold Gram.ruleList
  have hp := (C45_table_partial (g.rules.map Rule.code) (by simpa using hn)).1
  simp only [List.length_map] at hp
  constructor
  · intro h
    obtain ⟨i, hi, rfl⟩ := List.mem_map.mp h
    have := List.mem_range.mp (hp.mem_iff.mp hi)
    unfold Gram.rule
    rw [List.getD_eq_getElem?_getD, List.getElem?_eq_getElem this]
    exact List.getElem_mem this
  · intro h
    obtain ⟨i, hi, rfl⟩ := List.getElem_of_mem h
    refine List.mem_map.mpr ⟨i, hp.mem_iff.mpr (List.mem_range.mpr hi), ?_⟩
    unfold Gram.rule
    rw [List.getD_eq_getElem?_getD, List.getElem?_eq_getElem hi]; rfl

theorem mem_cfg {A : Nat} {α : List Nat} : (A, α) ∈ g.cfg.rules ↔
    (∃ r ∈ g.rules, r.lhs = A ∧ r.rhs = α) ∨
    ∃ i t, i < g.mts.length ∧ t ∈ g.mts.getD i [] ∧ A = g.nterm + i ∧ α = [t] := by
  unfold Gram.cfg
  simp only [List.mem_append, List.mem_map, List.mem_flatMap, List.mem_range, Prod.mk.injEq]
  constructor
  · rintro (h | ⟨i, hi, t, ht, h1, h2⟩)
    · exact Or.inl h
    · exact Or.inr ⟨i, t, hi, ht, h1.symm, h2.symm⟩
  · rintro (h | ⟨i, t, hi, ht, h1, h2⟩)
    · exact Or.inl h
    · exact Or.inr ⟨i, hi, t, ht, h1.symm, h2.symm⟩

theorem mem_cfg_MT (X t : Nat) : (∃ i, i < g.mts.length ∧ t ∈ g.mts.getD i [] ∧ X = g.nterm + i) ↔
    g.isMT X = true ∧ t ∈ g.subsym X := by
  unfold Gram.isMT Gram.subsym Gram.nlow
  simp only [Bool.and_eq_true, decide_eq_true_eq]
  constructor
  · rintro ⟨i, hi, ht, rfl⟩
    refine ⟨⟨by omega, by omega⟩, ?_⟩
    rwa [Nat.add_sub_cancel_left]
  · rintro ⟨⟨h1, h2⟩, h3⟩
    exact ⟨X - g.nterm, by omega, h3, by omega⟩

theorem subsym_lt (wf : g.WF) {X t : Nat} (h : t ∈ g.subsym X) : t < g.nterm := by
  unfold Gram.subsym at h
  rw [List.getD_eq_getElem?_getD] at h
  rcases hx : g.mts[X - g.nterm]? with _ | m
  · rw [hx] at h; simp at h
  · rw [hx] at h; exact wf.mts m (List.mem_of_getElem? hx) t h

/-- a nullable symbol is a nonterminal -/
theorem null_nlow (wf : g.WF) {X : Nat} (h : Null g.cfg X) : g.nlow ≤ X ∧ X < g.nsym := by
  induction h with
  | @mk A α hr hα ih =>
    rcases mem_cfg.mp hr with ⟨r, hr', rfl, rfl⟩ | ⟨i, t, hi, ht, rfl, rfl⟩
    · exact wf.lhs r hr'
    · have := ih t (by simp)
      have h2 : t < g.nterm := wf.mts _ (by
        rw [List.getD_eq_getElem?_getD, List.getElem?_eq_getElem hi]; exact List.getElem_mem hi) t ht
      unfold Gram.nlow at this
      omega

/-! ### lambdas -/

def LamInv (g : Gram) (l : List Bool) : Prop :=
  l.length = g.nsym ∧ ∀ X, l.getD X false = true → Null g.cfg X

theorem lambdaStep_grows {rp : Rule} (hl : rp.lhs < g.nsym) (hr : rp ∈ g.rules) :
    Grows (LamInv g) (List.count true) (fun s => lambdaStep s rp) := by
  intro l p ⟨h1, h2⟩
  unfold lambdaStep
  simp only
  split
  · exact ⟨⟨h1, h2⟩, Or.inl rfl⟩
  · next hlhs =>
    split
    · next hall =>
      have hc := setAdd_cases (s := l) (e := rp.lhs) (by omega)
      refine ⟨⟨by simp [h1], ?_⟩, Or.inr ⟨rfl, ?_⟩⟩
      · intro X hX
        have := (setFind_add (s := l) (e := rp.lhs) (by omega) X).mp hX
        rcases this with h | rfl
        · exact h2 X h
        · refine .mk (mem_cfg.mpr (Or.inl ⟨rp, hr, rfl, rfl⟩)) ?_
          intro Y hY
          exact h2 Y (List.all_eq_true.mp hall Y hY)
      · rcases hc with h | h
        · have : (setAdd l rp.lhs).2 = false := by rw [h]
          simp [setAdd, setFind] at this
          simp [this] at hlhs
        · exact h.2
    · exact ⟨⟨h1, h2⟩, Or.inl rfl⟩

theorem findLambda_spec (wf : g.WF) (hn : g.rules.length < 2 ^ 32) {fuel : Nat} (hf : g.nsym < fuel) :
    ∃ lam, findLambda g fuel = some lam ∧ lam.length = g.nsym ∧
      ∀ X, lam.getD X false = true ↔ Null g.cfg X := by
  have hgr : ∀ rp ∈ g.ruleList, Grows (LamInv g) (List.count true) (fun s => lambdaStep s rp) := by
    intro rp hrp
    have := (mem_ruleList hn rp).mp hrp
    exact lambdaStep_grows (wf.lhs rp this).2 this
  have hstep := Grows.fold (σ := List Bool) (st := lambdaStep) g.ruleList hgr
  have hi : LamInv g (List.replicate g.nsym false) := by
    refine ⟨by simp, ?_⟩
    intro X hX
    rw [List.getD_eq_getElem?_getD, List.getElem?_replicate] at hX
    split at hX <;> simp at hX
  obtain ⟨lam, h1, h2, h3⟩ := doWhile_spec hstep (N := g.nsym)
    (fun s hs => by have := List.count_le_length (a := true) (l := s); rw [hs.1] at this; exact this) fuel _ hi (by omega)
  refine ⟨lam, h1, h2.1, ?_⟩
  intro X
  refine ⟨h2.2 X, ?_⟩
  have hfix := (Grows.fold_fix hgr h2 (p := false) (by rw [h3])).2.2
  intro hX
  induction hX with
  | @mk A α hr hα ih =>
    rcases mem_cfg.mp hr with ⟨r, hr', rfl, rfl⟩ | ⟨i, t, hi, ht, rfl, rfl⟩
    · have := hfix r ((mem_ruleList hn r).mpr hr')
      unfold lambdaStep at this
      simp only at this
      split at this
      · assumption
      · next hlhs =>
        rw [if_pos (List.all_eq_true.mpr ih)] at this
        simp at this
    · exfalso
      have := null_nlow wf (hα t (by simp))
      have h2 : t < g.nterm := wf.mts _ (by
        rw [List.getD_eq_getElem?_getD, List.getElem?_eq_getElem hi]; exact List.getElem_mem hi) t ht
      unfold Gram.nlow at this
      omega

/-! ### first sets -/

/-- `X` can begin with `t`, according to the first sets `F` -/
def Base (g : Gram) (F : List TSet) (X t : Nat) : Prop :=
  (g.isTerm X = true ∧ t = X) ∨ (g.isMT X = true ∧ t ∈ g.subsym X) ∨
    (g.isNT X = true ∧ setFind (F.getD X []) t = true)

/-- `β` can begin with `t`, according to the first sets `F` -/
def Begins (g : Gram) (lam : List Bool) (F : List TSet) : List Nat → Nat → Prop
  | [], _ => False
  | X :: β, t => Base g F X t ∨ (lam.getD X false = true ∧ Begins g lam F β t)

def FstInv (g : Gram) (F : List TSet) : Prop :=
  Fam g.nsym g.setSize F ∧ ∀ A t, setFind (F.getD A []) t = true → g.nlow ≤ A ∧ Fst g.cfg [A] t

theorem addAt_grows {s1 e : Nat} (h0 : g.nlow ≤ s1) (h1 : s1 < g.nsym) (he : e < g.nterm) (hf : Fst g.cfg [s1] e) :
    Grows (FstInv g) bits (fun F => addAt F s1 e) := by
  intro F p ⟨hF, hs⟩
  have hek : e < g.setSize := by unfold Gram.setSize; omega
  refine ⟨⟨addAt_fam hF h1 p e, ?_⟩, addAt_cases hF h1 p hek⟩
  intro A t h
  rcases (find_addAt hF h1 p hek A t).mp h with h | ⟨rfl, rfl⟩
  · exact hs A t h
  · exact ⟨h0, hf⟩

/-- what has been scanned of the right-hand side `pre ++ rest` of `s1` is nullable -/
theorem firstScan_grows (wf : g.WF) {lam : List Bool} (hlam : ∀ X, lam.getD X false = true ↔ Null g.cfg X)
    {s1 : Nat} (h0 : g.nlow ≤ s1) (h1 : s1 < g.nsym) : ∀ (rest : List Nat), (∀ X ∈ rest, X < g.nsym) →
      (∀ t, Fst g.cfg rest t → Fst g.cfg [s1] t) →
      Grows (FstInv g) bits (fun F => firstScan g lam s1 rest F) := by
  intro rest
  induction rest with
  | nil => intro _ _; exact Grows.id
  | cons s2 rest ih =>
    intro hlt hfst
    have hrest : lam.getD s2 false = true → Grows (FstInv g) bits (fun F => firstScan g lam s1 rest F) := by
      intro hl
      exact ih (fun X hX => hlt X (by simp [hX])) (fun t ht => hfst t (.skip ((hlam s2).mp hl) ht))
    unfold firstScan
    by_cases hT : g.isTerm s2 = true
    · simp only [hT, if_true]
      have : s2 < g.nterm := by simpa [Gram.isTerm] using hT
      exact addAt_grows h0 h1 this (hfst s2 (.tok this))
    · simp only [hT, if_false, Bool.false_eq_true]
      by_cases hM : g.isMT s2 = true
      · simp only [hM, if_true]
        refine Grows.fold (st := fun F t => addAt F s1 t) (g.subsym s2) ?_
        intro t ht
        have htl := subsym_lt wf ht
        refine addAt_grows h0 h1 htl (hfst t ?_)
        obtain ⟨i, hi, ht', rfl⟩ := (mem_cfg_MT s2 t).mpr ⟨hM, ht⟩
        exact .rule (mem_cfg.mpr (Or.inr ⟨i, t, hi, ht', rfl, rfl⟩)) (.tok htl)
      · simp only [hM, if_false, Bool.false_eq_true]
        by_cases he : s1 = s2
        · simp only [he, beq_self_eq_true, if_true]
          by_cases hl : lam.getD s2 false = true
          · simp only [hl, Bool.true_eq_false, beq_iff_eq, if_false]
            exact he ▸ hrest hl
          · simp only [Bool.eq_false_iff.mpr hl, beq_self_eq_true, if_true]
            exact Grows.id
        · simp only [beq_iff_eq, he, if_false]
          have hu : Grows (FstInv g) bits (fun F => unionAt F s1 (F.1.getD s2 [])) := by
            intro F p ⟨hF, hs⟩
            have h2 : s2 < g.nsym := hlt s2 (by simp)
            refine ⟨⟨unionAt_fam hF h1 p _, ?_⟩, unionAt_cases hF h1 p _⟩
            intro A t h
            rcases (find_unionAt hF h1 p (hF.get h2) A t).mp h with h' | ⟨hA, h'⟩
            · exact hs A t h'
            · have := (hs s2 t h').2
              rw [hA]
              exact ⟨h0, hfst t (by simpa using this.append_left rest)⟩
          by_cases hl : lam.getD s2 false = true
          · simp only [hl, Bool.true_eq_false, if_false]
            exact hu.comp (hrest hl)
          · simp only [Bool.eq_false_iff.mpr hl, if_true]
            exact hu

theorem firstScan_fix (wf : g.WF) {lam : List Bool} (hlam : ∀ X, lam.getD X false = true ↔ Null g.cfg X)
    {s1 : Nat} (h0 : g.nlow ≤ s1) (h1 : s1 < g.nsym) {F : List TSet} (hF : FstInv g F) : ∀ (rest : List Nat), (∀ X ∈ rest, X < g.nsym) →
      (∀ t, Fst g.cfg rest t → Fst g.cfg [s1] t) →
      (firstScan g lam s1 rest (F, false)).2 = false →
      ∀ t, Begins g lam F rest t → setFind (F.getD s1 []) t = true := by
  intro rest
  induction rest with
  | nil => intro _ _ _ t h; exact h.elim
  | cons s2 rest ih =>
    intro hlt hfst hfix t hb
    have hlt' : ∀ X ∈ rest, X < g.nsym := fun X hX => hlt X (by simp [hX])
    have hfst' : lam.getD s2 false = true → ∀ t, Fst g.cfg rest t → Fst g.cfg [s1] t := fun hl t ht =>
      hfst t (.skip ((hlam s2).mp hl) ht)
    have hnl : g.isNT s2 = false → lam.getD s2 false = false := by
      intro h
      by_contra hc
      have := null_nlow wf ((hlam s2).mp (by simpa using hc))
      simp [Gram.isNT] at h; omega
    unfold firstScan at hfix
    by_cases hT : g.isTerm s2 = true
    · simp only [hT, if_true] at hfix
      have hlt2 : s2 < g.nterm := by simpa [Gram.isTerm] using hT
      have hNT : g.isNT s2 = false := by unfold Gram.isNT Gram.nlow; simp; omega
      have hMT : g.isMT s2 = false := by unfold Gram.isMT; simp; omega
      have hfix := ((addAt_grows h0 h1 hlt2 (hfst s2 (.tok hlt2))).flag hF hfix).1
      rcases hb with (⟨_, rfl⟩ | ⟨h, _⟩ | ⟨h, _⟩) | ⟨h, _⟩
      · have := (find_addAt hF.1 h1 false (e := t) (by unfold Gram.setSize; omega) s1 t).mpr (Or.inr ⟨rfl, rfl⟩)
        rw [hfix] at this; exact this
      · rw [hMT] at h; cases h
      · rw [hNT] at h; cases h
      · rw [hnl hNT] at h; cases h
    · simp only [hT, if_false, Bool.false_eq_true] at hfix
      by_cases hM : g.isMT s2 = true
      · simp only [hM, if_true] at hfix
        have hNT : g.isNT s2 = false := by simp [Gram.isMT, Gram.isNT] at hM ⊢; omega
        have hgr : ∀ t ∈ g.subsym s2, Grows (FstInv g) bits (fun F => addAt F s1 t) := by
          intro t ht
          have htl := subsym_lt wf ht
          refine addAt_grows h0 h1 htl (hfst t ?_)
          obtain ⟨i, hi, ht', rfl⟩ := (mem_cfg_MT s2 t).mpr ⟨hM, ht⟩
          exact .rule (mem_cfg.mpr (Or.inr ⟨i, t, hi, ht', rfl, rfl⟩)) (.tok htl)
        have hfix := (Grows.fold_fix hgr hF hfix).2.2
        rcases hb with (⟨h, _⟩ | ⟨_, ht⟩ | ⟨h, _⟩) | ⟨h, _⟩
        · exact absurd h hT
        · have := (find_addAt hF.1 h1 false (e := t) (by have := subsym_lt wf ht; unfold Gram.setSize; omega) s1 t).mpr
            (Or.inr ⟨rfl, rfl⟩)
          rw [hfix t ht] at this; exact this
        · rw [hNT] at h; cases h
        · rw [hnl hNT] at h; cases h
      · simp only [hM, if_false, Bool.false_eq_true] at hfix
        have hbase : Base g F s2 t → setFind (F.getD s2 []) t = true := by
          rintro (⟨h, _⟩ | ⟨h, _⟩ | ⟨_, h⟩)
          · exact absurd h hT
          · exact absurd h hM
          · exact h
        by_cases he : s1 = s2
        · subst he
          simp only [beq_self_eq_true, if_true] at hfix
          rcases hb with hb | ⟨hl, hb⟩
          · exact hbase hb
          · simp only [hl, Bool.true_eq_false, beq_iff_eq, if_false] at hfix
            exact ih hlt' (hfst' hl) hfix t hb
        · simp only [beq_iff_eq, he, if_false] at hfix
          have h2 : s2 < g.nsym := hlt s2 (by simp)
          have hu : Grows (FstInv g) bits (fun F => unionAt F s1 (F.1.getD s2 [])) := by
            intro F p ⟨hF, hs⟩
            refine ⟨⟨unionAt_fam hF h1 p _, ?_⟩, unionAt_cases hF h1 p _⟩
            intro A t h
            rcases (find_unionAt hF h1 p (hF.get h2) A t).mp h with h' | ⟨hA, h'⟩
            · exact hs A t h'
            · have := (hs s2 t h').2
              rw [hA]
              exact ⟨h0, hfst t (by simpa using this.append_left rest)⟩
          have key : unionAt (F, false) s1 (F.getD s2 []) = (F, false) ∧
              (lam.getD s2 false = true → (firstScan g lam s1 rest (F, false)).2 = false) := by
            by_cases hl : lam.getD s2 false = true
            · simp only [hl, Bool.true_eq_false, if_false] at hfix
              have := Grows.comp_fix hu (firstScan_grows wf hlam h0 h1 rest hlt' (hfst' hl)) hF hfix
              exact ⟨this.2.1, fun _ => by rw [this.2.2]⟩
            · simp only [Bool.eq_false_iff.mpr hl, if_true] at hfix
              exact ⟨(hu.flag hF hfix).1, fun h => absurd h hl⟩
          rcases hb with hb | ⟨hl, hb⟩
          · have := (find_unionAt hF.1 h1 false (hF.1.get h2) s1 t).mpr (Or.inr ⟨rfl, hbase hb⟩)
            rw [key.1] at this; exact this
          · exact ih hlt' (hfst' hl) (key.2 hl) t hb

theorem findFirst_spec (wf : g.WF) (hn : g.rules.length < 2 ^ 32) {lam : List Bool}
    (hlam : ∀ X, lam.getD X false = true ↔ Null g.cfg X) {fuel : Nat} (hf : g.nsym * g.setSize < fuel) :
    ∃ F, findFirst g lam fuel = some F ∧ Fam g.nsym g.setSize F ∧
      (∀ X t, setFind (F.getD X []) t = true ↔ g.nlow ≤ X ∧ Fst g.cfg [X] t) ∧
      ∀ β t, Begins g lam F β t ↔ Fst g.cfg β t := by
  have hlt : ∀ rp ∈ g.ruleList, g.nlow ≤ rp.lhs ∧ rp.lhs < g.nsym ∧ (∀ X ∈ rp.rhs, X < g.nsym) ∧
      ∀ t, Fst g.cfg rp.rhs t → Fst g.cfg [rp.lhs] t := by
    intro rp hrp
    have hr := (mem_ruleList hn rp).mp hrp
    exact ⟨(wf.lhs rp hr).1, (wf.lhs rp hr).2, wf.rhs rp hr, fun t ht => .rule (mem_cfg.mpr (Or.inl ⟨rp, hr, rfl, rfl⟩)) ht⟩
  have hgr : ∀ rp ∈ g.ruleList, Grows (FstInv g) bits (fun F => firstScan g lam rp.lhs rp.rhs F) := by
    intro rp hrp
    obtain ⟨h0, h1, h2, h3⟩ := hlt rp hrp
    exact firstScan_grows wf hlam h0 h1 _ h2 h3
  have hstep := Grows.fold (st := fun F rp => firstScan g lam rp.lhs rp.rhs F) g.ruleList hgr
  have hi : FstInv g (List.replicate g.nsym (setNew g.setSize)) := by
    refine ⟨fam_new _ _, ?_⟩
    intro A t h
    rw [find_new] at h; cases h
  obtain ⟨F, h1, h2, h3⟩ := doWhile_spec hstep (N := g.nsym * g.setSize) (fun s hs => bits_le hs.1) fuel _ hi (by omega)
  have hfix := (Grows.fold_fix hgr h2 (p := false) (by rw [h3])).2.2
  have hclosed : ∀ r ∈ g.rules, ∀ t, Begins g lam F r.rhs t → setFind (F.getD r.lhs []) t = true := by
    intro r hr
    have hr' := (mem_ruleList hn r).mpr hr
    obtain ⟨h0, h1, h5, h6⟩ := hlt r hr'
    refine firstScan_fix wf hlam h0 h1 h2 _ h5 h6 ?_
    rw [hfix r hr']
  have hcomp : ∀ β t, Fst g.cfg β t → Begins g lam F β t := by
    intro β t h
    induction h with
    | tok h => exact Or.inl (Or.inl ⟨by simpa [Gram.isTerm, Gram.cfg] using h, rfl⟩)
    | skip hX _ ih => exact Or.inr ⟨(hlam _).mpr hX, ih⟩
    | @rule A t α β hr _ ih =>
      left
      rcases mem_cfg.mp hr with ⟨r, hr', rfl, rfl⟩ | ⟨i, t', hi, ht, rfl, rfl⟩
      · right; right
        exact ⟨by simpa [Gram.isNT] using (wf.lhs r hr').1, hclosed r hr' t ih⟩
      · right; left
        obtain ⟨hM, hm⟩ := (mem_cfg_MT (g.nterm + i) t').mp ⟨i, hi, ht, rfl⟩
        refine ⟨hM, ?_⟩
        have htl := subsym_lt wf hm
        rcases ih with (⟨_, rfl⟩ | ⟨h, _⟩ | ⟨h, _⟩) | ⟨_, h⟩
        · exact hm
        · simp [Gram.isMT] at h; omega
        · have h' : g.nlow ≤ t' := by simpa [Gram.isNT] using h
          unfold Gram.nlow at h'; omega
        · exact h.elim
  have hsound : ∀ β t, Begins g lam F β t → Fst g.cfg β t := by
    intro β
    induction β with
    | nil => intro t h; exact h.elim
    | cons X β ih =>
      rintro t ((⟨h, rfl⟩ | ⟨h, h'⟩ | ⟨_, h⟩) | ⟨h, h'⟩)
      · exact .tok (by simpa [Gram.isTerm, Gram.cfg] using h)
      · obtain ⟨i, hi, ht, rfl⟩ := (mem_cfg_MT X t).mpr ⟨h, h'⟩
        exact .rule (mem_cfg.mpr (Or.inr ⟨i, t, hi, ht, rfl, rfl⟩)) (.tok (subsym_lt wf h'))
      · simpa using ((h2.2 X t h).2).append_left β
      · exact .skip ((hlam X).mp h) (ih t h')
  refine ⟨F, h1, h2.1, ?_, fun β t => ⟨hsound β t, hcomp β t⟩⟩
  intro X t
  refine ⟨h2.2 X t, ?_⟩
  rintro ⟨hX, h⟩
  rcases hcomp _ _ h with (⟨h, _⟩ | ⟨h, _⟩ | ⟨_, h⟩) | ⟨_, h⟩
  · simp [Gram.isTerm] at h; simp [Gram.nlow] at hX; omega
  · simp [Gram.isMT] at h; omega
  · exact h
  · exact h.elim

end Verif.Lemon
