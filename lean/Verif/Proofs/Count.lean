import Verif.Proofs.Parser
/-
Counting conflicts.
-/
set_option autoImplicit false
namespace Verif.Byacc
open Spec

theorem countP_index {α : Type} (p : α → Bool) (l : List α) :
    l.countP p = (List.range l.length).countP (fun i => (l[i]?).any p) := by
  induction l using List.reverseRecOn with
  | nil => rfl
  | append_singleton l x ih =>
    rw [List.countP_append, List.length_append, List.length_singleton, List.range_succ, List.countP_append, ih]
    congr 1
    · apply List.countP_congr
      intro i hi
      rw [List.mem_range] at hi
      rw [List.getElem?_append_left hi]
    · simp [List.countP_cons]

theorem countP_or {α : Type} (p q r : α → Bool) (l : List α) (h : ∀ x ∈ l, r x = (p x || q x))
    (hd : ∀ x ∈ l, ¬ (p x = true ∧ q x = true)) : l.countP r = l.countP p + l.countP q := by
  induction l with
  | nil => rfl
  | cons x l ih =>
    rw [List.countP_cons, List.countP_cons, List.countP_cons, ih (fun y hy => h y (by simp [hy])) (fun y hy => hd y (by simp [hy]))]
    have h1 := h x (by simp)
    have h2 := hd x (by simp)
    rw [h1]
    generalize p x = a at *
    generalize q x = b at *
    cases a <;> cases b <;> simp at h2 ⊢ <;> omega

theorem conf_disjoint {lemon acc : Bool} {P : List Action} {y : Action} : ¬ (SRConf acc P y ∧ RRConf lemon acc P y) := by
  rintro ⟨⟨-, h | ⟨s, hs, hc, hn, -⟩⟩, ha, z, hz, -⟩
  · rw [ha] at h; cases h
  · exact hn z hz.1.1 hz.1.2.1 (hz.1.2.2 s hs hc)

open Classical in
theorem GroupRes.marks {lemon acc : Bool} {L V : List Action} (h : GroupRes lemon acc L V) :
    V.countP (fun x => x.suppressed == 1) = srCount acc L + rrCount lemon acc L := by
  have hl : V.length = L.length := by rw [← h.same]; simp
  rw [countP_index, hl]
  unfold srCount rrCount
  have hi : ∀ i, i < L.length → ∃ y, V[i]? = some y ∧ L[i]? = some (y.supp 0) := by
    intro i hi
    refine ⟨V[i], List.getElem?_eq_getElem (by omega), ?_⟩
    conv_lhs => rw [← h.same]
    rw [List.getElem?_map, List.getElem?_eq_getElem (by omega)]; rfl
  apply countP_or
  · intro i hr
    rw [List.mem_range] at hr
    obtain ⟨y, h1, h2⟩ := hi i hr
    have hc := h.conf i y h1
    rw [h1, Bool.eq_iff_iff, Bool.or_eq_true]
    simp only [Option.any_some, beq_iff_eq]
    refine Iff.trans hc ?_
    constructor
    · rintro (hs | hs)
      · exact .inl (@decide_eq_true _ (_) ⟨_, h2, hs⟩)
      · exact .inr (@decide_eq_true _ (_) ⟨_, h2, hs⟩)
    · rintro (hs | hs)
      · obtain ⟨z, hz, hz'⟩ := @of_decide_eq_true _ (_) hs
        rw [h2] at hz; cases hz; exact .inl hz'
      · obtain ⟨z, hz, hz'⟩ := @of_decide_eq_true _ (_) hs
        rw [h2] at hz; cases hz; exact .inr hz'
  · intro i hr
    rw [List.mem_range] at hr
    obtain ⟨y, h1, h2⟩ := hi i hr
    rintro ⟨hs, hs'⟩
    obtain ⟨z, hz, hz'⟩ := @of_decide_eq_true _ (_) hs
    obtain ⟨w, hw, hw'⟩ := @of_decide_eq_true _ (_) hs'
    rw [h2] at hz hw; cases hz; cases hw
    exact conf_disjoint ⟨hz', hw'⟩

/-- splitting a count by token -/
theorem countP_competitors (p : Action → Bool) (N : Nat) (row : List Action) (h : ∀ x ∈ row, x.symbol < N) :
    row.countP p = ((List.range N).map (fun X => (competitors row X).countP p)).sum := by
  induction row with
  | nil =>
    symm
    rw [List.countP_nil, List.sum_eq_zero_iff_forall_eq_nat]
    intro x hx
    obtain ⟨X, -, rfl⟩ := List.mem_map.mp hx
    rfl
  | cons y row ih =>
    rw [List.countP_cons, ih (fun x hx => h x (by simp [hx]))]
    symm
    apply sum_range_update _ _ _ (h y (by simp))
    · intro Y hY
      unfold competitors
      rw [List.filter_cons_of_neg (by simpa using fun h => hY h.symm)]
    · unfold competitors
      rw [List.filter_cons_of_pos (by simp), List.countP_cons]

/-- without precedences every competitor but the first is a conflict -/
theorem no_prec_conf {lemon acc : Bool} {P : List Action} {y : Action} (hne : P ≠ []) (hP : (P ++ [y]).Pairwise ActLt)
    {X : Nat} (hX : ∀ x ∈ P ++ [y], x.symbol = X) (h0 : ∀ x ∈ P ++ [y], x.prec ≤ 0) :
    SRConf acc P y ∨ RRConf lemon acc P y := by
  cases acc with
  | true => exact .inl ⟨hne, .inl rfl⟩
  | false =>
    by_cases hs : ∃ s ∈ P, s.code = .SHIFT
    · obtain ⟨s, hs, hc⟩ := hs
      have hs0 := h0 s (by simp [hs])
      refine .inl ⟨hne, .inr ⟨s, hs, hc, ?_, ?_⟩⟩
      · rintro r - - ⟨hp, -⟩
        unfold HasPrec at hp; omega
      · rintro ⟨hp, -⟩
        unfold HasPrec at hp; omega
    · right
      refine ⟨rfl, ?_⟩
      cases P with
      | nil => exact absurd rfl hne
      | cons z P =>
        have hred : ∀ x ∈ z :: P, x.code = .REDUCE := by
          intro x hx
          cases hc : x.code with
          | REDUCE => rfl
          | SHIFT => exact absurd ⟨x, hx, hc⟩ hs
        have hc : Cands (z :: P) z := by
          refine ⟨by simp, hred z (by simp), ?_⟩
          intro s hs' hc'
          exact absurd ⟨s, hs', hc'⟩ hs
        have hmin : ∀ w ∈ z :: P, z.number ≤ w.number := by
          intro w hw
          rcases List.mem_cons.mp hw with rfl | hw
          · exact Nat.le_refl _
          · rw [List.cons_append, List.pairwise_cons] at hP
            have h1 := hP.1 w (by simp [hw])
            have hz := hX z (by simp)
            have hw' := hX w (by simp [hw])
            unfold ActLt at h1
            rcases h1 with h1 | ⟨-, ⟨h1, -⟩ | ⟨-, -, h1⟩⟩
            · omega
            · rw [hred z (by simp)] at h1; cases h1
            · omega
        have hf : IsFirst (Cands (z :: P)) z := ⟨hc, fun w hw => hmin w hw.1⟩
        have hz0 := h0 z (by simp)
        refine ⟨z, ⟨hc, fun _ => hf, ?_⟩, ?_⟩
        · intro hn
          refine absurd (.inr ⟨z, hf, ?_⟩) hn
          unfold HasPrec; omega
        · rintro ⟨-, hp, -⟩
          unfold HasPrec at hp; omega

theorem no_prec_count {lemon acc : Bool} {L : List Action} (hL : L.Pairwise ActLt)
    {X : Nat} (hX : ∀ x ∈ L, x.symbol = X) (h0 : ∀ x ∈ L, x.prec ≤ 0) :
    srCount acc L + rrCount lemon acc L = L.length - 1 := by
  induction L using List.reverseRecOn with
  | nil => simp [srCount, rrCount]
  | append_singleton P y ih =>
    rw [srCount_snoc, rrCount_snoc]
    have ih' := ih (List.pairwise_append.mp hL).1 (fun x hx => hX x (by simp [hx])) (fun x hx => h0 x (by simp [hx]))
    by_cases hne : P = []
    · subst hne
      have n1 : ¬ SRConf acc [] y := fun h => h.1 rfl
      have n2 : ¬ RRConf lemon acc [] y := by
        rintro ⟨-, z, hz, -⟩; have := hz.1.1; simp at this
      rw [if_neg n1, if_neg n2]
      simpa using ih'
    · have hlen : 0 < P.length := List.length_pos_iff.mpr hne
      have hd := conf_disjoint (lemon := lemon) (acc := acc) (P := P) (y := y)
      rw [List.length_append, List.length_singleton]
      rcases no_prec_conf (lemon := lemon) (acc := acc) hne hL hX h0 with h | h
      · rw [if_pos h, if_neg (fun h' => hd ⟨h, h'⟩)]; omega
      · rw [if_pos h, if_neg (fun h' => hd ⟨h', h⟩)]; omega

end Verif.Byacc
