import Verif.Proofs.LemonElide
/-
`CompressTables`, third pass: when it ends.
-/
set_option autoImplicit false
namespace Verif.Lemon

variable {g : Gram}

theorem acc_irrefl {α : Type} {r : α → α → Prop} {x : α} (h : Acc r x) : ¬ r x x := by
  induction h with
  | intro x _ ih => intro hx; exact ih x hx hx

/-- successors of `X` in the third pass, direct or not -/
def After (g : Gram) (l0 : List Act) (Z Y : Nat) : Prop := Relation.TransGen (UnitStep g l0) Y Z

theorem lands_acc (wf : g.WF) {on : Nat → List (AType × Nat)} {auto : Nat → Option Nat} {l0 : List Act} (h0 : PreElide g on auto l0)
    {X : Nat} {e : AType × Nat} (h : Lands g on auto X e) (hX : g.nlow ≤ X) (hX' : X < g.nsym) : Acc (After g l0) X := by
  have base : Acc (fun Z Y => UnitStep g l0 Y Z) X := by
    have step : ∀ {X Z : Nat}, g.nlow ≤ X → X < g.nsym → UnitStep g l0 X Z →
        ∃ q r, on X = [(.SHIFT, q)] ∧ auto q = some r ∧ g.unitRule r ∧ Z = (g.rule r).lhs := by
      intro X Z hX hX' hs
      obtain ⟨a, ha, rfl, he, rfl⟩ := hs
      have ham : a ∈ l0.filter fun b => b.sp == a.sp := List.mem_filter.mpr ⟨ha, by simp⟩
      rcases h0 a.sp hX (by omega) with ⟨e, _⟩ | ⟨a0, e, e'⟩
      · rw [e] at ham; cases ham
      · rw [e, List.mem_singleton] at ham
        subst ham
        have hty := elidable_type he
        rcases e' with ⟨e1, e2⟩ | ⟨q, e1, e2⟩
        · simp only [Prod.mk.injEq] at e2; rw [e2.1] at hty; cases hty
        · cases hq : auto q with
          | none =>
            have : srPair auto (.SHIFT, q) = (.SHIFT, q) := by simp [srPair, hq]
            rw [this] at e2
            simp only [Prod.mk.injEq] at e2; rw [e2.1] at hty; cases hty
          | some r =>
            have : srPair auto (.SHIFT, q) = (.SHIFTREDUCE, r) := by simp [srPair, hq]
            rw [this] at e2
            have hu := (unitRule_elidable e2 (index_nt hX)).mp he
            have hx : a.x = r := by simp only [Prod.mk.injEq] at e2; exact e2.2
            exact ⟨q, r, e1, hq, hu, by rw [hx]⟩
    induction h with
    | accept h1 =>
      refine ⟨_, fun Z hZ => ?_⟩
      obtain ⟨q, r, k1, _⟩ := step hX hX' hZ
      rw [h1] at k1; cases k1
    | shift h1 h2 =>
      refine ⟨_, fun Z hZ => ?_⟩
      obtain ⟨q, r, k1, k2, _⟩ := step hX hX' hZ
      rw [h1] at k1; cases k1
      rw [h2] at k2; cases k2
    | reduce h1 h2 h3 =>
      refine ⟨_, fun Z hZ => ?_⟩
      obtain ⟨q, r, k1, k2, k3, _⟩ := step hX hX' hZ
      rw [h1] at k1; cases k1
      rw [h2] at k2; cases k2
      exact absurd k3 h3
    | @unit X q r e h1 h2 h3 h4 ih =>
      have hr : r < g.rules.length := by
        have := h3.1
        unfold Gram.rule at this
        rw [List.getD_eq_getElem?_getD] at this
        by_contra hc
        rw [List.getElem?_eq_none (by omega)] at this
        simp at this
      have hl : g.nlow ≤ (g.rule r).lhs ∧ (g.rule r).lhs < g.nsym := by
        unfold Gram.rule
        rw [List.getD_eq_getElem?_getD, List.getElem?_eq_getElem hr]
        exact wf.lhs _ (List.getElem_mem hr)
      refine ⟨_, fun Z hZ => ?_⟩
      obtain ⟨q', r', k1, k2, k3, k4⟩ := step hX hX' hZ
      rw [h1] at k1; cases k1
      rw [h2] at k2; cases k2
      rw [k4]
      exact ih hl.1 hl.2
  have h2 := base.transGen
  have he : ∀ Z Y, After g l0 Z Y ↔ Relation.TransGen (fun Z Y => UnitStep g l0 Y Z) Z Y := by
    intro Z Y
    unfold After
    rw [← Relation.transGen_swap]
  clear base h
  induction h2 with
  | intro X _ ih =>
    refine ⟨_, fun Z hZ => ih Z ((he Z X).mp hZ) ?_ ?_⟩
    · have : UnitReach g l0 X Z := Relation.TransGen.to_reflTransGen hZ
      exact unitReach_nt wf this hX
    · obtain ⟨Y, _, a, _, _, k, rfl⟩ := Relation.TransGen.tail'_iff.mp hZ
      exact elidable_lhs_lt wf k

/-- The third pass at one position ends, given that the steps from any nonterminal end and that
the symbols stepped to have actions. -/
theorem elideAt_ends (wf : g.WF) (l0 : List Act) (i : Nat) (hcl : ∀ X Y, g.nlow ≤ X → UnitStep g l0 X Y → ∃ b ∈ l0, b.sp = Y)
    (hacc : ∀ a ∈ l0, g.nlow ≤ a.sp → Acc (After g l0) a.sp) (hlow : ∀ a ∈ l0, g.elidable a = true → g.nlow ≤ a.sp) :
    ∀ Y, Acc (After g l0) Y → ∀ l a b, List.Forall₂ (Elided g l0) l0 l → l[i]? = some a → b ∈ l0 → b.sp = Y →
      (g.nlow ≤ a.sp → g.nlow ≤ Y) → UnitReach g l0 a.sp Y → (a.type, a.x) = (b.type, b.x) →
      ∃ N, ∀ fuel, N ≤ fuel → ∃ l', elideAt g fuel l i = some l' := by
  intro Y hY
  induction hY with
  | intro Y hYacc ih =>
    intro l ap b hl hi hb hbY hnt hreach hc
    by_cases he : g.elidable ap = true
    case neg =>
      refine ⟨0, fun fuel _ => ⟨l, ?_⟩⟩
      rw [elideAt, hi]
      simp only
      rw [if_neg (by simpa using he)]
    case pos =>
      have hil : i < l.length := (List.getElem?_eq_some_iff.mp hi).1
      have hil0 : i < l0.length := by rw [hl.length_eq]; exact hil
      have hgi : l[i] = ap := (List.getElem?_eq_some_iff.mp hi).2
      have hEi : Elided g l0 l0[i] ap := by rw [← hgi]; exact (List.forall₂_iff_get.mp hl).2 i hil0 hil
      -- the entry is on a nonterminal
      have happ : g.nlow ≤ ap.sp := by
        rw [hEi.1]
        rcases hEi.2 with e | ⟨e, _⟩
        · exact hlow _ (List.getElem_mem hil0) (elidable_congr e (by rw [← hEi.1]; exact elidable_index he) he)
        · exact hlow _ (List.getElem_mem hil0) e
      have hYn := hnt happ
      have hbe : g.elidable b = true := elidable_congr hc (index_nt (by rw [hbY]; exact hYn)) he
      simp only [Prod.mk.injEq] at hc
      have hstep : UnitStep g l0 Y (g.rule ap.x).lhs := ⟨b, hb, hbY, hbe, by rw [hc.2]⟩
      obtain ⟨c, hcm, hcs⟩ := hcl _ _ hYn hstep
      have haft : Relation.TransGen (UnitStep g l0) ap.sp (g.rule ap.x).lhs := Relation.TransGen.tail' hreach hstep
      have hne : (g.rule ap.x).lhs ≠ ap.sp := by
        intro hh
        rw [hh] at haft
        exact acc_irrefl (hacc l0[i] (List.getElem_mem hil0) (by rw [← hEi.1]; exact happ)) (by rw [← hEi.1]; exact haft)
      obtain ⟨k, hk0, hkc⟩ := List.getElem_of_mem hcm
      have hkl : k < l.length := by rw [← hl.length_eq]; exact hk0
      have hEk : Elided g l0 l0[k] l[k] := (List.forall₂_iff_get.mp hl).2 k hk0 hkl
      have hsome : ∃ e, (l.zipIdx.find? fun e => e.2 != i && e.1.sp == (g.rule ap.x).lhs) = some e := by
        rw [← Option.isSome_iff_exists, List.find?_isSome]
        refine ⟨(l[k], k), List.mem_zipIdx_iff_getElem?.mpr (List.getElem?_eq_getElem hkl), ?_⟩
        have hsk : l[k].sp = (g.rule ap.x).lhs := by rw [hEk.1, hkc, hcs]
        simp only [Bool.and_eq_true, bne_iff_ne, ne_eq, beq_iff_eq]
        refine ⟨?_, hsk⟩
        intro hki
        subst hki
        rw [hgi] at hsk
        exact hne hsk.symm
      obtain ⟨⟨ap2, k2⟩, hf⟩ := hsome
      have hm := List.mem_of_find?_eq_some hf
      have hp := List.find?_some hf
      simp only [Bool.and_eq_true, bne_iff_ne, ne_eq, beq_iff_eq] at hp
      have hk2 : l[k2]? = some ap2 := (List.mem_zipIdx_iff_getElem?.mp hm)
      have hk2l : k2 < l.length := (List.getElem?_eq_some_iff.mp hk2).1
      have hk2l0 : k2 < l0.length := by rw [hl.length_eq]; exact hk2l
      have hgk : l[k2] = ap2 := (List.getElem?_eq_some_iff.mp hk2).2
      have hEk2 : Elided g l0 l0[k2] ap2 := by rw [← hgk]; exact (List.forall₂_iff_get.mp hl).2 k2 hk2l0 hk2l
      have hk3 : ∃ b ∈ l0, UnitReach g l0 ap2.sp b.sp ∧ (ap2.type, ap2.x) = (b.type, b.x) := by
        obtain ⟨e1, e2 | ⟨e2, b, hb, e3, e4⟩⟩ := hEk2
        · exact ⟨l0[k2], List.getElem_mem hk2l0, by rw [e1]; exact .refl, e2⟩
        · exact ⟨b, hb, .head ⟨l0[k2], List.getElem_mem hk2l0, e1.symm, e2, rfl⟩ e3, e4⟩
      obtain ⟨b2, hb2, hb3, hb4⟩ := hk3
      rw [hp.2] at hb3
      -- the new list
      have hnew : Elided g l0 l0[i] { ap with type := ap2.type, x := ap2.x } := by
        obtain ⟨e1, e2⟩ := hEi
        refine ⟨e1, .inr ?_⟩
        rcases e2 with e2 | ⟨e2, c, hc, e3, e4⟩
        · have h0 : g.elidable l0[i] = true := elidable_congr e2 (by rw [← e1]; exact elidable_index he) he
          refine ⟨h0, b2, hb2, ?_, hb4⟩
          simp only [Prod.mk.injEq] at e2
          rw [← e2.2]
          exact hb3
        · refine ⟨e2, b2, hb2, ?_, hb4⟩
          have hcnt := unitReach_nt wf e3 (elidable_lhs wf e2)
          have hce : g.elidable c = true := elidable_congr e4 (index_nt hcnt) he
          simp only [Prod.mk.injEq] at e4
          have : UnitReach g l0 (g.rule l0[i].x).lhs (g.rule ap.x).lhs := .tail e3 ⟨c, hc, rfl, hce, by rw [e4.2]⟩
          exact this.trans hb3
      have hl2 : List.Forall₂ (Elided g l0) l0 (l.set i { ap with type := ap2.type, x := ap2.x }) := by
        rw [List.forall₂_iff_get]
        refine ⟨by rw [List.length_set]; exact hl.length_eq, ?_⟩
        intro n h1 h2
        simp only [List.get_eq_getElem, List.getElem_set]
        split_ifs with hn
        · subst hn; exact hnew
        · exact (List.forall₂_iff_get.mp hl).2 n h1 (by simpa using h2)
      have hYb2 : Relation.TransGen (UnitStep g l0) Y b2.sp := Relation.TransGen.head' hstep hb3
      obtain ⟨N, hN⟩ := ih b2.sp hYb2 _ { ap with type := ap2.type, x := ap2.x } b2 hl2
        (by rw [List.getElem?_set_self hil]) hb2 rfl
        (fun _ => unitReach_nt wf hYb2.to_reflTransGen hYn) (hreach.trans hYb2.to_reflTransGen) hb4
      refine ⟨N + 1, fun fuel hfuel => ?_⟩
      match fuel, hfuel with
      | fuel + 1, hfuel =>
        obtain ⟨l', h'⟩ := hN fuel (by omega)
        refine ⟨l', ?_⟩
        rw [elideAt, hi]
        simp only
        rw [if_pos he, hf]
        exact h'

/-- more steps do no harm -/
theorem elideAt_mono (i : Nat) : ∀ (fuel : Nat) (l l' : List Act), elideAt g fuel l i = some l' → ∀ fuel', fuel ≤ fuel' → elideAt g fuel' l i = some l' := by
  intro fuel
  induction fuel with
  | zero =>
    intro l l' h fuel' _
    rw [elideAt] at h ⊢
    cases hi : l[i]? with
    | none => rw [hi] at h; exact h
    | some ap =>
      rw [hi] at h
      simp only at h ⊢
      split_ifs at h ⊢ with he
      exact h
  | succ fuel ih =>
    intro l l' h fuel' hf
    match fuel', hf with
    | fuel' + 1, hf =>
      rw [elideAt] at h ⊢
      cases hi : l[i]? with
      | none => rw [hi] at h; exact h
      | some ap =>
        rw [hi] at h
        simp only at h ⊢
        split_ifs at h ⊢ with he
        · split at h
          · cases h
          · exact ih _ _ h _ (by omega)
        · exact h

theorem elideAll_mono {fuel : Nat} {l0 l' : List Act} (h : elideAll g fuel l0 = some l') {fuel' : Nat} (hf : fuel ≤ fuel') :
    elideAll g fuel' l0 = some l' := by
  unfold elideAll at h ⊢
  generalize List.range l0.length = R at h ⊢
  induction R generalizing l0 with
  | nil => exact h
  | cons i R ih =>
    rw [List.foldlM_cons] at h ⊢
    obtain ⟨l1, h1, h2⟩ := Option.bind_eq_some_iff.mp h
    rw [elideAt_mono i fuel _ _ h1 fuel' hf]
    exact ih h2

theorem elideAll_ends (wf : g.WF) (l0 : List Act) (hcl : ∀ X Y, g.nlow ≤ X → UnitStep g l0 X Y → ∃ b ∈ l0, b.sp = Y)
    (hacc : ∀ a ∈ l0, g.nlow ≤ a.sp → Acc (After g l0) a.sp) (hlow : ∀ a ∈ l0, g.elidable a = true → g.nlow ≤ a.sp) :
    ∃ N l', elideAll g N l0 = some l' := by
  unfold elideAll
  have key : ∀ n, n ≤ l0.length → ∃ N l, (List.range n).foldlM (elideAt g N) l0 = some l ∧ List.Forall₂ (Elided g l0) l0 l ∧
      ∀ k, n ≤ k → l[k]? = l0[k]? := by
    intro n
    induction n with
    | zero => intro _; exact ⟨0, l0, rfl, elided_refl l0 l0, fun _ _ => rfl⟩
    | succ n ih =>
      intro hn
      obtain ⟨N, l, h1, h2, h3⟩ := ih (by omega)
      have hi : l[n]? = some l0[n] := by rw [h3 n (Nat.le_refl _), List.getElem?_eq_getElem]
      have hends : ∃ N', ∀ fuel, N' ≤ fuel → ∃ l', elideAt g fuel l n = some l' := by
        by_cases hlo : g.nlow ≤ l0[n].sp
        · exact elideAt_ends wf l0 n hcl hacc hlow l0[n].sp (hacc _ (List.getElem_mem _) hlo) l l0[n] l0[n] h2 hi (List.getElem_mem _) rfl
            (fun h => h) .refl rfl
        · refine ⟨0, fun fuel _ => ⟨l, ?_⟩⟩
          rw [elideAt, hi]
          simp only
          rw [if_neg]
          intro he
          exact hlo (hlow _ (List.getElem_mem _) he)
      obtain ⟨N', hN'⟩ := hends
      obtain ⟨l', hl'⟩ := hN' (max N N') (by omega)
      obtain ⟨r1, r2, _⟩ := elideAt_spec wf l0 n _ _ _ hl' h2
      refine ⟨max N N', l', ?_, r1, ?_⟩
      · rw [List.range_succ, List.foldlM_append]
        have hmono : ∀ (R : List Nat) (la lb : List Act), R.foldlM (elideAt g N) la = some lb →
            R.foldlM (elideAt g (max N N')) la = some lb := by
          intro R
          induction R with
          | nil => intro la lb h; exact h
          | cons i R ihR =>
            intro la lb h
            rw [List.foldlM_cons] at h ⊢
            obtain ⟨l1, k1, k2⟩ := Option.bind_eq_some_iff.mp h
            rw [elideAt_mono i N _ _ k1 (max N N') (by omega)]
            exact ihR _ _ k2
        rw [hmono _ _ _ h1]
        simp [hl']
      · intro k hk
        rw [r2 k (by omega)]
        exact h3 k (by omega)
  obtain ⟨N, l, h, _⟩ := key _ (Nat.le_refl _)
  exact ⟨N, l, h⟩

end Verif.Lemon
