import Verif.Proofs.ByaccMeaningOut
/-
Auxiliary facts: what the reader leaves for the construction of the tables.
-/
set_option autoImplicit false
namespace Verif.Byacc.Rd
open Spec.YText
open Spec (Elem)
open Classical

/-! Symbols of rules -/

theorem hidden_uses (pos : Sym → Nat) (toks : List RTok) : ∀ (l : Sym) (pend : Bool) (k : Nat) (s : RdSt), s.gensym = k → s.lastAct = pend →
    ∀ j, k < j → j ≤ (rdRun pos s toks).gensym → ∃ l', Use.hidden j l' ∈ ruleUses l pend k toks := by
  induction toks with
  | nil => intro l pend k s h1 _ j h3 h4; rw [rdRun, h1] at h4; omega
  | cons x ts ih =>
    intro l pend k s h1 h2 j h3 h4
    cases x with
    | sym x =>
      rw [rdRun] at h4
      rw [ruleUses]
      cases pend with
      | true =>
        rw [if_pos rfl]
        have e : (addSymbol s (pos x)).gensym = k + 1 := by simp [addSymbol, h2, insertEmptyRule, h1]
        by_cases hj : j = k + 1
        · subst hj; exact ⟨l, by simp⟩
        · obtain ⟨l', hl⟩ := ih l false (k + 1) _ e rfl j (by omega) h4
          exact ⟨l', by simp [hl]⟩
      | false =>
        rw [if_neg (by simp)]
        have e : (addSymbol s (pos x)).gensym = k := by simp [addSymbol, h2, h1]
        obtain ⟨l', hl⟩ := ih l false k _ e rfl j h3 h4
        exact ⟨l', by simp [hl]⟩
    | action b ps =>
      rw [rdRun] at h4
      rw [ruleUses]
      cases pend with
      | true =>
        rw [if_pos rfl]
        have e : (copyAction s).gensym = k + 1 := by simp [copyAction, h2, insertEmptyRule, h1]
        by_cases hj : j = k + 1
        · subst hj; exact ⟨l, by simp⟩
        · obtain ⟨l', hl⟩ := ih l true (k + 1) _ e rfl j (by omega) h4
          exact ⟨l', by simp [hl]⟩
      | false =>
        rw [if_neg (by simp)]
        have e : (copyAction s).gensym = k := by simp [copyAction, h2, h1]
        exact ih l true k _ e rfl j h3 h4
    | prec x =>
      rw [rdRun] at h4
      have e1 : (markPrecAt s (pos x)).gensym = k := by unfold markPrecAt; split <;> exact h1
      have e2 : (markPrecAt s (pos x)).lastAct = pend := by unfold markPrecAt; split <;> exact h2
      obtain ⟨l', hl⟩ := ih l pend k _ e1 e2 j h3 h4
      exact ⟨l', by rw [ruleUses]; simp [hl]⟩
    | bar => exact ih l false k _ (by simpa [startRule, endRule] using h1) rfl j h3 h4
    | lhs y =>
      obtain ⟨l', hl⟩ := ih y false k (startRule (endRule s) (.user (pos y))) (by simpa [startRule, endRule] using h1) rfl j h3 h4
      exact ⟨l', by rw [ruleUses]; simp [hl]⟩

theorem alts_keys (N : List (List Nat)) (toks : List RTok) : ∀ (l : Sym) (a : List El) (pend : Bool) (k : Nat), l.key ∈ N →
    (∀ x, El.sym x ∈ a ∨ El.prec x ∈ a → x.key ∈ N) → (∀ u ∈ ruleUses l pend k toks, u.key ∈ N) →
    ∀ b ∈ altsFrom l a toks, b.lhs.key ∈ N ∧ ∀ x, El.sym x ∈ b.rhs ∨ El.prec x ∈ b.rhs → x.key ∈ N := by
  induction toks with
  | nil =>
    intro l a pend k h1 h2 _ b hb
    simp only [altsFrom, List.mem_singleton] at hb
    subst hb
    exact ⟨h1, h2⟩
  | cons x ts ih =>
    intro l a pend k h1 h2 h3 b hb
    cases x with
    | sym x =>
      rw [altsFrom] at hb
      have hx : x.key ∈ N := by
        refine h3 (.plain x) ?_
        rw [ruleUses]; split <;> simp
      have h2' : ∀ y, El.sym y ∈ a ++ [.sym x] ∨ El.prec y ∈ a ++ [.sym x] → y.key ∈ N := by
        intro y hy
        simp only [List.mem_append, List.mem_singleton, El.sym.injEq, reduceCtorEq, or_false] at hy
        rcases hy with (hy | rfl) | hy
        · exact h2 y (.inl hy)
        · exact hx
        · exact h2 y (.inr hy)
      cases pend with
      | true =>
        rw [ruleUses, if_pos rfl] at h3
        exact ih l _ false (k + 1) h1 h2' (fun u hu => h3 u (by simp [hu])) b hb
      | false =>
        rw [ruleUses, if_neg (by simp)] at h3
        exact ih l _ false k h1 h2' (fun u hu => h3 u (by simp [hu])) b hb
    | action c ps =>
      rw [altsFrom] at hb
      have h2' : ∀ y, El.sym y ∈ a ++ [.action c ps] ∨ El.prec y ∈ a ++ [.action c ps] → y.key ∈ N := by
        intro y hy
        refine h2 y ?_
        simpa using hy
      cases pend with
      | true =>
        rw [ruleUses, if_pos rfl] at h3
        exact ih l _ true (k + 1) h1 h2' (fun u hu => h3 u (by simp [hu])) b hb
      | false =>
        rw [ruleUses, if_neg (by simp)] at h3
        exact ih l _ true k h1 h2' h3 b hb
    | prec x =>
      rw [altsFrom] at hb
      rw [ruleUses] at h3
      have hx : x.key ∈ N := h3 (.plain x) (by simp)
      have h2' : ∀ y, El.sym y ∈ a ++ [.prec x] ∨ El.prec y ∈ a ++ [.prec x] → y.key ∈ N := by
        intro y hy
        simp only [List.mem_append, List.mem_singleton, El.prec.injEq, reduceCtorEq, or_false] at hy
        rcases hy with hy | hy | rfl
        · exact h2 y (.inl hy)
        · exact h2 y (.inr hy)
        · exact hx
      exact ih l _ pend k h1 h2' (fun u hu => h3 u (by simp [hu])) b hb
    | bar =>
      rw [altsFrom, List.mem_cons] at hb
      rw [ruleUses] at h3
      rcases hb with rfl | hb
      · exact ⟨h1, h2⟩
      · exact ih l [] false k h1 (by simp) h3 b hb
    | lhs y =>
      rw [altsFrom, List.mem_cons] at hb
      rw [ruleUses] at h3
      rcases hb with rfl | hb
      · exact ⟨h1, h2⟩
      · exact ih y [] false k (h3 (.lhs y) (by simp)) (by simp) (fun u hu => h3 u (by simp [hu])) b hb

/-- a symbol of the arrays stands for a symbol named -/
def RGood (us : List Use) (g : Nat) : RSym → Prop
  | .user i => ∃ m ∈ names us, i = (names us).idxOf m
  | .gen j => 1 ≤ j ∧ j ≤ g

theorem RGood.pos {us : List Use} {g : Nat} {y : RSym} (h : RGood us g y) : posOf (gensOf us g) y = (names us).idxOf (nameAt (names us) y) := by
  cases y with
  | user i =>
    obtain ⟨m, hm, rfl⟩ := h
    simp only [posOf, nameAt]
    rw [getD_idxOf _ _ hm]
  | gen j =>
    obtain ⟨h1, h2⟩ := h
    simp only [posOf, nameAt, gensOf, List.getD_eq_getElem?_getD]
    rw [List.getElem?_map, List.getElem?_range (by omega), Option.map_some, Option.getD_some]
    congr 2; omega

theorem RGood.mem {us : List Use} {g : Nat} {y : RSym} (h : RGood us g y) (hg : ∀ j, 1 ≤ j → j ≤ g → hiddenKey j ∈ names us) :
    nameAt (names us) y ∈ names us := by
  cases y with
  | user i =>
    obtain ⟨m, hm, rfl⟩ := h
    simp only [nameAt]
    rw [getD_idxOf _ _ hm]; exact hm
  | gen j => exact hg j h.1 h.2

theorem file_keys (F : File) : ∀ a ∈ F.alts, a.lhs.key ∈ names F.uses ∧ ∀ x, El.sym x ∈ a.rhs ∨ El.prec x ∈ a.rhs → x.key ∈ names F.uses := by
  have h : ∀ u ∈ F.uses, u.key ∈ names F.uses := fun u hu => (mem_names _ _).2 (.inr ⟨u, hu, rfl⟩)
  refine alts_keys (names F.uses) F.toks (.name F.first) [] false 0 ?_ (by simp) ?_
  · exact h (.lhs (.name F.first)) (by unfold File.uses; simp)
  · intro u hu
    exact h u (by unfold File.uses; simp [hu])

theorem file_hidden (F : File) : ∀ j, 1 ≤ j → j ≤ (fileRd F).gensym → hiddenKey j ∈ names F.uses ∧ (hiddenOf F.uses (hiddenKey j)).isSome := by
  intro j h1 h2
  obtain ⟨l, hl⟩ := hidden_uses (fun x => (names F.uses).idxOf x.key) F.toks (.name F.first) false 0
    (startRule rdInit (.user ((names F.uses).idxOf F.first))) rfl rfl j (by omega) h2
  have hm : Use.hidden j l ∈ F.uses := by unfold File.uses; simp [hl]
  refine ⟨(mem_names _ _).2 (.inr ⟨_, hm, rfl⟩), ?_⟩
  unfold hiddenOf
  rw [List.findSome?_isSome_iff]
  exact ⟨_, hm, by simp⟩

/-- the rules in the arrays -/
theorem file_rules (F : File) : ∃ done, HoldsRules (endRule (fileRd F)) done ∧ done.map (ruleAt (names F.uses)) = F.rules ∧
    ∀ r ∈ done, RGood F.uses (fileRd F).gensym r.lhs ∧ (∀ y ∈ r.rhs, RGood F.uses (fileRd F).gensym y) ∧
      ∀ n, r.prec = .ofSym n → ∃ m ∈ names F.uses, n = (names F.uses).idxOf m := by
  have hk := file_keys F
  have h0 : Reading [] 0 (.user ((names F.uses).idxOf (Sym.name F.first).key)) ([].map (encEl fun x => (names F.uses).idxOf x.key))
      (startRule rdInit (.user ((names F.uses).idxOf F.first))) :=
    Reading.start (done := []) (s := rdInit) rfl rfl rfl rfl _
  obtain ⟨done, Fn, e1, e2, e3⟩ := rdRun_read (fun x => (names F.uses).idxOf x.key) F.toks (.name F.first) [] [] [] 0 _
    ⟨⟨[], rfl, .nil⟩, rfl⟩ h0
  rw [List.nil_append] at Fn
  change Finished (F.alts.map _) done (fileRd F).gensym at Fn
  obtain ⟨blocks, b1, b2⟩ := Fn.out
  have hg := Fn.gens
  refine ⟨done, ⟨?_, ?_, ?_⟩, ?_, ?_⟩
  · rw [fileRd, e1]; simp
  · rw [fileRd, e2]; simp
  · rw [fileRd, e3]; simp
  · rw [b1] at hg ⊢
    refine blocks_rules (names F.uses) (fun x => (names F.uses).idxOf x.key) F.alts blocks 0 _ ?_ b2 hg
    intro a ha
    obtain ⟨k1, k2⟩ := hk a ha
    exact ⟨getD_idxOf _ _ k1, fun x hx => getD_idxOf _ _ (k2 x (.inl hx)), fun x hx => getD_idxOf _ _ (k2 x (.inr hx))⟩
  · have hgen : ∀ r ∈ done, ∀ j, r.lhs = .gen j → 1 ≤ j ∧ j ≤ (fileRd F).gensym := by
      intro r hr j hj
      have : j ∈ done.filterMap fun r => r.lhs.genNo := List.mem_filterMap.2 ⟨r, hr, by rw [hj]; rfl⟩
      rw [hg, List.mem_range'_1] at this
      omega
    intro r hr
    have hr' := hr
    rw [b1, List.mem_flatMap] at hr
    obtain ⟨b, hb, hr⟩ := hr
    obtain ⟨i, hi, rfl⟩ := List.getElem_of_mem hb
    have hi' : i < F.alts.length := by have := b2.length_eq; rw [List.length_map] at this; omega
    have hra := (List.forall₂_iff_get.1 b2).2 i (by simpa using hi') hi
    simp only [List.get_eq_getElem, List.getElem_map] at hra
    obtain ⟨k1, k2⟩ := hk _ (List.getElem_mem hi')
    rcases List.mem_append.1 hr with hr | hr
    · obtain ⟨g1, g2, g3⟩ := hra.empty r hr
      rcases r with ⟨lh, rh, pr⟩
      cases lh with
      | user => cases g3
      | gen j =>
        simp only at g1 g2
        subst g1 g2
        exact ⟨hgen _ hr' j rfl, by simp, by simp⟩
    · rw [List.mem_singleton] at hr
      subst hr
      refine ⟨?_, ?_, ?_⟩
      · rw [hra.lhs]
        exact ⟨_, k1, rfl⟩
      · intro y hy
        cases y with
        | gen j =>
          have : RSym.gen j ∈ (blocks[i]).1.map RR.lhs := by
            rw [← hra.gens, List.mem_filter]; exact ⟨hy, rfl⟩
          obtain ⟨x, hx, hxl⟩ := List.mem_map.1 this
          refine hgen x ?_ j hxl
          rw [b1, List.mem_flatMap]
          exact ⟨_, List.getElem_mem hi, by simp [hx]⟩
        | user n =>
          have hm : Elem.sym n ∈ (blocks[i]).2.rhs.map backElem := List.mem_map.2 ⟨_, hy, rfl⟩
          have hm' : Elem.sym n ∈ (encAlt (fun x => (names F.uses).idxOf x.key) F.alts[i]).2 := by
            rcases hra.rhs with ⟨h, _⟩ | h
            · rw [h] at hm; exact (List.mem_filter.1 hm).1
            · have : Elem.sym n ∈ (blocks[i]).2.rhs.map backElem ++ [.action] := by simp only [List.mem_append]; exact .inl hm
              rw [h] at this; exact (List.mem_filter.1 this).1
          simp only [encAlt, List.mem_map] at hm'
          obtain ⟨e, he, hen⟩ := hm'
          cases e with
          | sym x =>
            simp only [encEl, Elem.sym.injEq] at hen
            exact ⟨x.key, k2 x (.inl he), hen.symm⟩
          | action => cases hen
          | prec => cases hen
      · intro n hn
        rw [hra.prec] at hn
        simp only [encAlt] at hn
        rw [precOf_enc] at hn
        cases hq : precNamed (F.alts[i]).rhs with
        | none => rw [hq] at hn; cases hn
        | some x =>
          rw [hq] at hn
          simp only [Option.map_some, precEnc, RPrec.ofSym.injEq] at hn
          exact ⟨x.key, k2 x (.inr (precNamed_mem _ _ hq)), hn.symm⟩

end Verif.Byacc.Rd
