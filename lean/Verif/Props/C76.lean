import Verif.Proofs.LemonDestructor
/-
C76: the destructors of symbols.
-/
set_option autoImplicit false
namespace Verif.Lemon
open Verif.Spec.GFile Verif.Spec.RuleCode

variable {o : Opts} {items : List Verif.Spec.GFile.Item} {s : RState}

/-- the code of a group of cases -/
def RState.caseCode (s : RState) (c : DCase) : List Nat := (c.body.bind fun p => (s.destructorCode p).map fun q => dollars p.dtnum q.1).getD []

/-- what the `switch` does for the symbol with number `i`: the code of the case with this number, or nothing -/
def RState.destroys (s : RState) (i : Nat) : Option (List Nat) :=
  (s.destructorCases.find? fun c => c.syms.any fun p => p.index == i).map s.caseCode

theorem mem_numbered (x : Word) : x ∈ numbered o items ↔ x = text "$" ∨ x ∈ tokens o items ∨ x ∈ nonterminals o items := by
  simp [numbered, or_assoc]

theorem numbered_pos (hv : Valid o items) {i : Nat} {x : Word} (hx : (numbered o items)[i]? = some x) : 0 < i ↔ x ≠ text "$" := by
  have hnd := nodup_numbered hv (o := o)
  have h0 : (numbered o items)[0]? = some (text "$") := rfl
  constructor
  · rintro hi rfl
    have := (List.getElem?_inj (List.getElem?_eq_some_iff.mp hx).1 hnd).mp (hx.trans h0.symm)
    omega
  · intro hne
    rcases Nat.eq_zero_or_pos i with rfl | h
    · rw [h0] at hx; simp at hx; exact absurd hx.symm hne
    · exact h

theorem mem_tokenCases (s : RState) (c : DCase) (hc : c ∈ s.tokenCases) : ∃ t b, s.args .tokenDestructor = some t ∧ c.body = some b ∧ b ∈ c.syms ∧
    c.syms = s.dsyms.filter (fun p => p.sym.type == .TERMINAL) := by
  unfold RState.tokenCases at hc
  split at hc
  · rename_i h
    obtain ⟨t, ht⟩ := Option.isSome_iff_exists.mp h
    split at hc
    · simp at hc
    · rename_i p l hl
      rw [List.mem_singleton] at hc
      subst hc
      exact ⟨t, p, ht, rfl, by simp, hl.symm⟩
  · simp at hc

theorem mem_defaultCases (s : RState) (c : DCase) (hc : c ∈ s.defaultCases) : ∃ t, s.args .defaultDestructor = some t ∧
    c.syms = s.dsyms.filter (fun p => p.sym.type != .TERMINAL && 0 < p.index && p.sym.destructor.isNone) ∧ c.body = c.syms.getLast? := by
  unfold RState.defaultCases at hc
  split at hc
  · rename_i h
    obtain ⟨t, ht⟩ := Option.isSome_iff_exists.mp h
    rw [List.mem_singleton] at hc
    subst hc
    exact ⟨t, ht, rfl, rfl⟩
  · simp at hc

theorem own_spec (s : RState) : (∀ p ∈ s.dsyms, p.own → ∃ c ∈ ownCases s.dsyms [], p ∈ c.syms) ∧
    ((ownCases s.dsyms []).flatMap fun c => c.syms.map DSym.index).Nodup ∧
    ∀ c ∈ ownCases s.dsyms [], ∃ b, c.body = some b ∧ ∀ q ∈ c.syms, q ∈ s.dsyms ∧ q.own ∧ b.own ∧ b.dtnum = q.dtnum ∧ b.sym.destructor = q.sym.destructor := by
  obtain ⟨h1, h2, h3⟩ := ownCases_spec s.dsyms [] (dsyms_index s) (by simp)
  refine ⟨fun p hp ho => ?_, h2, fun c hc => ?_⟩
  · rcases h1 p hp ho with h | h
    · simp at h
    · exact h
  · obtain ⟨b, hb, h⟩ := h3 c hc
    exact ⟨b, hb, fun q hq => ⟨(h q hq).1, (h q hq).2.2⟩⟩

/-- what a case is -/
theorem case_spec (s : RState) (c : DCase) (hc : c ∈ s.destructorCases) (q : DSym) (hq : q ∈ c.syms) : q ∈ s.dsyms ∧
    ((q.sym.type = .TERMINAL ∧ ∃ t b, s.args .tokenDestructor = some t ∧ b ∈ s.dsyms ∧ b.sym.type = .TERMINAL ∧ s.caseCode c = dollars b.dtnum t) ∨
      (q.sym.type ≠ .TERMINAL ∧ q.sym.destructor = none ∧ 0 < q.index ∧ ∃ t b, s.args .defaultDestructor = some t ∧ b ∈ s.dsyms ∧ b.sym.type ≠ .TERMINAL ∧
        b.sym.destructor = none ∧ 0 < b.index ∧ s.caseCode c = dollars b.dtnum t) ∨
      (q.own ∧ ∃ t, q.sym.destructor = some t ∧ s.caseCode c = dollars q.dtnum t)) := by
  unfold RState.destructorCases at hc
  rw [List.mem_append, List.mem_append] at hc
  rcases hc with (hc | hc) | hc
  · obtain ⟨t, b, ht, hb, hbm, hl⟩ := mem_tokenCases s c hc
    rw [hl, List.mem_filter] at hq hbm
    refine ⟨hq.1, .inl ⟨by simpa using hq.2, t, b, ht, hbm.1, by simpa using hbm.2, ?_⟩⟩
    have hbt : b.sym.type = .TERMINAL := by simpa using hbm.2
    simp [RState.caseCode, hb, RState.destructorCode, hbt, ht]
  · obtain ⟨t, ht, hl, hb⟩ := mem_defaultCases s c hc
    have hne : c.syms ≠ [] := List.ne_nil_of_mem hq
    have hb' : c.body = some (c.syms.getLast hne) := by rw [hb, List.getLast?_eq_some_getLast]
    have hbm := List.getLast_mem hne
    generalize c.syms.getLast hne = b at hb' hbm
    rw [hl, List.mem_filter] at hq hbm
    simp only [Bool.and_eq_true, bne_iff_ne, ne_eq, decide_eq_true_eq, Option.isNone_iff_eq_none] at hq hbm
    refine ⟨hq.1, .inr (.inl ⟨hq.2.1.1, hq.2.2, hq.2.1.2, t, b, ht, hbm.1, hbm.2.1.1, hbm.2.2, hbm.2.1.2, ?_⟩)⟩
    simp [RState.caseCode, hb', RState.destructorCode, hbm.2.1.1, hbm.2.2, ht]
  · obtain ⟨b, hb, h⟩ := (own_spec s).2.2 c hc
    obtain ⟨g1, g2, g3, g4, g5⟩ := h q hq
    obtain ⟨t, ht⟩ := Option.ne_none_iff_exists'.mp g2.2
    refine ⟨g1, .inr (.inr ⟨g2, t, ht, ?_⟩)⟩
    rw [ht] at g5
    simp [RState.caseCode, hb, RState.destructorCode, g3.1, g5, g4]

/-- a symbol with a destructor has a case -/
theorem case_exists (s : RState) (q : DSym) (hq : q ∈ s.dsyms)
    (h : (q.sym.type = .TERMINAL ∧ s.args .tokenDestructor ≠ none) ∨ (q.sym.type ≠ .TERMINAL ∧ q.sym.destructor = none ∧ 0 < q.index ∧ s.args .defaultDestructor ≠ none) ∨ q.own) :
    ∃ c ∈ s.destructorCases, q ∈ c.syms := by
  unfold RState.destructorCases
  simp only [List.mem_append]
  rcases h with ⟨h1, h2⟩ | ⟨h1, h2, h3, h4⟩ | h
  · have hm : q ∈ s.dsyms.filter fun p => p.sym.type == .TERMINAL := List.mem_filter.mpr ⟨hq, by simp [h1]⟩
    unfold RState.tokenCases
    rw [if_pos (Option.isSome_iff_ne_none.mpr h2)]
    cases hl : s.dsyms.filter fun p => p.sym.type == .TERMINAL with
    | nil => rw [hl] at hm; simp at hm
    | cons p l => rw [hl] at hm; exact ⟨_, .inl (.inl (List.mem_singleton.mpr rfl)), hm⟩
  · unfold RState.defaultCases
    rw [if_pos (Option.isSome_iff_ne_none.mpr h4)]
    exact ⟨_, .inl (.inr (List.mem_singleton.mpr rfl)), List.mem_filter.mpr ⟨hq, by simp [h1, h2, h3]⟩⟩
  · obtain ⟨c, hc, hm⟩ := (own_spec s).1 q hq h
    exact ⟨c, .inr hc, hm⟩

theorem flatMap_tokenCases (s : RState) : (s.tokenCases.flatMap fun c => c.syms.map DSym.index).Nodup := by
  unfold RState.tokenCases
  split
  · split
    · simp
    · rename_i p l hl
      simp only [List.flatMap_cons, List.flatMap_nil, List.append_nil]
      rw [← hl]
      exact (dsyms_index s).sublist (List.filter_sublist.map _)
  · simp

theorem flatMap_defaultCases (s : RState) : (s.defaultCases.flatMap fun c => c.syms.map DSym.index).Nodup := by
  unfold RState.defaultCases
  split
  · simp only [List.flatMap_cons, List.flatMap_nil, List.append_nil]
    exact (dsyms_index s).sublist (List.filter_sublist.map _)
  · simp

/-- no number has two cases -/
theorem C76_unique (s : RState) : (s.destructorCases.flatMap fun c => c.syms.map DSym.index).Nodup := by
  have hinj : ∀ p ∈ s.dsyms, ∀ q ∈ s.dsyms, p.index = q.index → p = q := fun p hp q hq e => List.inj_on_of_nodup_map (dsyms_index s) hp hq e
  have hT : ∀ i ∈ s.tokenCases.flatMap (fun c => c.syms.map DSym.index), ∃ q ∈ s.dsyms, q.index = i ∧ q.sym.type = .TERMINAL := by
    intro i hi
    obtain ⟨c, hc, hi⟩ := List.mem_flatMap.mp hi
    obtain ⟨q, hq, rfl⟩ := List.mem_map.mp hi
    obtain ⟨_, _, _, _, _, hl⟩ := mem_tokenCases s c hc
    rw [hl, List.mem_filter] at hq
    exact ⟨q, hq.1, rfl, by simpa using hq.2⟩
  have hD : ∀ i ∈ s.defaultCases.flatMap (fun c => c.syms.map DSym.index), ∃ q ∈ s.dsyms, q.index = i ∧ q.sym.type ≠ .TERMINAL ∧ q.sym.destructor = none := by
    intro i hi
    obtain ⟨c, hc, hi⟩ := List.mem_flatMap.mp hi
    obtain ⟨q, hq, rfl⟩ := List.mem_map.mp hi
    obtain ⟨_, _, hl, _⟩ := mem_defaultCases s c hc
    rw [hl, List.mem_filter] at hq
    simp only [Bool.and_eq_true, bne_iff_ne, ne_eq, decide_eq_true_eq, Option.isNone_iff_eq_none] at hq
    exact ⟨q, hq.1, rfl, hq.2.1.1, hq.2.2⟩
  have hO : ∀ i ∈ (ownCases s.dsyms []).flatMap (fun c => c.syms.map DSym.index), ∃ q ∈ s.dsyms, q.index = i ∧ q.own := by
    intro i hi
    obtain ⟨c, hc, hi⟩ := List.mem_flatMap.mp hi
    obtain ⟨q, hq, rfl⟩ := List.mem_map.mp hi
    obtain ⟨b, _, h⟩ := (own_spec s).2.2 c hc
    exact ⟨q, (h q hq).1, rfl, (h q hq).2.1⟩
  unfold RState.destructorCases
  rw [List.flatMap_append, List.flatMap_append, List.nodup_append, List.nodup_append]
  refine ⟨⟨flatMap_tokenCases s, flatMap_defaultCases s, ?_⟩, (own_spec s).2.1, ?_⟩
  · intro i hi j hj e
    subst e
    obtain ⟨q, hq, e1, h1⟩ := hT i hi
    obtain ⟨q', hq', e2, h2, _⟩ := hD i hj
    have := hinj q hq q' hq' (e1.trans e2.symm)
    subst this
    exact h2 h1
  · intro i hi j hj e
    subst e
    obtain ⟨q', hq', e2, h2⟩ := hO i hj
    rw [List.mem_append] at hi
    rcases hi with hi | hi
    · obtain ⟨q, hq, e1, h1⟩ := hT i hi
      have := hinj q hq q' hq' (e1.trans e2.symm)
      subst this
      exact h2.1 h1
    · obtain ⟨q, hq, e1, _, h1⟩ := hD i hi
      have := hinj q hq q' hq' (e1.trans e2.symm)
      subst this
      exact h2.2 h1

theorem destroys_none (s : RState) (i : Nat) (h : ∀ c ∈ s.destructorCases, ∀ q ∈ c.syms, q.index ≠ i) : s.destroys i = none := by
  unfold RState.destroys
  rw [Option.map_eq_none_iff, List.find?_eq_none]
  intro c hc
  simp only [List.any_eq_true, beq_iff_eq, not_exists, not_and]
  exact h c hc

theorem destroys_some (s : RState) (c : DCase) (hc : c ∈ s.destructorCases) (q : DSym) (hq : q ∈ c.syms) :
    ∃ c' ∈ s.destructorCases, q ∈ c'.syms ∧ s.destroys q.index = some (s.caseCode c') := by
  unfold RState.destroys
  have : (s.destructorCases.find? fun c => c.syms.any fun p => p.index == q.index).isSome := by
    rw [List.find?_isSome]
    exact ⟨c, hc, by simp only [List.any_eq_true, beq_iff_eq]; exact ⟨q, hq, rfl⟩⟩
  obtain ⟨c', hc'⟩ := Option.isSome_iff_exists.mp this
  refine ⟨c', List.mem_of_find?_eq_some hc', ?_, by rw [hc']; rfl⟩
  have := List.find?_some hc'
  simp only [List.any_eq_true, beq_iff_eq] at this
  obtain ⟨p, hp, e⟩ := this
  have : p = q := List.inj_on_of_nodup_map (dsyms_index s) (case_spec s c' (List.mem_of_find?_eq_some hc') p hp).1 (case_spec s c hc q hq).1 e
  rwa [← this]

theorem no_dollar_destructor (hv : Valid o items) : destructorOf o items (text "$") = none := by
  have : destructorsOf items (text "$") = [] := by
    unfold destructorsOf
    rw [List.filterMap_eq_nil_iff]
    intro it hit
    cases it with
    | destructor X a line =>
      have := valid_form hv _ hit
      have hne : X ≠ text "$" := by rintro rfl; exact dollar_not_letter this.1
      simp [hne]
    | _ => rfl
  simp [destructorOf, this]

/-- C76.  The `switch` has for every symbol the code of its destructor, in which `$$` is the value in the field of the symbol, and nothing for a symbol
without destructor or for any other number.  Missing: the default destructor is right only if all symbols for which it is used have
the same type, or if there is no `$$` in it (`C76_default_violated`). -/
theorem C76_switch_partial (hv : Valid o items) (hh : Holds o items s) (he : isClass items (text "error") = false)
    (hd : ∀ t, argOf o items ("default_destructor", true) = some t → text "$$" <:+: t → SameTypes o items) :
    (∀ i x, (numbered o items)[i]? = some x → 0 < i →
      (destroyCode o items x = none → s.destroys i = none) ∧
      ∀ t, destroyCode o items x = some t → ∃ u, s.destroys i = some u ∧ Replaced t (text "(yypminor->yy" ++ num (s.dtnum x) ++ text ")") u) ∧
    ∀ i, i = 0 ∨ (numbered o items).length ≤ i → s.destroys i = none := by
  have hA : s.args .tokenDestructor = argOf o items ("token_destructor", true) := hh.args .tokenDestructor
  have hB : s.args .defaultDestructor = argOf o items ("default_destructor", true) := hh.args .defaultDestructor
  have hU := C74_union_partial hv hh he
  have hty : ∀ x ∈ numbered o items, ((symOf o items x).type = .TERMINAL ↔ Upper x) := by
    intro x hx
    simp only [symOf]
    rw [mem_numbered] at hx
    have hcl : isClass items x = false := by
      rcases hx with rfl | hx | hx
      · by_contra hc
        rw [Bool.not_eq_false, isClass, List.any_eq_true] at hc
        obtain ⟨it, hit, h⟩ := hc
        have hform := valid_form hv it hit
        cases it <;> simp at h
        subst h
        exact dollar_not_letter (.inr hform.1)
      · exact upper_not_class hv ((mem_tokens _).mp hx).2
      · exact ((mem_nonterminals _).mp hx).2.2.2
    simp [hcl]
  have hdes : ∀ x, (symOf o items x).destructor = (destructorOf o items x).map Prod.snd := fun x => rfl
  refine ⟨?_, ?_⟩
  · intro i x hx hi
    have hxm : x ∈ numbered o items := List.mem_of_getElem? hx
    have hne := (numbered_pos hv hx).mp hi
    have hp : (⟨symOf o items x, i, s.dtnum x⟩ : DSym) ∈ s.dsyms := (dsyms_mem hv hh _).mpr ⟨i, x, hx, rfl⟩
    refine ⟨?_, ?_⟩
    · intro hn
      apply destroys_none
      intro c hc q hq e
      obtain ⟨g1, g2⟩ := case_spec s c hc q hq
      have : q = ⟨symOf o items x, i, s.dtnum x⟩ := List.inj_on_of_nodup_map (dsyms_index s) g1 hp e
      subst this
      unfold destroyCode at hn
      rcases g2 with ⟨h1, t, b, h2, _⟩ | ⟨h1, h2, _, t, b, h3, _⟩ | ⟨⟨h1, h2⟩, t, h3, _⟩
      · rw [if_pos ((hty x hxm).mp h1), ← hA, h2] at hn; simp at hn
      · rw [if_neg (fun h => h1 ((hty x hxm).mpr h)), ← hB, h3] at hn; simp at hn
      · rw [if_neg (fun h => h1 ((hty x hxm).mpr h)), ← hdes, h3] at hn; simp at hn
    · intro t ht
      obtain ⟨c, hc, hq⟩ := case_exists s _ hp (by
        unfold destroyCode at ht
        split at ht
        · rename_i hu
          exact .inl ⟨(hty x hxm).mpr hu, by rw [hA, ht]; simp⟩
        · rename_i hu
          rcases Option.eq_none_or_eq_some ((destructorOf o items x).map Prod.snd) with h | ⟨w, h⟩
          · refine .inr (.inl ⟨fun h' => hu ((hty x hxm).mp h'), h, hi, ?_⟩)
            rw [h, Option.none_or] at ht
            rw [hB, ht]; simp
          · exact .inr (.inr ⟨fun h' => hu ((hty x hxm).mp h'), by rw [hdes, h]; simp⟩))
      obtain ⟨c', hc', hq', hs⟩ := destroys_some s c hc _ hq
      refine ⟨_, hs, ?_⟩
      obtain ⟨_, g2⟩ := case_spec s c' hc' _ hq'
      unfold destroyCode at ht
      rcases g2 with ⟨h1, w, b, h2, hb, hbt, h3⟩ | ⟨h1, h2, _, w, b, h3, hb, hb1, hb2, hb3, h4⟩ | ⟨⟨h1, h2⟩, w, h3, h4⟩
      · have hu := (hty x hxm).mp h1
        rw [if_pos hu, ← hA, h2, Option.some.injEq] at ht
        subst ht
        rw [h3]
        obtain ⟨j, y, hy, rfl⟩ := (dsyms_mem hv hh b).mp hb
        have hym := List.mem_of_getElem? hy
        have tok : ∀ z ∈ numbered o items, Upper z → s.dtnum z = 0 := by
          intro z hz hu
          rw [mem_numbered] at hz
          rcases hz with rfl | hz | hz
          · exact absurd (.inl hu) dollar_not_letter
          · exact hU.2.2.1 z hz
          · exact absurd hu ((mem_nonterminals _).mp hz).2.1
        rw [tok x hxm hu]
        have e := tok y hym ((hty y hym).mp hbt)
        simp only [e]
        exact dollars_replaced 0 _ _ (Nat.le_refl _)
      · have hu : ¬ Upper x := fun h => h1 ((hty x hxm).mpr h)
        have hno : (destructorOf o items x).map Prod.snd = none := h2
        rw [if_neg hu, hno, Option.none_or, ← hB, h3, Option.some.injEq] at ht
        subst ht
        rw [h4]
        by_cases hdol : text "$$" <:+: w
        · have hst := hd w (by rw [← hB, h3]) hdol
          obtain ⟨j, y, hy, rfl⟩ := (dsyms_mem hv hh b).mp hb
          have hym := List.mem_of_getElem? hy
          have hnt : ∀ z ∈ numbered o items, ¬ Upper z → z ≠ text "$" → z ∈ nonterminals o items := by
            intro z hz h1 h2
            rw [mem_numbered] at hz
            rcases hz with hz | hz | hz
            · exact absurd hz h2
            · exact absurd ((mem_tokens _).mp hz).2 h1
            · exact hz
          have hyne := (numbered_pos hv hy).mp hb3
          have hxn := hnt x hxm hu hne
          have hyn := hnt y hym (fun h => hb1 ((hty y hym).mpr h)) hyne
          have hdx : destructorOf o items x = none := by simpa using hno
          have hdy : destructorOf o items y = none := by
            have : (destructorOf o items y).map Prod.snd = none := hb2
            simpa using this
          have hxe : x ≠ text "error" := by rintro rfl; exact hst.1 hxn hdx
          have hye : y ≠ text "error" := by rintro rfl; exact hst.1 hyn hdy
          obtain ⟨T, hT⟩ := hU.2.2.2.1 x hxn
          have := hU.2.2.2.2.2.1 x hxn hxe y hyn hye T hT (hst.2 x hxn y hyn hdx hdy T hT)
          simp only [← this]
          exact dollars_replaced _ _ _ (Nat.le_refl _)
        · rw [dollars_last _ _ hdol]
          exact ⟨w, [], by simp, by simp, by simp, hdol⟩
      · have hu : ¬ Upper x := fun h => h1 ((hty x hxm).mpr h)
        have hno : (destructorOf o items x).map Prod.snd = some w := h3
        rw [if_neg hu, hno, Option.some_or, Option.some.injEq] at ht
        subst ht
        rw [h4]
        exact dollars_replaced _ _ _ (Nat.le_refl _)
  · intro i hi
    apply destroys_none
    intro c hc q hq e
    obtain ⟨g1, g2⟩ := case_spec s c hc q hq
    obtain ⟨j, x, hx, rfl⟩ := (dsyms_mem hv hh q).mp g1
    simp only at e
    subst e
    have hjl := (List.getElem?_eq_some_iff.mp hx).1
    have hj0 : j = 0 := by omega
    subst hj0
    have hx0 : x = text "$" := by
      have h0 : (numbered o items)[0]? = some (text "$") := rfl
      rw [h0] at hx; simpa using hx.symm
    subst hx0
    have hnd : (symOf o items (text "$")).destructor = none := by rw [hdes, no_dollar_destructor hv]; rfl
    rcases g2 with ⟨h1, _⟩ | ⟨_, _, h1, _⟩ | ⟨⟨_, h1⟩, _⟩
    · exact absurd ((hty _ (List.mem_of_getElem? hx)).mp h1) (fun h => dollar_not_letter (.inl h))
    · simp at h1
    · exact h1 hnd

/-! ### the printed text -/

theorem dollars_count (d : Nat) : ∀ (n : Nat) (t : List Nat), t.length ≤ n → (dollars d t).count 10 = t.count 10 := by
  intro n
  induction n with
  | zero => intro t ht; have : t = [] := List.length_eq_zero_iff.mp (by omega); subst this; rfl
  | succ n ih =>
    intro t ht
    unfold dollars
    split
    · rename_i t
      simp only [List.length_cons] at ht
      rw [decimal_eq]
      simp only [List.count_append, digits_no_newline, ih t (by omega)]
      simp
    · rename_i c t _
      simp only [List.length_cons] at ht
      rw [List.count_cons, List.count_cons, ih t (by omega)]
    · rfl

/-- The text for a destructor.  A destructor of a nonterminal has a directive with its line in the grammar file; behind the code a directive gives the
number that the next line has in the output, if the text begins on line `l`.  The line number that is kept is right at the end. -/
theorem C76_lines (s : RState) (file out : List Nat) (p : DSym) (l : Nat) (hfile : 10 ∉ file) (hout : 10 ∉ out) (cp : List Nat) (line : Option Nat)
    (hc : s.destructorCode p = some (cp, line)) :
    let before := text "{\n" ++ (match line with | some k => Verif.Spec.GFile.directive k file | none => []) ++ dollars p.dtnum cp ++ text "\n"
    (s.emitDestructor false file out p l).1 = before ++ Verif.Spec.GFile.directive (l + before.count 10 + 1) out ++ text "}\n" ∧
    (s.emitDestructor true file out p l).1 = text "{\n" ++ dollars p.dtnum cp ++ text "\n" ++ text "}\n" ∧
    ∀ b, (s.emitDestructor b file out p l).2 = l + (s.emitDestructor b file out p l).1.count 10 := by
  have e1 : text "{\n" = [123, 10] := by decide
  have e2 : text "}\n" = [125, 10] := by decide
  have e3 : text "\n" = [10] := by decide
  simp only [e1, e2, e3]
  have hd := dollars_count p.dtnum _ cp (Nat.le_refl _)
  have hdir : ∀ n, (Verif.Spec.GFile.directive n file).count 10 = 1 := fun n => directive_count n file hfile
  have hdir' : ∀ n, (Verif.Spec.GFile.directive n out).count 10 = 1 := fun n => directive_count n out hout
  refine ⟨?_, ?_, ?_⟩
  · cases line with
    | none =>
      simp only [RState.emitDestructor, hc, lineMacro_directive, newlines_count, Bool.false_eq_true, if_false]
      have : l + 1 + 0 + cp.count 10 + 1 + 1 = l + ([123, 10] ++ [] ++ dollars p.dtnum cp ++ [10]).count 10 + 1 := by
        simp only [List.count_append, hd]
        simp; omega
      rw [this]
    | some k =>
      simp only [RState.emitDestructor, hc, lineMacro_directive, newlines_count, Bool.false_eq_true, if_false]
      have : l + 1 + 1 + cp.count 10 + 1 + 1 = l + ([123, 10] ++ Verif.Spec.GFile.directive k file ++ dollars p.dtnum cp ++ [10]).count 10 + 1 := by
        simp only [List.count_append, hd, hdir]
        simp; omega
      rw [this]
  · cases line with
    | none => simp [RState.emitDestructor, hc]
    | some k => simp [RState.emitDestructor, hc]
  · intro b
    cases b <;> cases line
    all_goals
      simp only [RState.emitDestructor, hc, lineMacro_directive, newlines_count, Bool.false_eq_true, if_false, if_true, List.count_append, hd, hdir, hdir']
      simp
      try omega

/-- The text for a group of cases: the lines `case` for its symbols, the code, and `break`. -/
theorem C76_text (s : RState) (b : Bool) (file out : List Nat) (hfile : 10 ∉ file) (hout : 10 ∉ out) (c : DCase) (l : Nat) (hcom : c.comment = [] ∨ c.comment.count 10 = 1)
    (hn : ∀ p ∈ c.syms, 10 ∉ p.sym.name) :
    (∃ k, (s.emitCase b file out c l).1 = c.comment ++ (c.syms.flatMap fun p => text "    case " ++ num p.index ++ text ": /* " ++ p.sym.name ++ text " */\n") ++
      (match c.body with | some p => (s.emitDestructor b file out p k).1 | none => []) ++ text "      break;\n" ∧
      k = l + (c.comment ++ (c.syms.flatMap fun p => text "    case " ++ num p.index ++ text ": /* " ++ p.sym.name ++ text " */\n")).count 10) ∧
    (s.emitCase b file out c l).2 = l + (s.emitCase b file out c l).1.count 10 := by
  have hcl : (fun p : DSym => text "    case " ++ num p.index ++ text ": /* " ++ p.sym.name ++ text " */\n") = caseLine := by
    funext p
    rw [caseLine, decimal_num]
    have e1 : text "    case " = [32, 32, 32, 32, 99, 97, 115, 101, 32] := by decide
    have e2 : text ": /* " = [58, 32, 47, 42, 32] := by decide
    have e3 : text " */\n" = [32, 42, 47, 10] := by decide
    rw [e1, e2, e3]
  have hb : text "      break;\n" = breakLine := by decide
  rw [hcl, hb]
  have hcount : ∀ q : List DSym, (∀ p ∈ q, 10 ∉ p.sym.name) → (q.flatMap caseLine).count 10 = q.length := by
    intro q
    induction q with
    | nil => intro _; rfl
    | cons p q ih =>
      intro h
      have h0 : p.sym.name.count 10 = 0 := List.count_eq_zero.mpr (h p (by simp))
      rw [List.flatMap_cons, List.count_append, ih (fun r hr => h r (by simp [hr]))]
      rw [caseLine, decimal_eq]
      simp only [List.count_append, digits_no_newline, h0]
      simp; omega
  have hl1 : l + (if c.comment = [] then 0 else 1) + c.syms.length = l + (c.comment ++ c.syms.flatMap caseLine).count 10 := by
    rw [List.count_append, hcount _ hn]
    rcases hcom with h | h
    · simp [h]
    · have : c.comment ≠ [] := by rintro e; rw [e] at h; simp at h
      simp [this, h]; omega
  refine ⟨⟨_, ?_, hl1⟩, ?_⟩
  · simp only [RState.emitCase]
    cases c.body <;> rfl
  · simp only [RState.emitCase]
    rw [hl1]
    have hbr : breakLine.count 10 = 1 := by decide
    cases hbody : c.body with
    | none => simp only [List.append_nil]; rw [List.count_append (l₂ := breakLine), hbr]; omega
    | some p =>
      simp only
      rcases Option.eq_none_or_eq_some (s.destructorCode p) with h | ⟨⟨cp, line⟩, h⟩
      · simp only [RState.emitDestructor, h, List.append_nil]
        rw [List.count_append (l₂ := breakLine), hbr]
        omega
      · have := (C76_lines s file out p (l + (c.comment ++ c.syms.flatMap caseLine).count 10) hfile hout cp line h).2.2 b
        rw [this, List.count_append (l₂ := breakLine), List.count_append (l₂ := Prod.fst _), hbr]
        omega

theorem reads_alt {n : Nat} {z e : List Nat} {ws : List (Nat × List Nat)} (h : Verif.Spec.Words.Reads n z ws e) :
    ∀ w ∈ ws, ∀ c t, w.2 = c :: t → c = 124 ∨ c = 47 → t ≠ [] → Ident t := by
  induction h with
  | nil => simp
  | skip _ _ ih => exact ih
  | @word line w0 x rest e0 ws0 hw _ ih =>
    intro w hm c t e hc ht
    rcases List.mem_cons.mp hm with rfl | hm
    · simp only at e
      cases hw with
      | string h => simp only [List.cons.injEq] at e; rw [← e.1] at hc; simp at hc
      | code h => simp only [List.cons.injEq] at e; rw [← e.1] at hc; simp at hc
      | name hc' hb hr =>
        simp only [List.cons.injEq] at e
        rw [← e.1] at hc
        rcases hc with rfl | rfl <;> simp [Verif.Spec.Words.letter, Verif.Spec.Words.digit] at hc'
      | arrow => simp only [List.cons.injEq] at e; rw [← e.1] at hc; simp at hc
      | alternative hc' hd hb hr =>
        simp only [List.cons.injEq] at e
        exact ⟨_, _, e.2.symm, hd, hb⟩
      | char hc' ha hb hs =>
        simp only [List.cons.injEq] at e
        exact absurd e.2.symm ht
    · exact ih w hm c t e hc ht

/-- a symbol that an item mentions is one of its words, perhaps with a separator in front -/
theorem mention_word {it : Verif.Spec.GFile.Item} (hform : it.Form) {x : Word} (hx : x ∈ mentions o it) :
    Letter x ∧ ∃ w ∈ it.words, w.2 = x ∨ ∃ c, (c = 124 ∨ c = 47) ∧ w.2 = c :: x := by
  cases it with
  | rule l a rhs line =>
    simp only [mentions, List.mem_cons, List.mem_flatMap] at hx
    rcases hx with rfl | ⟨e, he, hx⟩
    · exact ⟨.inr hform.1, any x, by simp [Verif.Spec.GFile.Item.words], .inl rfl⟩
    · have hw : ∀ w ∈ e.words, w ∈ (Verif.Spec.GFile.Item.rule l a rhs line).words := by
        intro w hw
        simp only [Verif.Spec.GFile.Item.words, List.mem_append, List.mem_flatMap]
        exact .inl (.inr ⟨e, he, hw⟩)
      rcases hx with rfl | hx
      · exact ⟨(hform.2.2 e he).1, any e.name, hw _ (by simp [Elem.words]), .inl rfl⟩
      · unfold Elem.alts at hx
        rw [List.mem_filterMap] at hx
        obtain ⟨p, hp, h⟩ := hx
        have hf := (hform.2.2 e he).2 p hp
        cases p with
        | label a => simp at h
        | alt sep X =>
          simp at h
          subst h
          exact ⟨.inl hf.2, any (sep :: X), hw _ (by simp only [Elem.words, List.mem_cons, List.mem_flatMap]; exact .inr ⟨_, hp, by simp [Post.words]⟩),
            .inr ⟨sep, hf.1, rfl⟩⟩
  | code t line => simp [mentions] at hx
  | mark X =>
    simp only [mentions] at hx
    split at hx
    · simp at hx
    · rw [List.mem_singleton] at hx
      subst hx
      exact ⟨.inl hform, any x, by simp [Verif.Spec.GFile.Item.words], .inl rfl⟩
  | arg k a line => simp [mentions] at hx
  | prec a Xs =>
    simp only [mentions] at hx
    split at hx
    · simp at hx
    · exact ⟨.inl (hform.2 x hx), any x, by simp [Verif.Spec.GFile.Item.words]; exact .inr (.inr (.inl ⟨x, hx, rfl⟩)), .inl rfl⟩
  | destructor X a line =>
    simp only [mentions, List.mem_singleton] at hx
    subst hx
    exact ⟨hform.1, any x, by simp [Verif.Spec.GFile.Item.words], .inl rfl⟩
  | type X a line =>
    simp only [mentions, List.mem_singleton] at hx
    subst hx
    exact ⟨hform.1, any x, by simp [Verif.Spec.GFile.Item.words], .inl rfl⟩
  | fallback Xs => exact ⟨.inl (hform x hx), any x, by simp [Verif.Spec.GFile.Item.words]; exact .inr (.inr (.inl ⟨x, hx, rfl⟩)), .inl rfl⟩
  | token Xs => exact ⟨.inl (hform x hx), any x, by simp [Verif.Spec.GFile.Item.words]; exact .inr (.inr (.inl ⟨x, hx, rfl⟩)), .inl rfl⟩
  | wildcard Xs => exact ⟨.inl (hform x hx), any x, by simp [Verif.Spec.GFile.Item.words]; exact .inr (.inr (.inl ⟨x, hx, rfl⟩)), .inl rfl⟩
  | tokenClass c Xs =>
    simp only [mentions, List.mem_cons, List.mem_map] at hx
    rcases hx with rfl | ⟨⟨sep, X⟩, hX, rfl⟩
    · exact ⟨.inr hform.1, any x, by simp [Verif.Spec.GFile.Item.words], .inl rfl⟩
    · have hf := hform.2 _ hX
      refine ⟨.inl hf.1, any (sep.toList ++ X), by simp [Verif.Spec.GFile.Item.words]; exact .inr (.inr (.inr (.inl ⟨sep, X, hX, rfl⟩))), ?_⟩
      cases sep with
      | none => exact .inl rfl
      | some c => exact .inr ⟨c, hf.2 c rfl, rfl⟩
  | yaccPrec => simp [mentions] at hx

/-- the names of symbols are identifiers -/
theorem names_ident {z : List Nat} {ws : List (Nat × Word)} (hz : Verif.Spec.Words.HasWords z ws) (hf : IsFile items ws) (hv : Valid o items) :
    ∀ x ∈ names o items, x = text "$" ∨ Ident x := by
  intro x hx
  rcases (mem_names _ _ _).mp hx with h | ⟨it, hit, hm⟩
  · exact .inl h
  · right
    obtain ⟨hl, w, hw, h⟩ := mention_word (valid_form hv it hit) hm
    obtain ⟨w', hw', e⟩ := file_word hf it hit w hw
    rcases h with h | ⟨c, hc, h⟩
    · have := reads_ident hz w' hw' (by rw [e, h]; exact hl)
      rwa [e, h] at this
    · refine reads_alt hz w' hw' c x (by rw [e, h]) hc ?_
      rcases hl with ⟨c, t, e, _⟩ | ⟨c, t, e, _⟩ <;> (rw [e]; simp)

theorem ident_no_newline {x : Word} (h : Ident x) : 10 ∉ x := by
  obtain ⟨c, t, rfl, hc, ht⟩ := h
  intro hm
  rcases List.mem_cons.mp hm with rfl | hm
  · simp [Verif.Spec.Words.letter] at hc
  · have := ht 10 hm
    simp [Verif.Spec.Words.inName, Verif.Spec.Words.letter, Verif.Spec.Words.digit] at this

/-- the line number kept is right behind all cases -/
theorem C76_end (hv : Valid o items) (hh : Holds o items s) (b : Bool) (file out : List Nat) (hfile : 10 ∉ file) (hout : 10 ∉ out) (l : Nat)
    (hw : ∀ x ∈ names o items, 10 ∉ x) :
    (s.emitCases b file out s.destructorCases l).2 = l + (s.emitCases b file out s.destructorCases l).1.count 10 := by
  have hin : ∀ x ∈ numbered o items, x ∈ names o items := by
    intro x hx
    rw [mem_numbered] at hx
    rcases hx with rfl | hx | hx
    · exact (mem_names _ _ _).mpr (.inl rfl)
    · exact ((mem_tokens _).mp hx).1
    · exact ((mem_nonterminals _).mp hx).1
  have hall : ∀ c ∈ s.destructorCases, (c.comment = [] ∨ c.comment.count 10 = 1) ∧ ∀ p ∈ c.syms, 10 ∉ p.sym.name := by
    intro c hc
    refine ⟨?_, ?_⟩
    · unfold RState.destructorCases at hc
      rw [List.mem_append, List.mem_append] at hc
      rcases hc with (hc | hc) | hc
      · unfold RState.tokenCases at hc
        split at hc
        · split at hc
          · simp at hc
          · rw [List.mem_singleton] at hc
            subst hc
            dsimp only
            exact .inr (by decide)
        · simp at hc
      · unfold RState.defaultCases at hc
        split at hc
        · rw [List.mem_singleton] at hc
          subst hc
          dsimp only
          split
          · exact .inl rfl
          · exact .inr (by decide)
        · simp at hc
      · left
        have : ∀ (l : List DSym) (done : List Nat), ∀ c ∈ ownCases l done, c.comment = [] := by
          intro l
          induction l with
          | nil => intro done c hc; simp [ownCases] at hc
          | cons p l ih =>
            intro done c hc
            rw [ownCases] at hc
            split at hc
            · exact ih done c hc
            · rcases List.mem_cons.mp hc with rfl | hc
              · rfl
              · exact ih _ c hc
        exact this _ _ c hc
    · intro p hp
      obtain ⟨i, x, hx, rfl⟩ := (dsyms_mem hv hh p).mp (case_spec s c hc p hp).1
      exact hw x (hin x (List.mem_of_getElem? hx))
  generalize s.destructorCases = cs at hall
  induction cs generalizing l with
  | nil => simp [RState.emitCases]
  | cons c cs ih =>
    simp only [RState.emitCases]
    have h1 := (C76_text s b file out hfile hout c l (hall c (by simp)).1 (hall c (by simp)).2).2
    rw [ih _ (fun c' hc' => hall c' (by simp [hc'])), h1, List.count_append]
    omega

/-- C76 for files: the whole `switch` made from the text of a valid file. -/
theorem C76_file_partial (o : Opts) (z : List Nat) (ws : List (Nat × Word)) (items : List Verif.Spec.GFile.Item) (hz : Verif.Spec.Words.HasWords z ws) (hf : IsFile items ws) (hv : Valid o items)
    (he : isClass items (text "error") = false)
    (hd : ∀ t, argOf o items ("default_destructor", true) = some t → text "$$" <:+: t → SameTypes o items) :
    ∃ s, parseText (ropts o) o.yacc z = some s ∧ errorcnt s = 0 ∧
      (∀ i x, (numbered o items)[i]? = some x → 0 < i →
        (destroyCode o items x = none → s.1.destroys i = none) ∧
        ∀ t, destroyCode o items x = some t → ∃ u, s.1.destroys i = some u ∧ Replaced t (text "(yypminor->yy" ++ num (s.1.dtnum x) ++ text ")") u) ∧
      (∀ i, i = 0 ∨ (numbered o items).length ≤ i → s.1.destroys i = none) ∧
      ∀ out l, 10 ∉ o.file → 10 ∉ out →
        (s.1.emitCases o.noLines o.file out s.1.destructorCases l).2 = l + (s.1.emitCases o.noLines o.file out s.1.destructorCases l).1.count 10 := by
  obtain ⟨s, h1, h2, h3, hh⟩ := C72_says o z ws items hz hf hv
  obtain ⟨g1, g2⟩ := C76_switch_partial hv hh he hd
  refine ⟨s, h1, h2, g1, g2, fun out l hfile hout => C76_end hv hh _ _ _ hfile hout l ?_⟩
  intro x hx
  rcases names_ident hz hf hv x hx with rfl | h
  · decide
  · exact ident_no_newline h

/-! ### example -/

def c76Items : List Verif.Spec.GFile.Item := [.arg "token_destructor" (text "{ t($$); ") 1, .arg "default_destructor" (text "{ d(); ") 1, .type (text "a") (text "{int") 1,
  .type (text "b") (text "{int") 1, .destructor (text "a") (text "{ f($$,$$$); ") 1, .destructor (text "b") (text "{ f($$,$$$); ") 1,
  .rule (text "s") none [⟨text "a", []⟩, ⟨text "X", []⟩, ⟨text "b", []⟩] 1]

def c76Text : List Nat := text "%token_destructor { t($$); } %default_destructor { d(); } %type a {int} %type b {int} %destructor a { f($$,$$$); } %destructor b { f($$,$$$); } s ::= a X b."

/-- the file is valid; the numbers are 0 for `$`, 1 for `X`, 2 for `a`, 3 for `b`, 4 for `s`; `a` and `b` have a common case -/
example : (∃ ws, Verif.Spec.Words.HasWords c76Text ws ∧ IsFile c76Items ws) ∧ Valid c72Opts c76Items ∧ isClass c76Items (text "error") = false ∧
    (∀ t, argOf c72Opts c76Items ("default_destructor", true) = some t → ¬ text "$$" <:+: t) ∧
    numbered c72Opts c76Items = [text "$", text "X", text "a", text "b", text "s"] ∧
    ((parseText (ropts c72Opts) false c76Text).map fun s => (List.range 6).map s.1.destroys) =
      some [none, some (text " t((yypminor->yy0)); "), some (text " f((yypminor->yy2),(yypminor->yy2)$); "),
        some (text " f((yypminor->yy2),(yypminor->yy2)$); "), some (text " d(); "), none] ∧
    ((parseText (ropts c72Opts) false c76Text).map fun s => s.1.destructorCases.map fun c => c.syms.map DSym.index) = some [[1], [4], [2, 3]] := by
  refine ⟨⟨_, file_of_check _ _ (by decide +kernel)⟩, valid_of_check _ _ (by decide +kernel), by decide, ?_, by decide +kernel, by decide +kernel, by decide +kernel⟩
  intro t ht
  have : argOf c72Opts c76Items ("default_destructor", true) = some (text " d(); ") := by decide +kernel
  rw [this] at ht
  simp only [Option.some.injEq] at ht
  subst ht
  decide

/-- the text printed for the case of `b` -/
example : ((parseText (ropts c72Opts) false (text "%destructor b {f($$);} b ::= ."))).map (fun s => s.1.emitCases false (text "g.y") (text "g.c") s.1.destructorCases 50) =
    some (text "    case 1: /* b */\n{\n#line 1 \"g.y\"\nf((yypminor->yy0));\n#line 55 \"g.c\"\n}\n      break;\n", 57) := by decide +kernel

/-! ### violations -/

/-- C76 is violated: the default destructor is called with the field of the last symbol that needs it, also for symbols with
other types. -/
theorem C76_default_violated :
    ((parseText (ropts c72Opts) false (text "%default_destructor {free($$);} %type a {int} %type b {char*} s ::= a b. a ::= . b ::= .")).map fun s =>
      (errorcnt s, [text "s", text "a", text "b"].map fun x => (s.1.dtnum x, s.1.destroys (s.1.index x)))) =
      some (0, [(0, some (text "free((yypminor->yy0));")), (4, some (text "free((yypminor->yy0));")), (1, some (text "free((yypminor->yy0));"))]) := by decide +kernel

/-- C76 is violated: with an error symbol the default destructor may be called with the field of this, an `int`, for all others. -/
theorem C76_error_violated :
    ((parseText (ropts c72Opts) false (text "%default_destructor {free($$);} s ::= A. s ::= error.")).map fun s =>
      (errorcnt s, [text "s", text "error"].map fun x => (s.1.dtnum x, s.1.destroys (s.1.index x)))) =
      some (0, [(0, some (text "free((yypminor->yy9));")), (9, some (text "free((yypminor->yy9));"))]) := by decide +kernel

/-- C76 is violated: a destructor declared for a token or for a token class is accepted, but never called. -/
theorem C76_token_violated :
    ((parseText (ropts c72Opts) false (text "%token_class c A|B. %destructor A {free($$);} %destructor c {free($$);} s ::= A c.")).map fun s =>
      (errorcnt s, s.1.destructorCases)) = some (0, []) := by decide +kernel

end Verif.Lemon
