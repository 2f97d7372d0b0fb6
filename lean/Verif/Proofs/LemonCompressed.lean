import Verif.Proofs.LemonResolved
/-
`CompressTables`: the three passes together.
-/
set_option autoImplicit false
namespace Verif.Lemon
open Verif.Spec

variable {g : Gram}

theorem autoOf_map (acts : List (List Act)) (q : Nat) (hq : q < acts.length) :
    autoOf (acts.map (compressState g)) q = (compressState g (acts.getD q [])).auto := by
  unfold autoOf
  rw [List.getD_eq_getElem?_getD, List.getElem?_map, List.getD_eq_getElem?_getD, List.getElem?_eq_getElem hq]
  rfl

/-- a list sorted by type that has one action, or an error and a reduction -/
theorem sorted_pair {l : List (AType × Nat)} {q r : Nat} (h : l.Perm [(.ERROR, q), (.REDUCE, r)])
    (hs : l.Pairwise fun a b => a.1.code ≤ b.1.code) : l = [(.REDUCE, r), (.ERROR, q)] := by
  match l, h.length_eq with
  | [a, b], _ =>
    simp only [List.pairwise_cons, List.mem_singleton, forall_eq] at hs
    have h1 : a ∈ [(AType.ERROR, q), (AType.REDUCE, r)] := h.mem_iff.mp (by simp)
    have h2 : b ∈ [(AType.ERROR, q), (AType.REDUCE, r)] := h.mem_iff.mp (by simp)
    have h3 : (AType.REDUCE, r) ∈ [a, b] := h.mem_iff.mpr (by simp)
    have h4 : (AType.ERROR, q) ∈ [a, b] := h.mem_iff.mpr (by simp)
    simp only [List.mem_cons, List.not_mem_nil, or_false] at h1 h2 h3 h4
    rcases h1 with rfl | rfl <;> rcases h2 with rfl | rfl
    · rcases h3 with h3 | h3 <;> cases h3
    · have := hs.1; simp [AType.code] at this
    · rfl
    · rcases h4 with h4 | h4 <;> cases h4

theorem onSym_eq_nil {l : List Act} {X : Nat} (h : ∀ a ∈ l, a.sp ≠ X) : onSym l X = [] := by
  rw [List.eq_nil_iff_forall_not_mem]
  intro e he
  obtain ⟨a, ha, _, h2, _⟩ := mem_onSym.mp he
  exact h a ha h2

theorem plain_of_index {X : Nat} (h : g.nlow ≤ X) (h' : g.index X < g.nsymbol) : X < g.nsym := by
  unfold Gram.index Gram.nsymbol at h'
  unfold Gram.nlow at h
  split_ifs at h' <;> omega

theorem onSym_nt {l : List Act} (h : Resolved g l) {X : Nat} (hX : g.nlow ≤ X) :
    ((l.filter fun a => a.sp == X) = [] ∧ onSym l X = []) ∨ ∃ a, (l.filter fun a => a.sp == X) = [a] ∧ onSym l X = [(a.type, a.x)] ∧
      (a.type = .SHIFT ∨ (a.type = .ACCEPT ∧ a.x = 0)) := by
  have hon : onSym l X = ((l.filter fun a => a.sp == X).filter fun a => a.type.live).map fun a => (a.type, a.x) := by
    unfold onSym
    rw [List.filter_filter]
  rcases h.nt X hX with h1 | ⟨a, h1, h2⟩
  · left; rw [hon, h1]; exact ⟨rfl, rfl⟩
  · right
    refine ⟨a, h1, ?_, h2⟩
    rw [hon, h1]
    have : a.type.live = true := by rcases h2 with h2 | ⟨h2, _⟩ <;> rw [h2] <;> rfl
    simp [this]

theorem filter_singleton {l : List Act} {X : Nat} {ty : AType} {x : Nat} (hlen : (l.filter fun a => a.sp == X).length ≤ 1)
    (hon : onSym l X = [(ty, x)]) : ∃ a, (l.filter fun a => a.sp == X) = [a] ∧ (a.type, a.x) = (ty, x) := by
  have hm : (ty, x) ∈ onSym l X := by rw [hon]; simp
  obtain ⟨a, ha, _, h2, h3⟩ := mem_onSym.mp hm
  have ham : a ∈ l.filter fun a => a.sp == X := List.mem_filter.mpr ⟨ha, by simp [h2]⟩
  have hpos := List.length_pos_of_mem ham
  obtain ⟨b, hb⟩ := List.length_eq_one_iff.mp (show (l.filter fun a => a.sp == X).length = 1 by omega)
  rw [hb, List.mem_singleton] at ham
  exact ⟨b, hb, by rw [← ham]; exact h3⟩

theorem length_by_sym (p : Act → Bool) : ∀ (n : Nat) (l : List Act), (∀ a ∈ l, p a = true → a.sp < n) →
    (l.filter p).length = ((List.range n).map fun t => (l.filter fun a => p a && a.sp == t).length).sum := by
  intro n l
  induction l with
  | nil => intro _; simp
  | cons a l ih =>
    intro h
    rw [List.filter_cons]
    have ih := ih fun b hb => h b (List.mem_cons_of_mem _ hb)
    have hstep : ∀ m, ((List.range m).map fun t => ((a :: l).filter fun a => p a && a.sp == t).length).sum
        = ((List.range m).map fun t => (l.filter fun a => p a && a.sp == t).length).sum + (if p a && decide (a.sp < m) then 1 else 0) := by
      intro m
      induction m with
      | zero => simp
      | succ m ihm =>
        rw [List.range_succ, List.map_append, List.sum_append, List.map_append, List.sum_append, ihm]
        simp only [List.map_cons, List.map_nil, List.sum_cons, List.sum_nil, List.filter_cons]
        by_cases h1 : p a = true <;> by_cases h2 : a.sp = m
        · simp [h1, h2]; omega
        · have : (a.sp < m + 1) ↔ a.sp < m := by omega
          simp [h1, h2, this]; omega
        · simp [h1]
        · simp [h1]
    rw [hstep, ← ih]
    by_cases h1 : p a = true
    · have := h a List.mem_cons_self h1
      simp [h1, this]
    · simp [h1]

theorem count_onSym (r t : Nat) (l : List Act) :
    (l.filter fun a => Act.reduces r a && a.sp == t).length = (onSym l t).count (AType.REDUCE, r) := by
  induction l with
  | nil => rfl
  | cons a l ih =>
    rw [List.filter_cons, onSym_cons]
    obtain ⟨sp, ty, x⟩ := a
    by_cases h1 : sp = t
    · subst h1
      cases ty <;> simp [Act.reduces, AType.live, ih, List.count_cons] at ih ⊢
      by_cases h2 : x = r <;> simp [h2, ih]
    · simp [h1, ih]

theorem countRed_eq (wf : g.WF) {l : List Act} (h : Resolved g l) (r : Nat) : countRed r l = nReduce g (onSym l) r := by
  have htm : ∀ a ∈ l, a.type = .REDUCE → a.sp < g.nterm := by
    intro a ha hr
    rcases (h.sp a ha).1 with h1 | h1
    · exact h1
    · rcases h.nt a.sp h1 with h2 | ⟨b, h2, h3⟩
      · have : a ∈ l.filter fun b => b.sp == a.sp := List.mem_filter.mpr ⟨ha, by simp⟩
        rw [h2] at this; cases this
      · have : a ∈ l.filter fun b => b.sp == a.sp := List.mem_filter.mpr ⟨ha, by simp⟩
        rw [h2, List.mem_singleton] at this
        rw [← this, hr] at h3
        rcases h3 with h3 | ⟨h3, _⟩ <;> cases h3
  unfold nReduce countRed
  rw [length_by_sym _ g.nterm l (fun a ha hr => htm a ha (by unfold Act.reduces at hr; simp at hr; exact hr.1))]
  generalize List.range g.nterm = R
  induction R with
  | nil => rfl
  | cons t R ih =>
    rw [List.map_cons, List.sum_cons, ih, List.filter_cons]
    have h1 : (l.filter fun a => Act.reduces r a && a.sp == t).length = if (onSym l t).contains (.REDUCE, r) then 1 else 0 := by
      rw [count_onSym]
      rcases h.one t with h1 | ⟨q, h1⟩ | ⟨r', h1⟩ | h1 | ⟨q, r', h1⟩ <;> rw [h1]
      · rfl
      · simp
      · rcases eq_or_ne r' r with rfl | h2
        · simp [List.count_cons]
        · simp [h2, h2.symm, List.count_cons]
      · simp
      · rcases eq_or_ne r' r with rfl | h2
        · simp [List.count_cons]
        · simp [h2, h2.symm, List.count_cons]
    rw [h1]
    split_ifs <;> simp <;> omega

theorem preElide_of (wf : g.WF) {l : List Act} (h : Resolved g l) (sts : List CState) :
    PreElide g (onSym l) (autoOf sts) ((compressState g l).acts.map (shiftReduce sts)) := by
  have hshape := compressState_spec wf h
  intro X hX hX'
  have hf : ∀ L : List Act, ((L.map (shiftReduce sts)).filter fun a => a.sp == X) = (L.filter fun a => a.sp == X).map (shiftReduce sts) := by
    intro L
    rw [List.filter_map]
    congr 1
    apply List.filter_congr
    intro a _
    simp [Function.comp, shiftReduce_sp]
  rw [hf]
  have hlen : ((compressState g l).acts.filter fun a => a.sp == X).length ≤ (l.filter fun a => a.sp == X).length := by
    rcases hshape with ⟨_, e, _⟩ | ⟨r, _, _, _, _, _, _, _, e, _⟩
    · rw [e]
    · exact e X hX'
  rcases onSym_nt h hX with ⟨h1, h2⟩ | ⟨a, h1, h2, h3⟩
  · left
    rw [h1] at hlen
    rw [List.length_eq_zero_iff.mp (Nat.le_zero.mp hlen)]
    exact ⟨rfl, h2⟩
  · right
    have hon : onSym (compressState g l).acts X = [(a.type, a.x)] := by
      rcases hshape with ⟨_, e, _⟩ | ⟨r, _, _, _, _, _, _, e, _⟩
      · rw [e]; exact h2
      · have := (e X hX').1
        rw [h2] at this
        have hnr : a.type ≠ .REDUCE := by rcases h3 with h3 | ⟨h3, _⟩ <;> rw [h3] <;> simp
        rw [List.filter_cons_of_pos (by simp [hnr]), List.filter_nil] at this
        exact List.perm_singleton.mp this
    rw [h1] at hlen
    obtain ⟨b, hb, hb'⟩ := filter_singleton (by simpa using hlen) hon
    refine ⟨shiftReduce sts b, by rw [hb]; rfl, ?_⟩
    rw [shiftReduce_pair, hb']
    rcases h3 with h3 | ⟨h3, h4⟩
    · right; exact ⟨a.x, by rw [h2, h3], by rw [h3]⟩
    · left; exact ⟨by rw [h2, h3, h4], by rw [h3, h4]; rfl⟩

/-- `CompressTables` for one state -/
theorem compressed_of (wf : g.WF) {fuel : Nat} {sts : List CState} {l l' : List Act} (h : Resolved g l)
    (hl : elideAll g fuel ((compressState g l).acts.map (shiftReduce sts)) = some l') :
    Compressed g (onSym l) (autoOf sts) ⟨l', (compressState g l).auto⟩ ∧
      DefaultOK g (onSym l) (dfltReduce g ⟨l', (compressState g l).auto⟩) := by
  obtain ⟨k1, k2⟩ := elideAll_spec wf hl
  have hshape := compressState_spec wf h
  -- types in the first list
  have hty : ∀ a ∈ (compressState g l).acts, a.type ≠ .SHIFTREDUCE := by
    intro a ha
    have h1 : ∃ b ∈ l, a.type = b.type ∨ a.type = .NOT_USED := by
      rcases hshape with ⟨_, e, _⟩ | ⟨r, _, _, _, _, _, _, _, _, _, e, _⟩
      · rw [e] at ha; exact ⟨a, ha, .inl rfl⟩
      · exact e a ha
    obtain ⟨b, hb, h1⟩ := h1
    rcases h1 with h1 | h1
    · rw [h1]
      intro hc
      have := h.ty b hb
      rw [hc] at this
      simp [AType.settled] at this
    · rw [h1]; simp
  have hsp : ∀ a ∈ (compressState g l).acts, (a.sp = g.nsym ∧ a.type = .REDUCE) ∨ ∃ b ∈ l, a.sp = b.sp := by
    rcases hshape with ⟨_, e, _⟩ | ⟨r, _, _, _, _, _, _, _, _, e, _, _⟩
    · intro a ha; rw [e] at ha; exact .inr ⟨a, ha, rfl⟩
    · exact e
  have hdn : onSym ((compressState g l).acts.map (shiftReduce sts)) g.nsym = onSym (compressState g l).acts g.nsym := by
    rw [onSym_shiftReduce]
    rcases hshape with ⟨_, e, _⟩ | ⟨r, _, _, _, _, _, e, _⟩
    · rw [e]
      rw [onSym_eq_nil (h.ne_nsym wf)]; rfl
    · rw [e]; rfl
  have hdl : onSym l' g.nsym = onSym (compressState g l).acts g.nsym := by
    rw [← hdn]
    refine elided_ty k1 ?_
    intro a ha hs
    obtain ⟨b, hb, rfl⟩ := List.mem_map.mp ha
    rw [shiftReduce_sp] at hs
    rcases hsp b hb with ⟨_, h2⟩ | ⟨c, hc, h2⟩
    · unfold shiftReduce; simp [h2]
    · exact absurd (h2.symm.trans hs) (h.ne_nsym wf c hc)
  have hd : dfltReduce g ⟨l', (compressState g l).auto⟩ = dfltReduce g (compressState g l) := by
    rw [dflt_onSym wf, dflt_onSym wf]
    · show (onSym l' g.nsym).getLast?.map Prod.snd = _
      rw [hdl]
    · intro a ha
      rcases hsp a ha with h1 | ⟨b, hb, h1⟩
      · exact .inl h1.1
      · right; rw [h1]; exact (h.sp b hb).2
    · intro a ha
      obtain ⟨i, hi, rfl⟩ := List.getElem_of_mem ha
      have hi' : i < ((compressState g l).acts.map (shiftReduce sts)).length := by rw [k1.length_eq]; exact hi
      have hE := ((List.forall₂_iff_get.mp k1).2 i hi' hi).1
      simp only [List.get_eq_getElem, List.getElem_map, shiftReduce_sp] at hE
      rw [hE]
      rcases hsp _ (List.getElem_mem (by simpa using hi')) with h1 | ⟨b, hb, h1⟩
      · exact .inl h1.1
      · right; rw [h1]; exact (h.sp b hb).2
  -- actions on tokens
  have hlow : ∀ t, t < g.nterm → onSym l' t = (onSym (compressState g l).acts t).map (srPair (autoOf sts)) := by
    intro t ht
    rw [← onSym_shiftReduce]
    exact elided_low k1 (by unfold Gram.index; rw [if_pos ht]; exact ht)
  have hntm : ∀ t, t < g.nterm → t ≠ g.nsym := by
    intro t ht he
    have := wf.nsym
    unfold Gram.nlow at this
    omega
  have htok : ∀ t r, ((.REDUCE, r) ∈ onSym l t ∨ ∃ q, (.ERROR, q) ∈ onSym l t) → t < g.nterm := by
    intro t r hm
    by_contra hc
    have hmem : ∃ e ∈ onSym l t, e.1 ≠ .SHIFT ∧ e.1 ≠ .ACCEPT := by
      rcases hm with hm | ⟨q, hm⟩
      · exact ⟨_, hm, by simp, by simp⟩
      · exact ⟨_, hm, by simp, by simp⟩
    obtain ⟨e, he, he1, he2⟩ := hmem
    obtain ⟨a, ha, _, h2, _⟩ := mem_onSym.mp he
    have hpl := (h.sp a ha).1
    rw [h2] at hpl
    rcases hpl with hpl | hpl
    · exact hc hpl
    · rcases onSym_nt h hpl with ⟨_, h3⟩ | ⟨a, _, h3, h4⟩
      · rw [h3] at he; cases he
      · rw [h3, List.mem_singleton] at he
        rcases h4 with h4 | ⟨h4, _⟩
        · exact he1 (by rw [he, h4])
        · exact he2 (by rw [he, h4])
  have hred : ∀ {r}, (∃ a ∈ l, a.type = .REDUCE ∧ a.x = r) → ∃ t, (.REDUCE, r) ∈ onSym l t := by
    rintro r ⟨a, ha, h1, h2⟩
    exact ⟨a.sp, mem_onSym.mpr ⟨a, ha, by rw [h1]; rfl, rfl, by rw [h1, h2]⟩⟩
  have hred' : ∀ {t r}, (.REDUCE, r) ∈ onSym l t → ∃ a ∈ l, a.type = .REDUCE ∧ a.x = r := by
    intro t r hm
    obtain ⟨a, ha, _, _, h3⟩ := mem_onSym.mp hm
    simp only [Prod.mk.injEq] at h3
    exact ⟨a, ha, h3⟩
  have hwl : (∃ a ∈ l, a.type = .SHIFT ∧ g.wildcard = some a.sp) ↔ ∃ W q, g.wildcard = some W ∧ (.SHIFT, q) ∈ onSym l W := by
    constructor
    · rintro ⟨a, ha, h1, h2⟩
      exact ⟨a.sp, a.x, h2, mem_onSym.mpr ⟨a, ha, by rw [h1]; rfl, rfl, by rw [h1]⟩⟩
    · rintro ⟨W, q, h1, hm⟩
      obtain ⟨a, ha, _, h2, h3⟩ := mem_onSym.mp hm
      simp only [Prod.mk.injEq] at h3
      exact ⟨a, ha, h3.1, by rw [h2]; exact h1⟩
  refine ⟨⟨?_, ?_, ?_, ?_, ?_, ?_⟩, ⟨?_, ?_, ?_, ?_, ?_⟩⟩
  · intro X hX he
    show onSym l' X = []
    have hne : X ≠ g.nsym := by omega
    have h1 : onSym (compressState g l).acts X = [] := by
      rcases hshape with ⟨_, e, _⟩ | ⟨r, _, _, _, _, _, _, e, _⟩
      · rw [e]; exact he
      · have := (e X hne).1
        rw [he] at this
        exact List.perm_nil.mp this
    by_cases hlo : g.nlow ≤ X
    · have hpre : ∀ b ∈ l, b.sp ≠ X := by
        intro b hb hs
        rcases onSym_nt h hlo with ⟨h2, _⟩ | ⟨a, _, h2, _⟩
        · have : b ∈ l.filter fun a => a.sp == X := List.mem_filter.mpr ⟨hb, by simp [hs]⟩
          rw [h2] at this; cases this
        · rw [h2] at he; cases he
      refine onSym_eq_nil ?_
      intro a ha hs
      obtain ⟨i, hi, rfl⟩ := List.getElem_of_mem ha
      have hi' : i < ((compressState g l).acts.map (shiftReduce sts)).length := by rw [k1.length_eq]; exact hi
      have hE := ((List.forall₂_iff_get.mp k1).2 i hi' hi).1
      simp only [List.get_eq_getElem, List.getElem_map, shiftReduce_sp] at hE
      rw [hE] at hs
      rcases hsp _ (List.getElem_mem (by simpa using hi')) with h2 | ⟨b, hb, h2⟩
      · exact hne (hs.symm.trans h2.1)
      · exact hpre b hb (h2.symm.trans hs)
    · by_cases htm : X < g.nterm
      · rw [hlow X htm, h1]; rfl
      · -- multi-terminals have no actions
        refine onSym_eq_nil ?_
        intro a ha hs
        obtain ⟨i, hi, rfl⟩ := List.getElem_of_mem ha
        have hi' : i < ((compressState g l).acts.map (shiftReduce sts)).length := by rw [k1.length_eq]; exact hi
        have hE := ((List.forall₂_iff_get.mp k1).2 i hi' hi).1
        simp only [List.get_eq_getElem, List.getElem_map, shiftReduce_sp] at hE
        rw [hE] at hs
        rcases hsp _ (List.getElem_mem (by simpa using hi')) with h2 | ⟨b, hb, h2⟩
        · exact hne (hs.symm.trans h2.1)
        · have := (h.sp b hb).1
          rw [← h2, hs] at this
          rcases this with h3 | h3
          · exact htm h3
          · exact hlo h3
  · intro t q ht he
    show onSym l' t = _
    have h1 : onSym (compressState g l).acts t = [(.SHIFT, q)] := by
      rcases hshape with ⟨_, e, _⟩ | ⟨r, _, _, _, _, _, _, e, _⟩
      · rw [e]; exact he
      · have := (e t (hntm t ht)).1
        rw [he] at this
        exact List.perm_singleton.mp (by simpa using this)
    rw [hlow t ht, h1]
    simp only [List.map_cons, List.map_nil, srPair]
    cases autoOf sts q <;> rfl
  · intro t r he
    show _ ∨ (_ ∧ onSym l' t = _)
    have ht := htok t r (.inl (by rw [he]; simp))
    rw [hd]
    rcases hshape with ⟨e1, e, _⟩ | ⟨r', e1, _, _, _, _, _, e, _⟩
    · right
      rw [e1, hlow t ht, e]
      exact ⟨by simp, by show (onSym l t).map _ = _; rw [he]; rfl⟩
    · have h1 := (e t (hntm t ht)).1
      rw [he] at h1
      rw [e1]
      by_cases hr : r = r'
      · left
        subst hr
        refine ⟨rfl, ?_⟩
        show onSym l' t = []
        rw [hlow t ht]
        simp only [List.filter_cons, BEq.rfl, Bool.not_true, Bool.false_eq_true, ite_false, List.filter_nil] at h1
        rw [List.perm_nil.mp h1]; rfl
      · right
        refine ⟨by simpa using fun h => hr h.symm, ?_⟩
        rw [hlow t ht]
        have : (!((AType.REDUCE, r) == (AType.REDUCE, r'))) = true := by simpa using hr
        rw [List.filter_cons_of_pos (by simpa using hr), List.filter_nil] at h1
        rw [List.perm_singleton.mp h1]; rfl
  · intro t q r he
    show (_ ∧ onSym l' t = _) ∨ (_ ∧ onSym l' t = _) ∨ ∃ r', _ ∧ _ ∧ onSym l' t = _
    have ht := htok t r (.inl (by rw [he]; simp))
    rw [hd]
    rcases hshape with ⟨e1, e, _⟩ | ⟨r', e1, _, _, _, _, _, e, _⟩
    · right; left
      rw [e1, hlow t ht, e]
      exact ⟨rfl, by show (onSym l t).map _ = _; rw [he]; rfl⟩
    · obtain ⟨h1, h1'⟩ := e t (hntm t ht)
      rw [he] at h1
      rw [e1]
      by_cases hr : r = r'
      · left
        subst hr
        refine ⟨rfl, ?_⟩
        rw [hlow t ht]
        rw [List.filter_cons_of_pos (by simp), List.filter_cons_of_neg (by simp), List.filter_nil] at h1
        rw [List.perm_singleton.mp h1]; rfl
      · right; right
        refine ⟨r', fun h => hr h.symm, rfl, ?_⟩
        rw [hlow t ht]
        rw [List.filter_cons_of_pos (by simp), List.filter_cons_of_pos (by simpa using hr), List.filter_nil] at h1
        rw [sorted_pair h1 h1']; rfl
  · intro B hB hB' hne
    rcases elideAll_nt wf (preElide_of wf h sts) hl hB hB' with ⟨h1, _⟩ | ⟨_, e, h1, h2⟩
    · exact absurd h1 hne
    · exact ⟨e, h1, h2⟩
  · intro r
    show (compressState g l).auto = some r ↔ _
    rw [hd]
    rcases hshape with ⟨e1, e, _⟩ | ⟨r', e1, _, _, _, _, _, _, _, _, _, e2, e3⟩
    · rw [e1, e]; simp
    · rw [e1]
      constructor
      · intro ha
        have : r = r' := by
          rcases e2 with e2 | e2
          · rw [e2] at ha; cases ha
          · rw [e2] at ha; cases ha; rfl
        subst this
        exact ⟨rfl, e3.mp ha⟩
      · rintro ⟨h1, h2⟩
        cases h1
        exact e3.mpr h2
  · intro r hr
    rw [hd] at hr
    rcases hshape with ⟨e1, _⟩ | ⟨r', e1, _, e2, _⟩
    · rw [e1] at hr; cases hr
    · rw [e1] at hr; cases hr
      exact hred e2
  · intro r hr
    rw [hd] at hr
    rcases hshape with ⟨e1, _⟩ | ⟨r', e1, e2, _⟩
    · rw [e1] at hr; cases hr
    · rw [e1] at hr; cases hr
      unfold Gram.lhsStart at e2
      simpa using e2
  · intro r W hr hW q hm
    rw [hd] at hr
    rcases hshape with ⟨e1, _⟩ | ⟨r', e1, _, _, _, e2, _⟩
    · rw [e1] at hr; cases hr
    · exact e2 (hwl.mpr ⟨W, q, hW, hm⟩)
  · intro r r' t hr hm hs
    rw [hd] at hr
    rcases hshape with ⟨e1, _⟩ | ⟨r'', e1, _, _, e2, _⟩
    · rw [e1] at hr; cases hr
    · rw [e1] at hr; cases hr
      obtain ⟨a, ha, h1, h2⟩ := hred' hm
      have := e2 a ha h1 (by unfold Gram.lhsStart; rw [h2]; simpa using hs)
      rwa [h2, countRed_eq wf h, countRed_eq wf h] at this
  · intro hr
    rw [hd] at hr
    rcases hshape with ⟨_, _, e1⟩ | ⟨r'', e1, _⟩
    · rcases e1 with e1 | e1
      · exact .inl (hwl.mp e1)
      · right
        intro t r hm
        obtain ⟨a, ha, h1, h2⟩ := hred' hm
        have := e1 a ha h1
        unfold Gram.lhsStart at this
        rw [h2] at this
        simpa using this
    · rw [e1] at hr; cases hr

theorem mapM_getD {α β : Type} {f : α → Option β} {l : List α} {l' : List β} (h : l.mapM f = some l') (d : α) (d' : β)
    {i : Nat} (hi : i < l.length) : l'.length = l.length ∧ f (l.getD i d) = some (l'.getD i d') := by
  induction l generalizing l' i with
  | nil => simp at hi
  | cons a l ih =>
    rw [List.mapM_cons] at h
    simp only [Option.pure_def, Option.bind_eq_bind] at h
    obtain ⟨b, h1, h2⟩ := Option.bind_eq_some_iff.mp h
    obtain ⟨m, h3, h4⟩ := Option.bind_eq_some_iff.mp h2
    cases h4
    cases i with
    | zero =>
      refine ⟨?_, by simpa using h1⟩
      simp only [List.length_cons]
      rcases l with _ | ⟨a', l⟩
      · simp at h3; subst h3; rfl
      · rw [(ih h3 (i := 0) (by simp)).1]
    | succ i =>
      obtain ⟨k1, k2⟩ := ih h3 (i := i) (by simpa using hi)
      exact ⟨by simp [k1], by simpa using k2⟩

theorem compressTables_get {fuel : Nat} {acts : List (List Act)} {cs : List CState} (h : compressTables g fuel acts = some cs)
    {s : Nat} (hs : s < acts.length) : cs.length = acts.length ∧
    elideAll g fuel ((compressState g (acts.getD s [])).acts.map (shiftReduce (acts.map (compressState g)))) = some (cs.getD s ⟨[], none⟩).acts ∧
    (cs.getD s ⟨[], none⟩).auto = (compressState g (acts.getD s [])).auto := by
  unfold compressTables at h
  obtain ⟨h1, h2⟩ := mapM_getD h ⟨[], none⟩ ⟨[], none⟩ (i := s) (by simpa using hs)
  rw [List.getD_eq_getElem?_getD (l := acts.map _), List.getElem?_map, List.getElem?_eq_getElem hs] at h2
  obtain ⟨l, h3, h4⟩ := Option.map_eq_some_iff.mp h2
  rw [← h4]
  have e : acts.getD s [] = acts[s] := by rw [List.getD_eq_getElem?_getD, List.getElem?_eq_getElem hs]; rfl
  rw [e]
  exact ⟨by simpa using h1, h3, rfl⟩

end Verif.Lemon
