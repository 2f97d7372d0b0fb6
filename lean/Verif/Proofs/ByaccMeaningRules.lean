import Verif.Proofs.ByaccMeaning
/-
Auxiliary facts: what the reader does with the rules, as a function of the file.
-/
set_option autoImplicit false
namespace Verif.Byacc.Rd
open Spec.YText

/-! Names of symbols -/

theorem hiddenKey_inj {a b : Nat} (h : hiddenKey a = hiddenKey b) : a = b := by
  unfold hiddenKey at h
  have e : decDigits a = decDigits b := by simpa using h
  rw [← (decDigits_spec a).2.2.2, e, (decDigits_spec b).2.2.2]

theorem name_notHidden {n t u : List Nat} (h : SymAt (.name n) t u) (k : Nat) : n ≠ hiddenKey k := by
  rintro rfl
  exact h.2 (.inr (.inr (.inr ⟨decDigits k, (decDigits_spec k).1, (decDigits_spec k).2.1, rfl⟩)))

theorem lit_notHidden (s : List Nat) (k : Nat) : litName s ≠ hiddenKey k := by
  unfold litName hiddenKey
  intro h
  have := congrArg List.head? h
  simp only [List.cons_append, List.head?_cons, Option.some.injEq] at this
  split at this <;> omega

theorem symAt_notHidden {x : Sym} {t u : List Nat} (h : SymAt x t u) (k : Nat) : x.key ≠ hiddenKey k := by
  cases x with
  | name n => exact name_notHidden h k
  | lit s => exact lit_notHidden s k

theorem name_notLit {n t u : List Nat} (h : SymAt (.name n) t u) (s : List Nat) : n ≠ litName s := by
  obtain ⟨⟨-, -, ⟨c, r, rfl, hc⟩, -⟩, -⟩ := h
  unfold litName
  intro e
  have := congrArg List.head? e
  simp only [List.cons_append, List.head?_cons, Option.some.injEq] at this
  unfold NameFirst Letter at hc
  split at this <;> omega

/-! Uses in rules -/

/-- what can be added by the rules -/
def RuleUse (us : List Use) : Use → Prop
  | .plain _ | .lhs _ => True
  | .hidden k _ => hiddenKey k ∉ names us
  | _ => False

theorem declaredTag_rule (us : List Use) (u : Use) (h : RuleUse us u) (m : List Nat) : declaredTag (us ++ [u]) m = declaredTag us m := by
  unfold declaredTag
  rw [getLast_filterMap_snoc]
  cases u with
  | token => exact h.elim
  | typed => exact h.elim
  | plain | lhs | hidden => simp

theorem hiddenOf_rule (us : List Use) (u : Use) (h : RuleUse us u) (m : List Nat) (hm : m ∈ names us) : hiddenOf (us ++ [u]) m = hiddenOf us m := by
  unfold hiddenOf
  rw [findSome_snoc]
  cases u with
  | hidden k l =>
    have : hiddenKey k ≠ m := by rintro rfl; exact h hm
    simp [this]
  | _ => simp

theorem tagOf_rule (us : List Use) (u : Use) (h : RuleUse us u) (m : List Nat) (hm : m ∈ names us) : tagOf (us ++ [u]) m = tagOf us m := by
  unfold tagOf
  rw [declaredTag_rule us u h, hiddenOf_rule us u h m hm]
  congr 1
  cases hiddenOf us m with
  | none => rfl
  | some l => simp only [Option.bind_some]; rw [declaredTag_rule us u h]

theorem hiddenOf_none (us : List Use) (m : List Nat) (h : ∀ k, m ≠ hiddenKey k) : hiddenOf us m = none := by
  unfold hiddenOf
  rw [List.findSome?_eq_none_iff]
  intro u hu
  cases u with
  | hidden k l => simp [Ne.symm (h k)]
  | _ => rfl

theorem tagOf_plain (us : List Use) (m : List Nat) (h : ∀ k, m ≠ hiddenKey k) : tagOf us m = declaredTag us m := by
  unfold tagOf
  rw [hiddenOf_none us m h]; simp

theorem symOf_lhs (us : List Use) (x : Sym) (m : List Nat) (hx : ¬ IsToken (us ++ [.plain x]) x.key) :
    symOf (us ++ [.lhs x]) m = if m = x.key then { symOf (us ++ [.plain x]) m with cls := .NONTERM } else symOf (us ++ [.plain x]) m := by
  have hlit : ∀ m, (Use.lhs x).lit? m = (Use.plain x).lit? m := by intro m; cases x <;> rfl
  have t : ∀ m, IsToken (us ++ [.lhs x]) m ↔ IsToken (us ++ [.plain x]) m := by
    intro m
    rw [isToken_snoc, isToken_snoc]
    unfold Use.tok
    rw [hlit]
    simp [Use.key]
  have l : IsLhs (us ++ [.lhs x]) m ↔ IsLhs us m ∨ x.key = m := by rw [isLhs_snoc]; simp
  have l' : IsLhs (us ++ [.plain x]) m ↔ IsLhs us m := by rw [isLhs_snoc]; simp
  have hh : hiddenOf (us ++ [.lhs x]) m = hiddenOf (us ++ [.plain x]) m := by unfold hiddenOf; rw [findSome_snoc, findSome_snoc]
  have d : ∀ m, declaredTag (us ++ [.lhs x]) m = declaredTag (us ++ [.plain x]) m := by
    intro m; rw [declaredTag_rule us (.lhs x) trivial, declaredTag_rule us (.plain x) trivial]
  have nn : numberOf (us ++ [.lhs x]) m = numberOf (us ++ [.plain x]) m := by unfold numberOf; rw [getLast_filterMap_snoc, getLast_filterMap_snoc]
  have cc : charOf (us ++ [.lhs x]) m = charOf (us ++ [.plain x]) m := by unfold charOf; rw [findSome_snoc, findSome_snoc, hlit]
  have pp : Spec.YText.precOf (us ++ [.lhs x]) m = Spec.YText.precOf (us ++ [.plain x]) m := by
    unfold Spec.YText.precOf; rw [getLast_filterMap_snoc, getLast_filterMap_snoc]
  have tt : tagOf (us ++ [.lhs x]) m = tagOf (us ++ [.plain x]) m := by
    unfold tagOf
    rw [d, hh]
    congr 1
    cases hiddenOf (us ++ [.plain x]) m with
    | none => rfl
    | some l => simp only [Option.bind_some]; rw [d]
  by_cases hm : m = x.key
  · subst hm
    rw [if_pos rfl]
    unfold symOf
    rw [nn, cc, pp, tt, propext (t _), if_neg hx, if_pos (l.2 (.inr rfl))]
  · rw [if_neg hm]
    unfold symOf
    have l2 : IsLhs (us ++ [.lhs x]) m ↔ IsLhs (us ++ [.plain x]) m := by rw [l, l']; simp [Ne.symm hm]
    rw [nn, cc, pp, tt, hh, propext (t m), propext l2]

theorem lhs_table (us : List Use) (x : Sym) (hx : ¬ IsToken (us ++ [.plain x]) x.key) :
    (table (us ++ [.plain x])).modify ((names (us ++ [.plain x])).idxOf x.key) (fun b => { b with cls := .NONTERM }) = table (us ++ [.lhs x]) := by
  refine modify_table _ _ (.lhs x) _ _ (key_mem us (.plain x)) (names_same us (.lhs x) (.plain x) rfl) ?_ ?_
  · intro m hm; rw [symOf_lhs us x m hx, if_neg hm]
  · rw [symOf_lhs us x _ hx, if_pos rfl]

theorem bar_table (us : List Use) (n : List Nat) (h1 : IsLhs us n) (h2 : ¬ IsToken us n) (hn : n ∈ names us) :
    (table us).modify ((names us).idxOf n) (fun b => { b with cls := .NONTERM }) = table us := by
  refine modify_table _ _ (.plain (.name n)) _ _ hn rfl (fun m _ => rfl) ?_
  unfold symOf
  rw [if_neg h2, if_pos h1]

theorem hidden_table (us : List Use) (k : Nat) (l : Sym) (h : hiddenKey k ∉ names us) (hk : hiddenKey k ≠ txt "error") :
    table us ++ [{ name := genName k, cls := .ACTION, tag := declaredTag us l.key }] = table (us ++ [.hidden k l]) := by
  have hn : names (us ++ [.hidden k l]) = names us ++ [hiddenKey k] := by
    rw [names_snoc, if_neg]
    · rfl
    · exact h
  unfold table
  rw [hn, List.map_append, List.map_cons, List.map_nil]
  congr 1
  · refine List.map_congr_left ?_
    intro m hm
    rw [symOf_other us (.hidden k l) m]
    · rintro rfl; exact h hm
    · intro l' _; rw [declaredTag_rule]; exact h
  · have hf := symOf_fresh us (hiddenKey k) h
    have hu : ∀ u ∈ us, u.key ≠ hiddenKey k := fun u hu e => h ((mem_names us _).2 (.inr ⟨u, hu, e⟩))
    have t : ¬ IsToken (us ++ [.hidden k l]) (hiddenKey k) := by
      rw [isToken_snoc]
      rintro (ht | ⟨-, ⟨_, _, _, _, _, h⟩ | ⟨_, h⟩⟩)
      · rcases ht with ht | ⟨u, h1, h2, -⟩
        · exact hk ht
        · exact hu u h1 h2
      · cases h
      · cases h
    have l' : ¬ IsLhs (us ++ [.hidden k l]) (hiddenKey k) := by
      rw [isLhs_snoc]
      rintro (⟨x, h1, h2⟩ | ⟨x, h1, -⟩)
      · exact hu _ h1 h2
      · cases h1
    have hh : hiddenOf (us ++ [.hidden k l]) (hiddenKey k) = some l := by
      have h0 : hiddenOf us (hiddenKey k) = none := by
        unfold hiddenOf
        rw [List.findSome?_eq_none_iff]
        intro u hm
        cases u with
        | hidden k' l' => have := hu _ hm; simp only [Use.key] at this; simp [this]
        | _ => rfl
      unfold hiddenOf at h0 ⊢
      rw [findSome_snoc, h0]; simp
    have nn : numberOf (us ++ [.hidden k l]) (hiddenKey k) = numberOf us (hiddenKey k) := by unfold numberOf; rw [getLast_filterMap_snoc]; simp
    have cc : charOf (us ++ [.hidden k l]) (hiddenKey k) = charOf us (hiddenKey k) := by unfold charOf; rw [findSome_snoc]; simp [Use.lit?]
    have pp : Spec.YText.precOf (us ++ [.hidden k l]) (hiddenKey k) = Spec.YText.precOf us (hiddenKey k) := by
      unfold Spec.YText.precOf; rw [getLast_filterMap_snoc]; simp
    have dd : declaredTag us (hiddenKey k) = none := by
      have := congrArg BSym.tag hf
      unfold symOf tagOf at this
      simp only at this
      cases hd : declaredTag us (hiddenKey k) with
      | none => rfl
      | some v => rw [hd] at this; simp at this
    have tt : tagOf (us ++ [.hidden k l]) (hiddenKey k) = declaredTag us l.key := by
      unfold tagOf
      have hr : RuleUse us (.hidden k l) := h
      rw [declaredTag_rule us _ hr, dd, hh]
      simp only [Option.bind_some, Option.none_or]
      rw [declaredTag_rule us _ hr]
    have f1 := congrArg BSym.value hf
    have f2 := congrArg BSym.prec hf
    have f3 := congrArg BSym.assoc hf
    unfold symOf at f1 f2 f3
    simp only at f1 f2 f3
    unfold symOf
    rw [nn, cc, pp, tt, hh, if_neg t, if_neg l', f1, f2, f3]
    rfl

/-! The state while rules are read -/

theorem takeWhile_shift (p : List (Option RSym)) : (shiftItems p).takeWhile Option.isSome = p.takeWhile Option.isSome := by
  induction p with
  | nil => rfl
  | cons x p ih =>
    cases x with
    | none => rfl
    | some x => simp [shiftItems, ih]

/-- the name of a symbol of the rule being read -/
inductive RKey (us : List Use) (k : Nat) : RSym → List Nat → Prop
  | user (m : List Nat) : m ∈ names us → RKey us k (.user ((names us).idxOf m)) m
  | gen (j : Nat) : j < k → hiddenKey (j + 1) ∈ names us → RKey us k (.gen (j + 1)) (hiddenKey (j + 1))

theorem RKey.mono {us : List Use} {k k' : Nat} {r : RSym} {m : List Nat} (h : RKey us k r m) (u : Use) (hk : k ≤ k') : RKey (us ++ [u]) k' r m := by
  cases h with
  | user m hm =>
    rw [← idxOf_stable us [u] m hm]
    exact .user m ((names_prefix us [u]).subset hm)
  | gen j hj hm => exact .gen j (by omega) ((names_prefix us [u]).subset hm)

theorem RKey.mem {us : List Use} {k : Nat} {r : RSym} {m : List Nat} (h : RKey us k r m) : m ∈ names us := by
  cases h <;> assumption

/-- positions of the symbols made for actions -/
noncomputable def gensOf (us : List Use) (k : Nat) : List Nat := (List.range k).map fun j => (names us).idxOf (hiddenKey (j + 1))

theorem RKey.pos {us : List Use} {k : Nat} {r : RSym} {m : List Nat} (h : RKey us k r m) : posOf (gensOf us k) r = (names us).idxOf m := by
  cases h with
  | user m hm => rfl
  | gen j hj hm => simp [posOf, gensOf, hj]

structure RCore (D : List Nat → Option (List Nat)) (us : List Use) (l : Sym) (k N : Nat) (T : List (Option (List Nat))) (s : FSt) : Prop where
  syms : s.d.syms = table us
  tag : ∀ m, declaredTag us m = D m
  lhs : s.rd.plhs.head? = some (.user ((names us).idxOf l.key))
  isLhs : IsLhs us l.key
  notTok : ¬ IsToken us l.key
  lOk : ∀ j, l.key ≠ hiddenKey j
  cnt : s.rd.plhs.length = N
  gs : s.rd.gensym = k
  gens : s.gens = gensOf us k
  gmem : ∀ j < k, hiddenKey (j + 1) ∈ names us
  gmax : ∀ j, k < j → hiddenKey j ∉ names us
  rhs : ∃ rs ρ, s.rd.pitem.takeWhile Option.isSome = (rs.map some).reverse ∧ List.Forall₂ (RKey us k) rs ρ ∧ ρ.map (tagOf us) = T

theorem isLhs_mem {us : List Use} {n : List Nat} (h : IsLhs us n) : n ∈ names us := by
  obtain ⟨x, h1, h2⟩ := h
  exact (mem_names us n).2 (.inr ⟨_, h1, h2⟩)

theorem error_notHidden (k : Nat) : hiddenKey k ≠ txt "error" := by
  intro h
  have := congrArg List.head? h
  simp [hiddenKey, txt] at this

theorem gensOf_snoc (us : List Use) (k : Nat) (u : Use) (h : ∀ j < k, hiddenKey (j + 1) ∈ names us) : gensOf (us ++ [u]) k = gensOf us k := by
  unfold gensOf
  refine List.map_congr_left ?_
  intro j hj
  rw [idxOf_stable us [u] _ (h j (List.mem_range.1 hj))]

theorem rhs_mono {us : List Use} {k k' : Nat} (u : Use) (hu : RuleUse us u) (hk : k ≤ k') {rs : List RSym} {ρ : List (List Nat)}
    (h : List.Forall₂ (RKey us k) rs ρ) : List.Forall₂ (RKey (us ++ [u]) k') rs ρ ∧ ρ.map (tagOf (us ++ [u])) = ρ.map (tagOf us) := by
  induction h with
  | nil => exact ⟨.nil, rfl⟩
  | cons h _ ih => exact ⟨.cons (h.mono u hk) ih.1, by rw [List.map_cons, List.map_cons, ih.2, tagOf_rule us u hu _ h.mem]⟩

/-- the tag of the left-hand side -/
theorem RCore.lhsTag {D : List Nat → Option (List Nat)} {us : List Use} {l : Sym} {k N : Nat} {T : List (Option (List Nat))} {s : FSt}
    (h : RCore D us l k N T s) : s.lhs = (names us).idxOf l.key ∧ (s.d.syms[s.lhs]?).bind BSym.tag = D l.key := by
  have e : s.lhs = (names us).idxOf l.key := by
    unfold FSt.lhs
    have := h.lhs
    cases hp : s.rd.plhs with
    | nil => rw [hp] at this; cases this
    | cons p ps => rw [hp] at this; cases this; rfl
  refine ⟨e, ?_⟩
  rw [e, h.syms, table_get us _ (isLhs_mem h.isLhs)]
  simp only [Option.bind_some, symOf]
  rw [tagOf_plain us _ h.lOk, h.tag]

theorem RCore.insert {D : List Nat → Option (List Nat)} {us : List Use} {l : Sym} {k N : Nat} {T : List (Option (List Nat))} {s : FSt}
    (h : RCore D us l k N T s) : RCore D (us ++ [.hidden (k + 1) l]) l (k + 1) (N + 1) (T ++ [D l.key]) (insertEmptyF s) := by
  have hfresh : hiddenKey (k + 1) ∉ names us := h.gmax _ (by omega)
  have hu : RuleUse us (.hidden (k + 1) l) := hfresh
  have hn : names (us ++ [.hidden (k + 1) l]) = names us ++ [hiddenKey (k + 1)] := by
    rw [names_snoc, if_neg]
    · rfl
    · exact hfresh
  have hmem : hiddenKey (k + 1) ∈ names (us ++ [.hidden (k + 1) l]) := key_mem us _
  have hidx : (names (us ++ [.hidden (k + 1) l])).idxOf (hiddenKey (k + 1)) = (names us).length := by
    rw [hn, List.idxOf_append_of_notMem hfresh]; simp
  refine ⟨?_, ?_, ?_, ?_, ?_, h.lOk, ?_, ?_, ?_, ?_, ?_, ?_⟩
  · unfold insertEmptyF
    simp only
    rw [h.lhsTag.2, h.syms, h.gs, ← h.tag]
    exact hidden_table us (k + 1) l hfresh (error_notHidden _)
  · intro m; rw [declaredTag_rule us _ hu, h.tag]
  · have := h.lhs
    unfold insertEmptyF insertEmptyRule
    simp only
    cases hp : s.rd.plhs with
    | nil => rw [hp] at this; cases this
    | cons p ps =>
      rw [hp] at this; cases this
      rw [idxOf_stable us _ _ (isLhs_mem h.isLhs)]; rfl
  · rw [isLhs_snoc]; exact .inl h.isLhs
  · rw [isToken_snoc]
    rintro (ht | ⟨-, ⟨_, _, _, _, _, h⟩ | ⟨_, h⟩⟩)
    · exact h.notTok ht
    · cases h
    · cases h
  · have h1 := h.cnt
    have h2 := h.lhs
    unfold insertEmptyF insertEmptyRule
    simp only
    cases hp : s.rd.plhs with
    | nil => rw [hp] at h2; cases h2
    | cons p ps => rw [hp] at h1; simp at h1 ⊢; omega
  · unfold insertEmptyF insertEmptyRule
    simp only
    rw [h.gs]
  · unfold insertEmptyF
    simp only
    have e : s.d.syms.length = (names us).length := by rw [h.syms]; simp [table]
    rw [h.gens, e, ← hidx]
    have := gensOf_snoc us k (.hidden (k + 1) l) h.gmem
    rw [← this]
    unfold gensOf
    rw [List.range_succ, List.map_append]; rfl
  · intro j hj
    by_cases hj' : j = k
    · subst hj'; exact hmem
    · exact (names_prefix us _).subset (h.gmem j (by omega))
  · intro j hj
    rw [hn, List.mem_append, List.mem_singleton]
    rintro (hm | hm)
    · exact h.gmax j (by omega) hm
    · have := hiddenKey_inj hm; omega
  · obtain ⟨rs, ρ, h1, h2, h3⟩ := h.rhs
    refine ⟨rs ++ [.gen (k + 1)], ρ ++ [hiddenKey (k + 1)], ?_, ?_, ?_⟩
    · unfold insertEmptyF insertEmptyRule
      simp only
      rw [List.takeWhile_cons_of_pos rfl, takeWhile_shift, h1, h.gs]; simp
    · refine List.rel_append (rhs_mono _ hu (by omega) h2).1 (.cons (.gen k (by omega) hmem) .nil)
    · rw [List.map_append, (rhs_mono _ hu (Nat.le_refl k) h2).2, h3]
      congr 1
      simp only [List.map_cons, List.map_nil, List.cons.injEq, and_true]
      unfold tagOf
      have dd : declaredTag us (hiddenKey (k + 1)) = none := by
        have := congrArg BSym.tag (symOf_fresh us _ hfresh)
        unfold symOf tagOf at this
        simp only at this
        cases hd : declaredTag us (hiddenKey (k + 1)) with
        | none => rfl
        | some v => rw [hd] at this; simp at this
      have hh : hiddenOf (us ++ [.hidden (k + 1) l]) (hiddenKey (k + 1)) = some l := by
        have h0 : hiddenOf us (hiddenKey (k + 1)) = none := by
          unfold hiddenOf
          rw [List.findSome?_eq_none_iff]
          intro u hm
          cases u with
          | hidden k' l' =>
            have : hiddenKey k' ≠ hiddenKey (k + 1) := fun e => hfresh ((mem_names us _).2 (.inr ⟨_, hm, e⟩))
            simp [this]
          | _ => rfl
        unfold hiddenOf at h0 ⊢
        rw [findSome_snoc, h0]; simp
      rw [declaredTag_rule us _ hu, dd, hh]
      simp only [Option.bind_some, Option.none_or]
      rw [declaredTag_rule us _ hu, h.tag]

/-- a symbol is named that is not the left-hand side of a rule -/
theorem RCore.plain {D : List Nat → Option (List Nat)} {us : List Use} {l : Sym} {k N : Nat} {T : List (Option (List Nat))} {s : FSt}
    (h : RCore D us l k N T s) (x : Sym) (hx : ∃ t u, SymAt x t u) (hl : ∀ z, l.key ≠ litName z) :
    RCore D (us ++ [.plain x]) l k N T { s with d := { s.d with syms := table (us ++ [.plain x]) } } := by
  obtain ⟨t, u, hx⟩ := hx
  have hu : RuleUse us (.plain x) := trivial
  refine ⟨rfl, ?_, ?_, ?_, ?_, h.lOk, h.cnt, h.gs, ?_, ?_, ?_, ?_⟩
  · intro m; rw [declaredTag_rule us _ hu, h.tag]
  · rw [idxOf_stable us _ _ (isLhs_mem h.isLhs)]; exact h.lhs
  · rw [isLhs_snoc]; exact .inl h.isLhs
  · rw [isToken_snoc]
    rintro (ht | ⟨h1, ⟨_, _, _, _, _, h⟩ | ⟨z, h2⟩⟩)
    · exact h.notTok ht
    · cases h
    · exact hl z (lit_key _ _ _ h2).1
  · rw [gensOf_snoc us k _ h.gmem]; exact h.gens
  · intro j hj; exact (names_prefix us _).subset (h.gmem j hj)
  · intro j hj
    rw [names_snoc]
    split
    · exact h.gmax j hj
    · rw [List.mem_append, List.mem_singleton]
      rintro (hm | hm)
      · exact h.gmax j hj hm
      · exact symAt_notHidden hx j hm.symm
  · obtain ⟨rs, ρ, h1, h2, h3⟩ := h.rhs
    exact ⟨rs, ρ, h1, (rhs_mono _ hu (Nat.le_refl k) h2).1, by rw [(rhs_mono _ hu (Nat.le_refl k) h2).2, h3]⟩

/-- a symbol is added to the rule -/
theorem RCore.push {D : List Nat → Option (List Nat)} {us : List Use} {l : Sym} {k N : Nat} {T : List (Option (List Nat))} {s : FSt}
    (h : RCore D us l k N T s) (x : Sym) (hx : x.key ∈ names us) (hk : ∀ j, x.key ≠ hiddenKey j) (b : Bool) :
    RCore D us l k N (T ++ [D x.key]) { s with rd := { s.rd with lastAct := b, pitem := some (.user ((names us).idxOf x.key)) :: s.rd.pitem } } := by
  refine ⟨h.syms, h.tag, h.lhs, h.isLhs, h.notTok, h.lOk, h.cnt, h.gs, h.gens, h.gmem, h.gmax, ?_⟩
  obtain ⟨rs, ρ, h1, h2, h3⟩ := h.rhs
  refine ⟨rs ++ [.user ((names us).idxOf x.key)], ρ ++ [x.key], ?_, List.rel_append h2 (.cons (.user _ hx) .nil), ?_⟩
  · simp only
    rw [List.takeWhile_cons_of_pos rfl, h1]; simp
  · rw [List.map_append, h3]
    simp only [List.map_cons, List.map_nil]
    rw [tagOf_plain us _ hk, h.tag]

theorem RCore.ctx {D : List Nat → Option (List Nat)} {us : List Use} {l : Sym} {k N : Nat} {T : List (Option (List Nat))} {s : FSt}
    (h : RCore D us l k N T s) : ctxOf s = ⟨D l.key, T⟩ := by
  unfold ctxOf
  rw [h.lhsTag.2]
  congr 1
  obtain ⟨rs, ρ, h1, h2, h3⟩ := h.rhs
  rw [h1, List.reverse_reverse, ← h3, h.syms, h.gens]
  clear h1 h3
  induction h2 with
  | nil => rfl
  | cons hr _ ih =>
    simp only [List.map_cons]
    rw [ih]
    congr 1
    simp only [Option.bind_some]
    rw [hr.pos, table_get us _ hr.mem]
    rfl

/-- a new rule -/
theorem RCore.start {D : List Nat → Option (List Nat)} {us : List Use} {l : Sym} {k N : Nat} {T : List (Option (List Nat))} {s : FSt}
    (h : RCore D us l k N T s) (x : Sym) (hx : ∃ t u, SymAt x t u) (ht : ¬ IsToken (us ++ [.plain x]) x.key) :
    RCore D (us ++ [.lhs x]) x k (N + 1) [] { s with
      d := { s.d with syms := table (us ++ [.lhs x]) }
      rd := startRule (endRule s.rd) (.user ((names (us ++ [.plain x])).idxOf x.key)) } := by
  obtain ⟨t, u, hx⟩ := hx
  have hu : RuleUse us (.lhs x) := trivial
  refine ⟨rfl, ?_, ?_, ?_, ?_, symAt_notHidden hx, ?_, h.gs, ?_, ?_, ?_, ⟨[], [], rfl, .nil, rfl⟩⟩
  · intro m; rw [declaredTag_rule us _ hu, h.tag]
  · rw [names_same us (.lhs x) (.plain x) rfl]; rfl
  · rw [isLhs_snoc]; exact .inr ⟨x, rfl, rfl⟩
  · have hlit : (Use.lhs x).lit? x.key = (Use.plain x).lit? x.key := by cases x <;> rfl
    rw [isToken_snoc] at ht ⊢
    unfold Use.tok at ht ⊢
    rw [hlit]
    simpa [Use.key] using ht
  · unfold startRule endRule; simp [h.cnt]
  · rw [gensOf_snoc us k _ h.gmem]; exact h.gens
  · intro j hj; exact (names_prefix us _).subset (h.gmem j hj)
  · intro j hj
    rw [names_snoc]
    split
    · exact h.gmax j hj
    · rw [List.mem_append, List.mem_singleton]
      rintro (hm | hm)
      · exact h.gmax j hj hm
      · exact symAt_notHidden hx j hm.symm

theorem RCore.again {D : List Nat → Option (List Nat)} {us : List Use} {l : Sym} {k N : Nat} {T : List (Option (List Nat))} {s : FSt}
    (h : RCore D us l k N T s) :
    RCore D us l k (N + 1) [] { s with rd := startRule (endRule s.rd) (.user ((names us).idxOf l.key)) } :=
  ⟨h.syms, h.tag, rfl, h.isLhs, h.notTok, h.lOk, by unfold startRule endRule; simp [h.cnt], h.gs, h.gens, h.gmem, h.gmax, ⟨[], [], rfl, .nil, rfl⟩⟩

end Verif.Byacc.Rd
