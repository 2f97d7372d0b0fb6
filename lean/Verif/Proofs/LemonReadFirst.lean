import Verif.Proofs.LemonReadFile
/-
Helper lemmas for C72: words read without error can be continued; the first error.
-/
set_option autoImplicit false
namespace Verif.Lemon
open Verif.Spec.GFile

/-- what holds in all states that the reader reaches -/
structure Reach (s : RState) : Prop where
  alias1 : s.state = .RHS_ALIAS_1 → s.rhs ≠ []
  resync : s.errs = [] → s.state ≠ .RESYNC_AFTER_RULE_ERROR ∧ s.state ≠ .RESYNC_AFTER_DECL_ERROR

theorem updRule_state (s : RState) (f : RRule → RRule) : (s.updRule f).state = s.state := by unfold RState.updRule; split <;> rfl
theorem goto_state (s : RState) (t : RSt) : (s.goto t).state = t := rfl
theorem goto_rhs (s : RState) (t : RSt) : (s.goto t).rhs = s.rhs := rfl
theorem fail_state (s : RState) (l : Nat) (e : RErr) (t : RSt) : (s.fail l e t).state = t := rfl

theorem altToken_state (s : RState) (l : Nat) (x : Word) (m : RhsRef) (a : Option Word) : (altToken s l x m a).state = s.state := by
  unfold altToken
  cases m with
  | sym y =>
    simp only
    split
    · split <;> simp [err_state, upd_state, symNew_state]
    · split <;> simp [err_state, symNew_state]
  | alts lst =>
    simp only
    split <;> simp [err_state, symNew_state]

theorem Reach.step {s : RState} (o : ROpts) (h : Reach s) (l : Nat) (x : Word) : Reach (readToken o s l x) := by
  constructor
  · intro hs
    by_cases hst : s.state = .IN_RHS
    · rw [rd_rhs _ _ _ hst, rhsToken] at hs ⊢
      simp only at hs ⊢
      split at hs
      · simp [endRule] at hs
      next h0 =>
      rw [if_neg h0]
      split at hs
      · split at hs
        · simp [fail_state] at hs
        · simp [symNew_state, hst] at hs
      next h1 =>
      rw [if_neg h1]
      rcases Option.eq_none_or_eq_some s.rhs.getLast? with hl | ⟨⟨m, a⟩, hl⟩
      · simp only [hl] at hs; simp [fail_state] at hs
      simp only [hl] at hs ⊢
      split at hs
      · rw [altToken_state, hst] at hs; simp at hs
      next h2 =>
      rw [if_neg h2]
      split at hs
      · next h3 => rw [if_pos h3, goto_rhs]; rintro h; simp [h] at hl
      · simp [fail_state] at hs
    by_cases hst2 : s.state = .RHS_ALIAS_1
    · have hne := h.alias1 hst2
      rw [rd_rhsAlias1 _ _ _ hst2, rhsAliasToken] at hs
      split at hs
      · next hl => simp at hl; exact absurd hl hne
      · split at hs
        · simp at hs
        · simp [fail_state] at hs
    · exfalso
      unfold readToken at hs
      revert hs
      simp only [beginToken, codeToken, markToken, keywordToken, destructorToken, datatypeToken, precToken,
        argToken, fallbackToken, tokenToken, wildcardToken, classToken, classMember]
      split
      all_goals first | (exfalso; exact hst (by assumption)) | (exfalso; exact hst2 (by assumption)) | skip
      all_goals repeat' split
      all_goals simp_all [updRule_state, symNew_state, upd_state, goto_state, err_state, fail_state]
  · intro he
    by_cases hs0 : s.errs = []
    · have hr := h.resync hs0
      by_cases hst : s.state = .IN_RHS
      · rw [rd_rhs _ _ _ hst, rhsToken] at he ⊢
        simp only at he ⊢
        split
        · simp [endRule]
        next h0 =>
        rw [if_neg h0] at he
        split
        · next h1 =>
          rw [if_pos h1] at he
          split
          · next h2 => rw [if_pos h2] at he; simp [fail_errs] at he
          · simp [symNew_state, hst]
        next h1 =>
        rw [if_neg h1] at he
        rcases Option.eq_none_or_eq_some s.rhs.getLast? with hl | ⟨⟨m, a⟩, hl⟩
        · simp only [hl] at he; simp [fail_errs] at he
        simp only [hl] at he ⊢
        split
        · rw [altToken_state, hst]; simp
        next h2 =>
        rw [if_neg h2] at he
        split
        · simp [goto_state]
        · next h3 => rw [if_neg h3] at he; simp [fail_errs] at he
      · unfold readToken at he ⊢
        revert he
        simp only [beginToken, codeToken, markToken, rhsAliasToken, keywordToken, destructorToken, datatypeToken, precToken,
          argToken, fallbackToken, tokenToken, wildcardToken, classToken, classMember]
        split
        all_goals first | (exfalso; exact hst (by assumption)) | skip
        all_goals repeat' split
        all_goals simp_all [updRule_state, symNew_state, upd_state, goto_state, err_state, fail_state, fail_errs, err_errs]
    · have := readToken_errs o s l x
      rw [he] at this
      exact absurd (List.prefix_nil.mp this) hs0

theorem Reach.steps {s : RState} (o : ROpts) (h : Reach s) (ws : List (Nat × Word)) : Reach (readTokens o s ws) := by
  induction ws generalizing s with
  | nil => exact h
  | cons w ws ih => exact ih (h.step o w.1 w.2)

theorem init_reach (z : Bool) : Reach (.init z) := ⟨by simp [RState.init], by simp [RState.init]⟩

/-- a new name -/
def freshName (s : RState) : Word := 97 :: List.replicate ((s.syms.map fun y => y.name.length).sum) 97

theorem mem_le_sum (l : List Nat) (n : Nat) (h : n ∈ l) : n ≤ l.sum := by
  induction l with
  | nil => cases h
  | cons a l ih =>
    rcases List.mem_cons.mp h with rfl | h
    · simp
    · have := ih h; simp; omega

theorem freshName_find (s : RState) : s.find (freshName s) = none := by
  rw [RState.find, List.find?_eq_none]
  intro y hy h
  simp only [beq_iff_eq] at h
  have h1 : y.name.length = (s.syms.map fun y => y.name.length).sum + 1 := by rw [h]; simp [freshName]
  have h2 : y.name.length ≤ (s.syms.map fun y => y.name.length).sum := mem_le_sum _ _ (List.mem_map_of_mem (f := fun y : Sym => y.name.length) hy)
  omega

theorem readTokens_at (o : ROpts) (s : RState) (l : Nat) (x : Word) (xs : List Word) :
    readTokens o s ((x :: xs).map fun x => (l, x)) = readTokens o (readToken o s l x) (xs.map fun x => (l, x)) := rfl

theorem GoodRead.of_errs {o : ROpts} {s s' : RState} {ws : List (Nat × Word)} (h : readTokens o s ws = s') (he : s'.errs = []) (hb : s'.between) : GoodRead o s ws := by
  unfold GoodRead; rw [h]; exact ⟨he, hb⟩

/-- any state without error, except after `[`, can be finished -/
theorem finish_good (o : ROpts) (s : RState) (h : Reach s) (he : s.errs = []) (hm : s.state ≠ .PRECEDENCE_MARK_1) :
    ∃ xs : List Word, (∀ x ∈ xs, x = text "yacc_prec" ∨ x = text "A" ∨ x = text "." ∨ x = text "::=" ∨ x = text ")" ∨ x = text "]" ∨ x = text "a" ∨ x = freshName s) ∧
      GoodRead o s (xs.map fun x => (1, x)) := by
  have fin : ∀ xs : List Word, (∀ x ∈ xs, x = text "yacc_prec" ∨ x = text "A" ∨ x = text "." ∨ x = text "::=" ∨ x = text ")" ∨ x = text "]" ∨ x = text "a" ∨ x = freshName s) →
      (readTokens o s (xs.map fun x => (1, x))).errs = [] ∧ (readTokens o s (xs.map fun x => (1, x))).state = .WAITING_FOR_DECL_OR_RULE →
      ∃ xs : List Word, (∀ x ∈ xs, x = text "yacc_prec" ∨ x = text "A" ∨ x = text "." ∨ x = text "::=" ∨ x = text ")" ∨ x = text "]" ∨ x = text "a" ∨ x = freshName s) ∧
        GoodRead o s (xs.map fun x => (1, x)) := fun xs h1 h2 => ⟨xs, h1, h2.1, .inr h2.2⟩
  have dot : ∀ s' : RState, s'.state = .IN_RHS → readToken o s' 1 (text ".") = endRule s' 1 := by
    intro s' hs'; rw [rd_rhs _ _ _ hs']; rfl
  have arg : ∀ s' : RState, s'.state = .WAITING_FOR_DECL_ARG → (readToken o s' 1 (text "A")).errs = s'.errs ∧ (readToken o s' 1 (text "A")).state = .WAITING_FOR_DECL_OR_RULE := by
    intro s' hs'
    rw [rd_arg _ _ _ hs', argToken]
    have : (text "A").headD 0 = 123 ∨ (text "A").headD 0 = 34 ∨ isAlnum ((text "A").headD 0) = true := by decide
    simp only [if_pos this]
    cases s'.slot <;> exact ⟨rfl, rfl⟩
  have hres := h.resync he
  cases hs : s.state with
  | INITIALIZE => exact ⟨[], by simp, he, .inl hs⟩
  | WAITING_FOR_DECL_OR_RULE => exact ⟨[], by simp, he, .inr hs⟩
  | WAITING_FOR_DECL_KEYWORD =>
    refine fin [text "yacc_prec"] (by simp) ?_
    rw [readTokens_at, List.map_nil, readTokens_nil, rd_keyword _ _ _ hs, keywordToken, if_pos (by decide)]
    have : keyword (text "yacc_prec") = some .yaccPrec := by decide
    simp only [this]
    exact ⟨he, trivial⟩
  | WAITING_FOR_DECL_ARG =>
    refine fin [text "A"] (by simp) ?_
    rw [readTokens_at, List.map_nil, readTokens_nil, (arg s hs).1]
    exact ⟨he, (arg s hs).2⟩
  | WAITING_FOR_PRECEDENCE_SYMBOL =>
    refine fin [text "."] (by simp) ?_
    rw [readTokens_at, List.map_nil, readTokens_nil, rd_prec _ _ _ hs]
    exact ⟨he, rfl⟩
  | WAITING_FOR_FALLBACK_ID =>
    refine fin [text "."] (by simp) ?_
    rw [readTokens_at, List.map_nil, readTokens_nil, rd_fallback _ _ _ hs]
    exact ⟨he, rfl⟩
  | WAITING_FOR_WILDCARD_ID =>
    refine fin [text "."] (by simp) ?_
    rw [readTokens_at, List.map_nil, readTokens_nil, rd_wildcard _ _ _ hs]
    exact ⟨he, rfl⟩
  | WAITING_FOR_TOKEN_NAME =>
    refine fin [text "."] (by simp) ?_
    rw [readTokens_at, List.map_nil, readTokens_nil, rd_token _ _ _ hs]
    exact ⟨he, rfl⟩
  | WAITING_FOR_CLASS_TOKEN =>
    refine fin [text "."] (by simp) ?_
    rw [readTokens_at, List.map_nil, readTokens_nil, rd_classMember _ _ _ hs]
    exact ⟨he, rfl⟩
  | WAITING_FOR_ARROW =>
    refine fin [text "::=", text "."] (by simp) ?_
    rw [readTokens_at, readTokens_at, List.map_nil, readTokens_nil, rd_arrow _ _ _ hs, if_pos (by decide), dot _ rfl]
    exact ⟨he, rfl⟩
  | IN_RHS =>
    refine fin [text "."] (by simp) ?_
    rw [readTokens_at, List.map_nil, readTokens_nil, dot _ hs]
    exact ⟨he, rfl⟩
  | LHS_ALIAS_1 =>
    refine fin [text "A", text ")", text "::=", text "."] (by simp) ?_
    rw [readTokens_at, readTokens_at, readTokens_at, readTokens_at, List.map_nil, readTokens_nil, rd_lhs1 _ _ _ hs, if_pos (by decide),
      rd_lhs2 o 1 (text ")") rfl, if_pos (by decide), rd_lhs3 o 1 (text "::=") rfl, if_pos (by decide), dot _ rfl]
    exact ⟨he, rfl⟩
  | LHS_ALIAS_2 =>
    refine fin [text ")", text "::=", text "."] (by simp) ?_
    rw [readTokens_at, readTokens_at, readTokens_at, List.map_nil, readTokens_nil,
      rd_lhs2 o 1 (text ")") hs, if_pos (by decide), rd_lhs3 o 1 (text "::=") rfl, if_pos (by decide), dot _ rfl]
    exact ⟨he, rfl⟩
  | LHS_ALIAS_3 =>
    refine fin [text "::=", text "."] (by simp) ?_
    rw [readTokens_at, readTokens_at, List.map_nil, readTokens_nil, rd_lhs3 o 1 (text "::=") hs, if_pos (by decide), dot _ rfl]
    exact ⟨he, rfl⟩
  | RHS_ALIAS_1 =>
    refine fin [text "A", text ")", text "."] (by simp) ?_
    have hne := h.alias1 hs
    obtain ⟨⟨m, a⟩, hl⟩ : ∃ p, s.rhs.getLast? = some p := by
      rcases Option.eq_none_or_eq_some s.rhs.getLast? with h | h
      · simp at h; exact absurd h hne
      · exact h
    rw [readTokens_at, readTokens_at, readTokens_at, List.map_nil, readTokens_nil, rd_rhsAlias1 _ _ _ hs, rhsAliasToken]
    simp only [hl]
    rw [if_pos (by decide), rd_rhsAlias2 o 1 (text ")") rfl, if_pos (by decide), dot _ rfl]
    exact ⟨he, rfl⟩
  | RHS_ALIAS_2 =>
    refine fin [text ")", text "."] (by simp) ?_
    rw [readTokens_at, readTokens_at, List.map_nil, readTokens_nil, rd_rhsAlias2 o 1 (text ")") hs, if_pos (by decide), dot _ rfl]
    exact ⟨he, rfl⟩
  | PRECEDENCE_MARK_1 => exact absurd hs hm
  | PRECEDENCE_MARK_2 =>
    refine fin [text "]"] (by simp) ?_
    rw [readTokens_at, List.map_nil, readTokens_nil, rd_mark2 _ _ _ hs, if_neg (by decide)]
    exact ⟨he, rfl⟩
  | RESYNC_AFTER_RULE_ERROR => exact absurd hs hres.1
  | RESYNC_AFTER_DECL_ERROR => exact absurd hs hres.2
  | WAITING_FOR_DESTRUCTOR_SYMBOL =>
    refine fin [text "a", text "A"] (by simp) ?_
    rw [readTokens_at, readTokens_at, List.map_nil, readTokens_nil, rd_destructor _ _ _ hs, destructorToken, if_neg (by decide), (arg _ rfl).1]
    exact ⟨by simp [symNew_errs, he], (arg _ rfl).2⟩
  | WAITING_FOR_DATATYPE_SYMBOL =>
    refine fin [freshName s, text "A"] (by simp) ?_
    have hn : ¬ (!isAlpha ((freshName s).headD 0)) = true := by simp [freshName, isAlpha]
    rw [readTokens_at, readTokens_at, List.map_nil, readTokens_nil, rd_datatype _ _ _ hs, datatypeToken, if_neg hn, freshName_find]
    rw [if_neg (by simp), (arg _ rfl).1]
    exact ⟨by simp [symNew_errs, he], (arg _ rfl).2⟩
  | WAITING_FOR_CLASS_ID =>
    refine fin [freshName s, text "."] (by simp) ?_
    have hn : ¬ (!isLower ((freshName s).headD 0)) = true := by simp [freshName, isLower]
    rw [readTokens_at, readTokens_at, List.map_nil, readTokens_nil, rd_class _ _ _ hs, classToken, if_neg hn, freshName_find]
    rw [if_neg (by simp)]
    rw [rd_classMember o 1 (text ".") rfl]
    exact ⟨by simp [classMember, text, goto_errs, upd_errs, symNew_errs, he], by simp [classMember, text, goto_state]⟩

/-- a word gives at most one message, with its line -/
theorem readToken_one (o : ROpts) (s : RState) (l : Nat) (x : Word) : (readToken o s l x).errs = s.errs ∨ ∃ e, (readToken o s l x).errs = s.errs ++ [(l, e)] := by
  unfold readToken
  simp only [beginToken, codeToken, markToken, rhsToken, endRule, altToken, rhsAliasToken, keywordToken, destructorToken, datatypeToken, precToken,
    argToken, fallbackToken, tokenToken, wildcardToken, classToken, classMember]
  split
  all_goals repeat' split
  all_goals simp [updRule_errs, symNew_errs, upd_errs, goto_errs, err_errs, fail_errs]

theorem first_error (o : ROpts) (ws : List (Nat × Word)) (s : RState) (h : s.errs = []) (he : (readTokens o s ws).errs ≠ []) :
    ∃ u w v e es, ws = u ++ w :: v ∧ (readTokens o s u).errs = [] ∧ (readTokens o s (u ++ [w])).errs ≠ [] ∧ (readTokens o s ws).errs = (w.1, e) :: es := by
  induction ws generalizing s with
  | nil => exact absurd h he
  | cons w ws ih =>
    rw [readTokens_cons] at he
    rcases readToken_one o s w.1 w.2 with h1 | ⟨e, h1⟩
    · rw [h] at h1
      obtain ⟨u, w', v, e, es, rfl, h2, h3, h4⟩ := ih _ h1 he
      exact ⟨w :: u, w', v, e, es, rfl, h2, h3, h4⟩
    · rw [h, List.nil_append] at h1
      obtain ⟨es, h2⟩ := readTokens_errs o ws (readToken o s w.1 w.2)
      rw [h1] at h2
      exact ⟨[], w, ws, e, es, rfl, h, by simp [readTokens_cons, readTokens_nil, h1], by rw [readTokens_cons, ← h2]; rfl⟩

/-- the state after `[` -/
theorem mark_state (o : ROpts) (ws : List (Nat × Word)) (s : RState) (hp : ∀ w ∈ ws, Punct w.2) (hs : s.state ≠ .PRECEDENCE_MARK_1)
    (h : (readTokens o s ws).state = .PRECEDENCE_MARK_1) : ∃ u l, ws = u ++ [(l, text "[")] := by
  rcases List.eq_nil_or_concat ws with rfl | ⟨u, w, rfl⟩
  · exact absurd h hs
  · rw [List.concat_eq_append] at h hp ⊢
    rw [readTokens_append, readTokens_cons, readTokens_nil] at h
    refine ⟨u, w.1, ?_⟩
    have : w.2 = text "[" := by
      refine (hp w (by simp)).single 91 (by simp) ?_
      revert h
      generalize readTokens o s u = t
      intro h
      by_contra hne
      unfold readToken at h
      revert h
      simp only [beginToken, codeToken, markToken, rhsToken, endRule, rhsAliasToken, keywordToken, destructorToken, datatypeToken, precToken,
        argToken, fallbackToken, tokenToken, wildcardToken, classToken, classMember]
      split
      all_goals repeat' split
      all_goals simp_all [updRule_state, symNew_state, upd_state, goto_state, err_state, fail_state, altToken_state]
    rw [← this]

end Verif.Lemon
