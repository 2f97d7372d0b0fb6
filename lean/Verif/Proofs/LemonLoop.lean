import Verif.Spec.LemonRun
import Verif.Proofs.LemonFind
/-
Rounds of the parser and its stack, for any tables.
-/
set_option autoImplicit false
namespace Verif.Lemon

variable {T : Tables} {c : PConf}

theorem parseLoop_trace {t : Nat} : ∀ (fuel : Nat) (eh : Bool) (p q : PState) (ps : List PState) (evs evs' : List Ev),
    Trace T c (p :: ps) evs → parseLoop T c t fuel eh p = some (q, evs') → ∃ qs, Trace T c (q :: qs ++ p :: ps) (evs ++ evs') := by
  intro fuel
  induction fuel with
  | zero => intro eh p q ps evs evs' _ h; cases h
  | succ fuel ih =>
    intro eh p q ps evs evs' ht h
    rw [parseLoop] at h
    split at h
    · cases h
    · rename_i p1 e1 hr
      simp only [Option.some.injEq, Prod.mk.injEq] at h
      obtain ⟨rfl, rfl⟩ := h
      exact ⟨[], .round ht hr⟩
    · rename_i eh1 p1 e1 hr
      obtain ⟨⟨q', e2⟩, h1, h2⟩ := Option.map_eq_some_iff.mp h
      simp only [Prod.mk.injEq] at h2
      obtain ⟨rfl, rfl⟩ := h2
      obtain ⟨qs, hq⟩ := ih eh1 p1 q' (p :: ps) (evs ++ e1) e2 (.round ht hr) h1
      exact ⟨qs ++ [p1], by simpa using hq⟩

theorem parseTokens_trace {fuel : Nat} : ∀ (ts : List Nat) (p q : PState) (ps : List PState) (evs evs' : List Ev),
    Trace T c (p :: ps) evs → parseTokens T c fuel ts p = some (q, evs') → ∃ qs, Trace T c (q :: qs) (evs ++ evs') ∧ p :: ps <:+ q :: qs := by
  intro ts
  induction ts with
  | nil =>
    intro p q ps evs evs' ht h
    simp only [parseTokens, Option.some.injEq, Prod.mk.injEq] at h
    obtain ⟨rfl, rfl⟩ := h
    exact ⟨ps, by simpa using ht, List.suffix_refl _⟩
  | cons t ts ih =>
    intro p q ps evs evs' ht h
    rw [parseTokens] at h
    obtain ⟨⟨p1, e1⟩, h1, h2⟩ := Option.bind_eq_some_iff.mp h
    obtain ⟨⟨q', e2⟩, h3, h4⟩ := Option.map_eq_some_iff.mp h2
    simp only [Prod.mk.injEq] at h4
    obtain ⟨rfl, rfl⟩ := h4
    obtain ⟨qs, hq⟩ := parseLoop_trace fuel false p p1 ps evs e1 ht h1
    obtain ⟨rs, hr, hs⟩ := ih p1 q' (qs ++ p :: ps) (evs ++ e1) e2 hq h3
    refine ⟨rs, by simpa using hr, ?_⟩
    exact List.IsSuffix.trans ⟨p1 :: qs, by simp⟩ hs

/-! ### stack -/

theorem popAll_length {st : List (Nat × Nat)} (h : 0 < st.length) : (popAll st).1.length = 1 := by
  unfold popAll
  simp only [List.length_drop]
  omega

theorem popAll_last {st : List (Nat × Nat)} : (popAll st).1 = st.getLast?.toList := by
  unfold popAll
  simp only
  cases hl : st.getLast? with
  | none => rw [List.getLast?_eq_none_iff] at hl; subst hl; rfl
  | some x =>
    obtain ⟨l, rfl⟩ := List.getLast?_eq_some_iff.mp hl
    simp

theorem track_spec {idx : Nat} {p q : PState} (h : track c idx p = some q) : q.stack = p.stack ∧ q.errcnt = p.errcnt ∧
    (q.hwm = if c.track = true ∧ p.hwm < idx then p.hwm + 1 else p.hwm) := by
  unfold track at h
  split_ifs at h with h1 h2
  · cases h
    simp only [Bool.and_eq_true, decide_eq_true_eq] at h1
    simp [h1.1, h1.2]
  · cases h
    simp only [Bool.and_eq_true, decide_eq_true_eq] at h1
    simp [h1]

theorem popToError_spec {E : Nat} : ∀ (st : List (Nat × Nat)) (a : Nat) (st' : List (Nat × Nat)) (act : Nat) (pops : List Ev),
    popToError T E st a = some (st', act, pops) → st' <:+ st ∧ st' ≠ [] ∧ (∀ e ∈ pops, ∃ X, e = .pop X) := by
  intro st
  induction st with
  | nil => intro a st' act pops h; cases h
  | cons e st ih =>
    intro a st' act pops h
    cases st with
    | nil =>
      simp only [popToError, Option.some.injEq, Prod.mk.injEq] at h
      obtain ⟨rfl, rfl, rfl⟩ := h
      exact ⟨List.suffix_refl _, by simp, by simp⟩
    | cons e' st =>
      rw [popToError] at h
      · split at h
        · cases h
        · split_ifs at h with h1
          · simp only [Option.some.injEq, Prod.mk.injEq] at h
            obtain ⟨rfl, rfl, rfl⟩ := h
            exact ⟨List.suffix_refl _, by simp, by simp⟩
          · obtain ⟨⟨s1, a1, p1⟩, h2, h3⟩ := Option.map_eq_some_iff.mp h
            simp only [Prod.mk.injEq] at h3
            obtain ⟨rfl, rfl, rfl⟩ := h3
            obtain ⟨k1, k2, k3⟩ := ih _ _ _ _ h2
            refine ⟨k1.trans (List.suffix_cons _ _), k2, ?_⟩
            intro x hx
            rcases List.mem_cons.mp hx with rfl | hx
            · exact ⟨_, rfl⟩
            · exact k3 x hx
      · simp

theorem yyShift_cases {new major : Nat} {p q : PState} {evs : List Ev} (h : yyShift T c new major p = some (q, evs)) :
    ∃ p1, track c p.stack.length p = some p1 ∧
      (((c.depth.any fun d => p.stack.length > d - 1) = true ∧ (q, evs) = stackOverflow p1) ∨
       ((c.depth.any fun d => p.stack.length > d - 1) = false ∧ evs = [.shift major] ∧
        ∃ n, q = { p1 with stack := (n, major) :: p1.stack })) := by
  unfold yyShift at h
  simp only at h
  obtain ⟨p1, h1, h2⟩ := Option.map_eq_some_iff.mp h
  refine ⟨p1, h1, ?_⟩
  cases hd : (c.depth.any fun d => decide (p.stack.length > d - 1)) with
  | true =>
    rw [hd] at h2
    exact .inl ⟨rfl, h2.symm⟩
  | false =>
    rw [hd] at h2
    simp only [Bool.false_eq_true, if_false, Prod.mk.injEq] at h2
    obtain ⟨rfl, rfl⟩ := h2
    exact .inr ⟨rfl, rfl, _, rfl⟩

theorem yyReduce_cases {r : Nat} {p q : PState} (h : yyReduce T r p = some q) :
    ∃ A act, T.ruleLhs[r]? = some A ∧ T.nrhs r ≤ 0 ∧ (-T.nrhs r).toNat < p.stack.length ∧
      q = { p with stack := (act, A) :: p.stack.drop (-T.nrhs r).toNat } := by
  unfold yyReduce at h
  split at h
  · cases h
  · rename_i A hA
    simp only at h
    split_ifs at h with h1
    split at h
    · cases h
    · rename_i e he
      split at h
      · cases h
      · rename_i act ha
        split_ifs at h
        cases h
        refine ⟨A, act, hA, by omega, ?_, rfl⟩
        by_contra hc
        rw [List.drop_eq_nil_of_le (by omega)] at he
        cases he

/-- a round in which the parser reduces, shifts, accepts or finds an error -/
theorem round_cases {t fuel : Nat} {eh : Bool} {p : PState} {x : Round} (h : parseRound T c t fuel eh p = some x) :
    (∃ r p1 q, (r < T.nrule ∧ T.nrhs r = 0) ∧ track c (p.stack.length - 1) p = some p1 ∧
      (c.depth.any fun d => p.stack.length - 1 ≥ d - 1) = false ∧ yyReduce T r p1 = some q ∧ x = .next eh q [.reduce r]) ∨
    (∃ r p1, (r < T.nrule ∧ T.nrhs r = 0) ∧ track c (p.stack.length - 1) p = some p1 ∧
      (c.depth.any fun d => p.stack.length - 1 ≥ d - 1) = true ∧ x = .stop (stackOverflow p1).1 (stackOverflow p1).2) ∨
    (∃ r q, (r < T.nrule ∧ T.nrhs r ≠ 0) ∧ yyReduce T r p = some q ∧ x = .next eh q [.reduce r]) ∨
    (∃ act q evs, yyShift T c act t p = some (q, evs) ∧ x = .stop { q with errcnt := q.errcnt - 1 } evs) ∨
    (∃ a b, p.stack = [a, b] ∧ x = .stop { p with stack := [b], errcnt := -1 } [.accept]) ∨
    (∃ q evs b, onError T c t eh p = some (q, evs, b) ∧ x = if b = true then .next true q evs else .stop q evs) := by
  unfold parseRound at h
  split at h
  · cases h
  · split at h
    · cases h
    · simp only at h
      split_ifs at h with h1 h2 h3 h4 h5 h6
      · obtain ⟨p1, k1, k2⟩ := Option.bind_eq_some_iff.mp h
        obtain ⟨e1, _⟩ := track_spec k1
        rw [e1] at k2
        cases hd : (c.depth.any fun d => decide (p.stack.length - 1 ≥ d - 1)) with
        | true =>
          rw [hd] at k2
          simp only [if_true, Option.some.injEq] at k2
          exact .inr (.inl ⟨_, p1, ⟨by omega, h3⟩, k1, rfl, k2.symm⟩)
        | false =>
          rw [hd] at k2
          simp only [Bool.false_eq_true, if_false] at k2
          obtain ⟨q, k3, k4⟩ := Option.map_eq_some_iff.mp k2
          exact .inl ⟨_, p1, q, ⟨by omega, h3⟩, k1, rfl, k3, k4.symm⟩
      · obtain ⟨q, k3, k4⟩ := Option.map_eq_some_iff.mp h
        exact .inr (.inr (.inl ⟨_, q, ⟨by omega, h3⟩, k3, k4.symm⟩))
      · obtain ⟨⟨q, evs⟩, k3, k4⟩ := Option.map_eq_some_iff.mp h
        exact .inr (.inr (.inr (.inl ⟨_, q, evs, k3, k4.symm⟩)))
      · split at h
        · rename_i a b hst
          cases h
          exact .inr (.inr (.inr (.inr (.inl ⟨a, b, hst, rfl⟩))))
        · cases h
      · obtain ⟨⟨q, evs, b⟩, k3, k4⟩ := Option.map_eq_some_iff.mp h
        exact .inr (.inr (.inr (.inr (.inr ⟨q, evs, b, k3, k4.symm⟩))))

/-- what happens on an error: the parser gives up the token, or fails, or shifts the error symbol -/
theorem onError_cases {t : Nat} {eh b : Bool} {p q : PState} {evs : List Ev} (h : onError T c t eh p = some (q, evs, b)) :
    (b = false ∧ q.stack = p.stack ∧ q.hwm = p.hwm ∧ .overflow ∉ evs) ∨
    (b = false ∧ .failed ∈ evs ∧ .overflow ∉ evs ∧ q.hwm = p.hwm ∧ ∃ st, st <:+ p.stack ∧ st ≠ [] ∧ q.stack = (popAll st).1) ∨
    (p.stack = [] ∧ q.stack = [] ∧ q.hwm = p.hwm ∧ .overflow ∉ evs) ∨
    (b = true ∧ ∃ E st act ev pops q1 evs1, T.errsym = some E ∧ st <:+ p.stack ∧ 2 ≤ st.length ∧
      yyShift T c act E { p with stack := st } = some (q1, evs1) ∧ q = { q1 with errcnt := 3 } ∧ evs = ev ++ pops ++ evs1 ∧
      .overflow ∉ ev ++ pops) := by
  have hpa : ∀ st, .overflow ∉ (popAll st).2 := by
    intro st hc
    unfold popAll at hc
    obtain ⟨e, _, he⟩ := List.mem_map.mp hc
    cases he
  unfold onError at h
  split at h
  · rename_i E hE
    simp only at h
    split at h
    · cases h
    · rename_i top htop
      split_ifs at h with h1 h3 h2 h2
      all_goals try (cases h; exact .inl ⟨rfl, rfl, rfl, by simp⟩)
      all_goals
        split at h
        · cases h
        · rename_i st act pops hp
          obtain ⟨k1, k2, k3⟩ := popToError_spec _ _ _ _ _ hp
          have hov : .overflow ∉ pops := by
            intro hc; obtain ⟨X, hX⟩ := k3 _ hc; cases hX
          split_ifs at h with h5
          · cases h
            refine .inr (.inl ⟨rfl, by simp [parseFailed], ?_, rfl, st, k1, k2, rfl⟩)
            simp [parseFailed, hov, hpa]
          · simp only [Bool.or_eq_true, decide_eq_true_eq, not_or] at h5
            obtain ⟨⟨q1, e1⟩, h6, h7⟩ := Option.map_eq_some_iff.mp h
            simp only [Prod.mk.injEq] at h7
            obtain ⟨rfl, rfl, rfl⟩ := h7
            exact .inr (.inr (.inr ⟨rfl, E, st, act, _, pops, q1, e1, hE, k1, by omega, h6, rfl, rfl, by simp [hov]⟩))
  · split_ifs at h with h1 h3 h2 h2
    all_goals try (cases h; exact .inl ⟨rfl, rfl, rfl, by simp⟩)
    all_goals
      cases h
      by_cases hst : p.stack = []
      · refine .inr (.inr (.inl ⟨hst, ?_, rfl, ?_⟩))
        · simp [parseFailed, popAll, hst]
        · simp [parseFailed, hpa]
      · refine .inr (.inl ⟨rfl, by simp [parseFailed], ?_, rfl, p.stack, List.suffix_refl _, hst, rfl⟩)
        simp [parseFailed, hpa]

/-- an error is reported unless it comes shortly after another one -/
theorem onError_reports {t : Nat} {eh b : Bool} {p q : PState} {evs : List Ev} (h : onError T c t eh p = some (q, evs, b)) (he : p.errcnt < 0) :
    .syntaxError t ∈ evs := by
  unfold onError at h
  have he' : p.errcnt ≤ 0 := by omega
  simp only [he, he', if_true] at h
  split at h
  · split at h
    · cases h
    · split_ifs at h
      · cases h; simp
      · split at h
        · cases h
        · split_ifs at h
          · cases h; simp
          · obtain ⟨⟨q1, e1⟩, h6, h7⟩ := Option.map_eq_some_iff.mp h
            simp only [Prod.mk.injEq] at h7
            obtain ⟨rfl, rfl, rfl⟩ := h7
            simp
  · split_ifs at h <;> (cases h; simp)

end Verif.Lemon
