import Verif.Proofs.LemonLoop
/-
C41: the stack of a lemon parser stays in its array.  C42: the record of the depth of the stack.
-/
set_option autoImplicit false
namespace Verif.Lemon

variable {T : Tables} {c : PConf}

theorem any_depth {d : Nat} (hd : c.depth = some d) (f : Nat → Bool) : c.depth.any f = f d := by
  rw [hd]; rfl

/-- the events of a round that is not an overflow -/
theorem round_len {t fuel : Nat} {eh : Bool} {p : PState} {x : Round} {d : Nat} (hd : c.depth = some d) (h0 : 0 < d)
    (h1 : 0 < p.stack.length) (h2 : p.stack.length ≤ d) (h : parseRound T c t fuel eh p = some x) :
    0 < x.state.stack.length ∧ x.state.stack.length ≤ d := by
  have hshift : ∀ (act m : Nat) (p q : PState) (evs : List Ev), 0 < p.stack.length → p.stack.length ≤ d →
      yyShift T c act m p = some (q, evs) → 0 < q.stack.length ∧ q.stack.length ≤ d := by
    intro act m p q evs h1 h2 h
    obtain ⟨p1, k1, k | k⟩ := yyShift_cases h
    · have e := (track_spec k1).1
      have e2 : q = (stackOverflow p1).1 := congrArg Prod.fst k.2
      rw [e2]
      unfold stackOverflow
      have := popAll_length (st := p1.stack) (by rw [e]; exact h1)
      simp only
      omega
    · obtain ⟨k2, _, n, rfl⟩ := k
      rw [any_depth hd, decide_eq_false_iff_not] at k2
      have e := (track_spec k1).1
      simp only [List.length_cons, e]
      omega
  rcases round_cases h with ⟨r, p1, q, _, k1, k2, k3, rfl⟩ | ⟨r, p1, _, k1, k2, rfl⟩ | ⟨r, q, k1, k3, rfl⟩ | ⟨act, q, evs, k3, rfl⟩ |
    ⟨a, b, k1, rfl⟩ | ⟨q, evs, b, k3, rfl⟩
  · have e := (track_spec k1).1
    rw [any_depth hd, decide_eq_false_iff_not] at k2
    obtain ⟨A, act, _, _, k4, rfl⟩ := yyReduce_cases k3
    simp only [Round.state, List.length_cons, List.length_drop, e] at k4 ⊢
    omega
  · have e := (track_spec k1).1
    simp only [Round.state, stackOverflow]
    have := popAll_length (st := p1.stack) (by rw [e]; exact h1)
    omega
  · obtain ⟨A, act, _, k2, k4, rfl⟩ := yyReduce_cases k3
    simp only [Round.state, List.length_cons, List.length_drop]
    omega
  · exact hshift act t p q evs h1 h2 k3
  · simp only [Round.state, List.length_singleton]
    omega
  · have hs : (if b = true then Round.next true q evs else .stop q evs).state = q := by cases b <;> rfl
    rw [hs]
    rcases onError_cases k3 with ⟨_, e, _⟩ | ⟨_, _, _, _, st, e1, e2, e3⟩ | ⟨e, _⟩ | ⟨_, E, st, act, ev, pops, q1, evs1, _, e1, e2, e3, rfl, _⟩
    · rw [e]; exact ⟨h1, h2⟩
    · rw [e3, popAll_length (List.length_pos_iff.mpr e2)]; omega
    · rw [e] at h1; simp at h1
    · have := e1.length_le
      exact hshift act E _ q1 evs1 (by simp only; omega) (by simp only; omega) e3

/-- C41.  If the stack is an array of `d > 0` entries: for any tables (right or wrong) and any tokens, at
any time at least one entry and no more than `d` entries are in use. -/
theorem C41_bound (T : Tables) (c : PConf) (d : Nat) (hd : c.depth = some d) (h0 : 0 < d) (ps : List PState) (evs : List Ev)
    (h : Trace T c ps evs) : ∀ p ∈ ps, 0 < p.stack.length ∧ p.stack.length ≤ d := by
  induction h with
  | init =>
    intro p hp
    rw [List.mem_singleton.mp hp]
    exact ⟨by simp [PState.init], by simp only [PState.init, List.length_singleton]; omega⟩
  | @round p ps evs t fuel eh r _ hr ih =>
    intro q hq
    rcases List.mem_cons.mp hq with rfl | hq
    · obtain ⟨h1, h2⟩ := ih p List.mem_cons_self
      exact round_len hd h0 h1 h2 hr
    · exact ih q hq

/-- The states in which calls of `Parse` end are among those of a trace. -/
theorem C41_runs (T : Tables) (c : PConf) (fuel : Nat) (ts : List Nat) (p : PState) (evs : List Ev)
    (h : parseTokens T c fuel ts .init = some (p, evs)) : ∃ ps, Trace T c (p :: ps) evs := by
  obtain ⟨qs, h1, _⟩ := parseTokens_trace ts .init p [] [] evs .init h
  exact ⟨qs, h1⟩

/-- C41, overflow.  The overflow is reported in a round only if the stack (or what is left of it after
popping to recover from an error) is full, or more than full; then all entries but the first are popped
and destroyed, and nothing is put on the stack. -/
theorem C41_overflow (T : Tables) (c : PConf) (t fuel : Nat) (eh : Bool) (p : PState) (x : Round)
    (h : parseRound T c t fuel eh p = some x) (hov : .overflow ∈ x.evs) :
    ∃ d pre st, c.depth = some d ∧ st <:+ p.stack ∧ d ≤ st.length ∧
      x.evs = pre ++ st.dropLast.map (fun e => Ev.pop e.2) ++ [.overflow] ∧ x.state.stack = st.getLast?.toList := by
  have hshift : ∀ (act m : Nat) (p q : PState) (evs : List Ev), yyShift T c act m p = some (q, evs) → .overflow ∈ evs →
      ∃ d, c.depth = some d ∧ d ≤ p.stack.length ∧ evs = p.stack.dropLast.map (fun e => Ev.pop e.2) ++ [.overflow] ∧
        q.stack = p.stack.getLast?.toList := by
    intro act m p q evs h hov
    obtain ⟨p1, k1, k | k⟩ := yyShift_cases h
    · have e := (track_spec k1).1
      obtain ⟨k2, k3⟩ := k
      obtain ⟨d, hd, hdd⟩ := Option.any_eq_true _ _ |>.mp k2
      simp only [Prod.ext_iff] at k3
      refine ⟨d, hd, by simp only [decide_eq_true_eq] at hdd; omega, ?_, ?_⟩
      · rw [k3.2]
        simp only [stackOverflow, popAll, e, List.dropLast_eq_take]
      · rw [k3.1]
        simp only [stackOverflow, e]
        exact popAll_last
    · rw [k.2.1] at hov
      simp at hov
  rcases round_cases h with ⟨r, p1, q, _, k1, k2, k3, rfl⟩ | ⟨r, p1, _, k1, k2, rfl⟩ | ⟨r, q, k1, k3, rfl⟩ | ⟨act, q, evs, k3, rfl⟩ |
    ⟨a, b, k1, rfl⟩ | ⟨q, evs, b, k3, rfl⟩
  · simp [Round.evs] at hov
  · have e := (track_spec k1).1
    obtain ⟨d, hd, hdd⟩ := Option.any_eq_true _ _ |>.mp k2
    simp only [decide_eq_true_eq] at hdd
    by_cases hdz : d ≤ p.stack.length
    · refine ⟨d, [], p.stack, hd, List.suffix_refl _, hdz, ?_, ?_⟩
      · simp only [Round.evs, stackOverflow, popAll, e, List.dropLast_eq_take, List.nil_append]
      · simp only [Round.state, stackOverflow, e]
        exact popAll_last
    · have hl : p.stack = [] := by
        apply List.eq_nil_of_length_eq_zero; omega
      unfold parseRound at h
      rw [hl] at h
      cases h
  · simp [Round.evs] at hov
  · obtain ⟨d, k1, k2, k4, k5⟩ := hshift _ _ _ _ _ k3 hov
    exact ⟨d, [], p.stack, k1, List.suffix_refl _, k2, k4, k5⟩
  · simp [Round.evs] at hov
  · have hs : (if b = true then Round.next true q evs else .stop q evs).state = q := by cases b <;> rfl
    have he : (if b = true then Round.next true q evs else .stop q evs).evs = evs := by cases b <;> rfl
    rw [hs, he]
    rw [he] at hov
    rcases onError_cases k3 with ⟨_, _, _, e⟩ | ⟨_, _, e, _⟩ | ⟨_, _, _, e⟩ | ⟨_, E, st, act, ev, pops, q1, evs1, _, e1, e2, e3, rfl, rfl, e4⟩
    · exact absurd hov e
    · exact absurd hov e
    · exact absurd hov e
    · have hov1 : .overflow ∈ evs1 := by
        rcases List.mem_append.mp hov with h | h
        · exact absurd h e4
        · exact h
      obtain ⟨d, k1, k2, k4, k5⟩ := hshift _ _ _ _ _ e3 hov1
      exact ⟨d, ev ++ pops, st, k1, e1, k2, by rw [k4]; simp, k5⟩

/-- without overflow, a round does the same with a stack that grows -/
theorem round_agree {t fuel : Nat} {eh : Bool} {p : PState} {x : Round} (h : parseRound T c t fuel eh p = some x) (hov : .overflow ∉ x.evs) :
    parseRound T { c with depth := none } t fuel eh p = some x := by
  have hshift : ∀ (act m : Nat) (p : PState) (y : PState × List Ev), yyShift T c act m p = some y → .overflow ∉ y.2 →
      yyShift T { c with depth := none } act m p = some y := by
    intro act m p y h hov
    unfold yyShift at h ⊢
    simp only [Option.any_none, Bool.false_eq_true, if_false] at h ⊢
    obtain ⟨p1, h1, h2⟩ := Option.map_eq_some_iff.mp h
    have h3 : track { c with depth := none } p.stack.length p = some p1 := h1
    rw [h3]
    split_ifs at h2 with h4 h5
    · exfalso; apply hov; rw [← h2]; simp [stackOverflow]
    · simp only [Option.map_some, if_pos h5]; rw [← h2]
    · simp only [Option.map_some, if_neg h5]; rw [← h2]
  unfold parseRound at h ⊢
  split at h
  · cases h
  · rename_i top htop
    simp only [htop]
    split at h
    · cases h
    · rename_i act hact
      try simp only [hact]
      simp only at h
      split_ifs at h with h1 h2 h3 h4 h5 h6
      · rw [if_pos h1, if_neg h2, if_pos h3]
        obtain ⟨p1, k1, k2⟩ := Option.bind_eq_some_iff.mp h
        have k3 : track { c with depth := none } (p.stack.length - 1) p = some p1 := k1
        rw [k3]
        simp only [Option.bind_some, Option.any_none, Bool.false_eq_true, if_false]
        split_ifs at k2
        · exfalso; apply hov; cases k2; simp [stackOverflow, Round.evs]
        · exact k2
      · rw [if_pos h1, if_neg h2, if_neg h3]
        exact h
      · rw [if_neg h1, if_pos h4]
        obtain ⟨y, k1, k2⟩ := Option.map_eq_some_iff.mp h
        rw [hshift _ _ _ _ k1 (by rw [← k2] at hov; exact hov)]
        exact congrArg some k2
      · rw [if_neg h1, if_neg h4, if_pos h5]
        exact h
      · rw [if_neg h1, if_neg h4, if_neg h5, if_pos h6]
        obtain ⟨⟨q, evs, b⟩, k1, k2⟩ := Option.map_eq_some_iff.mp h
        have : onError T { c with depth := none } t eh p = some (q, evs, b) := by
          have hov' : .overflow ∉ evs := by
            rw [← k2] at hov
            cases b <;> exact hov
          unfold onError at k1 ⊢
          split at k1
          · rename_i E hE
            simp only [hE]
            simp only [htop] at k1 ⊢
            generalize (if p.errcnt < 0 then [Ev.syntaxError t] else []) = ev0 at k1 ⊢
            split_ifs at k1 with j1
            · rw [if_pos j1]; exact k1
            · rw [if_neg j1]
              split at k1
              · cases k1
              · rename_i st a pops hp
                try simp only [hp]
                split_ifs at k1 with j3
                · rw [if_pos j3]; exact k1
                · rw [if_neg j3]
                  obtain ⟨y, k3, k4⟩ := Option.map_eq_some_iff.mp k1
                  rw [hshift _ _ _ _ k3 (by intro hc; apply hov'; simp only [Prod.mk.injEq] at k4; rw [← k4.2.1]; simp [hc])]
                  exact congrArg some k4
          · rename_i hE
            simp only [hE]
            exact k1
        rw [this]
        exact congrArg some k2

theorem loop_agree {t : Nat} : ∀ (fuel : Nat) (eh : Bool) (p : PState) (x : PState × List Ev), parseLoop T c t fuel eh p = some x →
    .overflow ∉ x.2 → parseLoop T { c with depth := none } t fuel eh p = some x := by
  intro fuel
  induction fuel with
  | zero => intro eh p x h; cases h
  | succ fuel ih =>
    intro eh p x h hov
    rw [parseLoop] at h ⊢
    split at h
    · cases h
    · rename_i p1 e1 hr
      cases h
      rw [round_agree hr hov]
    · rename_i eh1 p1 e1 hr
      obtain ⟨y, h1, h2⟩ := Option.map_eq_some_iff.mp h
      have hov' : .overflow ∉ e1 ++ y.2 := by rw [← h2] at hov; exact hov
      rw [List.mem_append, not_or] at hov'
      rw [round_agree hr hov'.1]
      simp only
      rw [ih _ _ _ h1 hov'.2]
      exact congrArg some h2

/-- C41, enough room.  If no overflow is reported, the parser does just what it would do with a stack
that grows as needed. -/
theorem C41_agree (T : Tables) (c : PConf) (fuel : Nat) (ts : List Nat) (p q : PState) (evs : List Ev)
    (h : parseTokens T c fuel ts p = some (q, evs)) (hov : .overflow ∉ evs) :
    parseTokens T { c with depth := none } fuel ts p = some (q, evs) := by
  induction ts generalizing p evs with
  | nil => exact h
  | cons t ts ih =>
    rw [parseTokens] at h ⊢
    obtain ⟨⟨p1, e1⟩, h1, h2⟩ := Option.bind_eq_some_iff.mp h
    obtain ⟨⟨q', e2⟩, h3, h4⟩ := Option.map_eq_some_iff.mp h2
    simp only [Prod.mk.injEq] at h4
    obtain ⟨rfl, rfl⟩ := h4
    rw [List.mem_append, not_or] at hov
    have : parseToken T { c with depth := none } fuel p t = some (p1, e1) := loop_agree fuel false p (p1, e1) h1 hov.1
    rw [this]
    simp only [Option.bind_some]
    rw [ih _ _ h3 hov.2]
    rfl

/-- `C41_overflow` for the expression grammar and a stack of three entries: `ID PLUS` fits, the next `ID`
does not. -/
example : (makeTables true exExpr (fun _ => none) 20).bind (fun T => (parseTokens T ⟨some 3, false, false, false⟩ 10 [3, 1] .init).map
      fun x => (x.1.stack, x.2)) = some ([(2, 1), (3, 5), (0, 0)], [.shift 3, .reduce 3, .shift 1]) ∧
    (makeTables true exExpr (fun _ => none) 20).bind (fun T => (parseTokens T ⟨some 3, false, false, false⟩ 10 [3, 1, 3] .init).map
      fun x => (x.1.stack, x.2)) = some ([(0, 0)], [.shift 3, .reduce 3, .shift 1, .pop 1, .pop 5, .overflow]) := by
  decide +kernel

/-! ### C42 -/

/-- C42.  If the stack grows as needed and no rule is empty: the depth recorded is the greatest index of
the top of the stack so far.  Missing: empty rules, see `C42_violated`; overflow (then it may be one
more). -/
theorem C42_peak_partial (T : Tables) (c : PConf) (hd : c.depth = none) (htr : c.track = true) (hne : ∀ r < T.nrule, T.nrhs r ≠ 0)
    (p : PState) (ps : List PState) (evs : List Ev) (h : Trace T c (p :: ps) evs) :
    (∀ q ∈ p :: ps, q.stack.length ≤ p.hwm + 1) ∧ ∃ q ∈ p :: ps, q.stack.length = p.hwm + 1 := by
  generalize hps : p :: ps = qs at h
  induction h generalizing p ps with
  | init =>
    cases hps
    simp [PState.init]
  | @round p1 ps1 evs t fuel eh x _ hr ih =>
    cases hps
    obtain ⟨h1, q, h2, h3⟩ := ih p1 ps1 rfl
    have hp1 := h1 p1 List.mem_cons_self
    have hshift : ∀ (act m : Nat) (p q : PState) (evs : List Ev), p.stack.length ≤ p.hwm + 1 → yyShift T c act m p = some (q, evs) →
        (q.hwm = p.hwm ∧ q.stack.length ≤ q.hwm + 1) ∨ (q.hwm = p.hwm + 1 ∧ q.stack.length = q.hwm + 1) := by
      intro act m p q evs h1 h
      obtain ⟨p2, k1, k | k⟩ := yyShift_cases h
      · rw [hd] at k; simp at k
      · obtain ⟨_, _, n, rfl⟩ := k
        obtain ⟨e1, _, e2⟩ := track_spec k1
        simp only [List.length_cons, e1]
        rw [e2]
        split_ifs with h4
        · right; omega
        · left
          rw [htr] at h4
          simp only [true_and] at h4
          omega
    have key : (x.state.hwm = p1.hwm ∧ x.state.stack.length ≤ x.state.hwm + 1) ∨
        (x.state.hwm = p1.hwm + 1 ∧ x.state.stack.length = x.state.hwm + 1) := by
      rcases round_cases hr with ⟨r, _, _, k1, _⟩ | ⟨r, _, k1, _⟩ | ⟨r, q, k1, k3, rfl⟩ | ⟨act, q, evs, k3, rfl⟩ |
        ⟨a, b, k1, rfl⟩ | ⟨q, evs, b, k3, rfl⟩
      · exact absurd k1.2 (hne r k1.1)
      · exact absurd k1.2 (hne r k1.1)
      · obtain ⟨A, act, _, k2, k4, rfl⟩ := yyReduce_cases k3
        left
        simp only [Round.state, List.length_cons, List.length_drop]
        exact ⟨trivial, by omega⟩
      · exact hshift act t p1 q evs hp1 k3
      · left
        simp [Round.state]
      · have hs : (if b = true then Round.next true q evs else .stop q evs).state = q := by cases b <;> rfl
        rw [hs]
        rcases onError_cases k3 with ⟨_, e, e', _⟩ | ⟨_, _, _, e', st, e1, e2, e3⟩ | ⟨_, e, e', _⟩ | ⟨_, E, st, act, ev, pops, q1, evs1, _, e1, e2, e3, rfl, _⟩
        · left; rw [e, e']; exact ⟨rfl, hp1⟩
        · left
          rw [e3, e', popAll_length (List.length_pos_iff.mpr e2)]
          exact ⟨rfl, by omega⟩
        · left; rw [e, e']; exact ⟨rfl, by simp⟩
        · have hl := e1.length_le
          exact hshift act E { p1 with stack := st } q1 evs1 (by simp only; omega) e3
    rcases key with ⟨k1, k2⟩ | ⟨k1, k2⟩
    · rw [k1] at k2
      rw [k1]
      refine ⟨?_, q, List.mem_cons_of_mem _ h2, h3⟩
      intro y hy
      rcases List.mem_cons.mp hy with rfl | hy
      · exact k2
      · exact h1 y hy
    · refine ⟨?_, x.state, List.mem_cons_self, k2⟩
      intro y hy
      rcases List.mem_cons.mp hy with rfl | hy
      · omega
      · have := h1 y hy
        omega

/-- the assertions about the depth hold if no rule is empty -/
theorem C42_assert_partial (T : Tables) (c : PConf) (hd : c.depth = none) (htr : c.track = true) (hne : ∀ r < T.nrule, T.nrhs r ≠ 0)
    (p : PState) (ps : List PState) (evs : List Ev) (h : Trace T c (p :: ps) evs) (t fuel : Nat) (eh : Bool)
    (hr : parseRound T { c with track := false } t fuel eh p ≠ none) : parseRound T c t fuel eh p ≠ none := by
  have hp := (C42_peak_partial T c hd htr hne p ps evs h).1 p List.mem_cons_self
  have hsh : ∀ (act m : Nat) (p : PState), p.stack.length ≤ p.hwm + 1 → yyShift T c act m p ≠ none := by
    intro act m p hp
    have h1 : track c p.stack.length p ≠ none := by
      unfold track
      simp only [htr, Bool.true_and, decide_eq_true_eq]
      split_ifs with h1 h2
      · simp
      · exfalso
        apply h2
        simp only [Bool.or_eq_true, decide_eq_true_eq]
        right; omega
      · simp
    unfold yyShift
    simpa using h1
  intro hc
  apply hr
  unfold parseRound at hc ⊢
  split at hc
  · rename_i h1
    rfl
  · rename_i top htop
    simp only [htop]
    split at hc
    · rename_i h1
      simp only [h1]
    · rename_i act h1
      try simp only [h1]
      simp only at hc
      split_ifs at hc with h2 h3 h4 h5 h6 h7
      · rw [if_pos h2, if_pos h3]
      · exact absurd h4 (hne _ (by omega))
      · rw [if_pos h2, if_neg h3, if_neg h4]; exact hc
      · rw [Option.map_eq_none_iff] at hc
        exact absurd hc (hsh _ _ _ hp)
      · rw [if_neg h2, if_neg h5, if_pos h6]; exact hc
      · rw [if_neg h2, if_neg h5, if_neg h6, if_pos h7]
        rw [Option.map_eq_none_iff] at hc ⊢
        unfold onError at hc ⊢
        split at hc
        · rename_i E hE
          simp only [hE]
          simp only [htop] at hc ⊢
          generalize (if p.errcnt < 0 then [Ev.syntaxError t] else []) = ev0 at hc ⊢
          split_ifs at hc with j1
          rw [if_neg j1]
          split at hc
          · rename_i hp0
            simp only [hp0]
          · rename_i st a pops hp0
            split_ifs at hc with j3
            rw [Option.map_eq_none_iff] at hc
            have := (popToError_spec _ _ _ _ _ hp0).1.length_le
            exact absurd hc (hsh _ _ _ (by simp only; omega))
        · split_ifs at hc
      · rw [if_neg h2, if_neg h5, if_neg h6, if_neg h7]

/-- `C42_peak_partial` for the expression grammar (which has no empty rule): the greatest depth for
`ID PLUS ID TIMES ID` is that of `e PLUS e TIMES ID`. -/
example : (makeTables true exExpr (fun _ => none) 20).bind (fun T => (parseTokens T ⟨none, false, true, false⟩ 10 [3, 1, 3, 2, 3, 0] .init).map
    fun x => (x.1.stack, x.1.hwm)) = some ([(0, 0)], 5) := by decide +kernel
example : (makeTables true exExpr (fun _ => none) 20).map (fun T => decide (∀ r < T.nrule, T.nrhs r ≠ 0)) = some true := by decide +kernel

/-- `S ::= A x. A ::= .`  `$ x` are 0 1, `S A` are 2 3. -/
def exHwm : Gram where
  nterm := 2
  mts := []
  nsym := 4
  rules := [⟨2, [3, 1], none, false⟩, ⟨3, [], none, false⟩]
  start := 2
  errsym := none
  wildcard := none
  prec := fun _ => -1
  assoc := fun _ => .UNK

/-- C42 does not hold: an entry pushed by an empty rule is not counted.  For this grammar without
conflicts the only sentence is `x`; if assertions are on, the parser aborts when it is shifted; if not, the
depth recorded is 1 although the index of the top was 2. -/
theorem C42_violated : Usable exHwm ∧ exHwm.cfg.Sentence exHwm.start [1] ∧ ∃ T, Generates exHwm (fun _ => none) true T ∧
    (∀ c : PConf, c.depth = none → c.track = true → c.ndebug = false →
      parseTokens T { c with track := false } 5 [1, 0] .init ≠ none ∧ parseTokens T c 5 [1, 0] .init = none) ∧
    (∀ c : PConf, c.depth = none → c.track = true → c.ndebug = true → ∃ evs, parseTokens T c 5 [1, 0] .init = some (⟨[(0, 0)], -1, 1⟩, evs) ∧
      ∃ q ps, parseTokens T c 5 [1] .init = some (q, ps) ∧ q.stack.length = 3) := by
  have u : Usable exHwm := usable_of (by decide +kernel)
  refine ⟨u, ⟨by decide, ?_⟩, ?_⟩
  · exact .tail (.single (.mk [] [] (A := 2) (α := [3, 1]) (by decide))) (.mk [] [1] (A := 3) (α := []) (by decide))
  · have hm : (makeTables true exHwm (fun _ => none) 20).isSome = true := by decide +kernel
    obtain ⟨T, hT⟩ := Option.isSome_iff_exists.mp hm
    refine ⟨T, generates_of u hT, ?_, ?_⟩
    · rintro ⟨d, nr, tr, nd⟩ h1 h2 h3
      simp only at h1 h2 h3
      subst h1 h2 h3
      have k : ∀ nr : Bool, (makeTables true exHwm (fun _ => none) 20).map (fun T =>
        (parseTokens T ⟨none, nr, false, false⟩ 5 [1, 0] .init != none, parseTokens T ⟨none, nr, true, false⟩ 5 [1, 0] .init == none)) =
          some (true, true) := by decide +kernel
      have k := k nr
      rw [hT] at k
      simpa using k
    · rintro ⟨d, nr, tr, nd⟩ h1 h2 h3
      simp only at h1 h2 h3
      subst h1 h2 h3
      have k : ∀ nr : Bool, (makeTables true exHwm (fun _ => none) 20).bind (fun T =>
        (parseTokens T ⟨none, nr, true, true⟩ 5 [1, 0] .init).map Prod.fst) = some ⟨[(0, 0)], -1, 1⟩ := by decide +kernel
      have k' : ∀ nr : Bool, (makeTables true exHwm (fun _ => none) 20).bind (fun T =>
        (parseTokens T ⟨none, nr, true, true⟩ 5 [1] .init).map fun x => x.1.stack.length) = some 3 := by decide +kernel
      have k := k nr
      have k' := k' nr
      rw [hT] at k k'
      obtain ⟨⟨q, evs⟩, k1, k2⟩ := Option.map_eq_some_iff.mp k
      obtain ⟨⟨q', evs'⟩, k3, k4⟩ := Option.map_eq_some_iff.mp k'
      simp only at k2 k4
      subst k2
      exact ⟨evs, k1, q', evs', k3, k4⟩

end Verif.Lemon
