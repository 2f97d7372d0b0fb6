import Verif.Spec.LemonErr
import Verif.Proofs.LemonLoop
/-
Errors in parsers made by lemon.
-/
set_option autoImplicit false
namespace Verif.Lemon

variable {T : Tables} {c : PConf}

/-! ### what happens on an error -/

/-- the cases of `onError` -/
inductive OnErr (T : Tables) (c : PConf) (t : Nat) (eh : Bool) (p : PState) : PState → List Ev → Bool → Prop
  | none (hE : T.errsym = none) (hr : c.noRecovery = true) : OnErr T c t eh p p [.syntaxError t, .discard t] false
  | plain (hE : T.errsym = .none) (hr : c.noRecovery = false) (ht : t ≠ 0) :
      OnErr T c t eh p { p with errcnt := 3 } ((if p.errcnt ≤ 0 then [.syntaxError t] else []) ++ [.discard t]) false
  | last (hE : T.errsym = .none) (hr : c.noRecovery = false) (ht : t = 0) :
      OnErr T c t eh p { p with stack := (popAll p.stack).1, errcnt := -1 }
        ((if p.errcnt ≤ 0 then [.syntaxError t] else []) ++ .discard t :: ((popAll p.stack).2 ++ [.failed])) false
  | drop {E : Nat} {top : Nat × Nat} (hE : T.errsym = some E) (htop : p.stack.head? = some top) (h : top.2 = E ∨ eh = true) :
      OnErr T c t eh p { p with errcnt := 3 } ((if p.errcnt < 0 then [.syntaxError t] else []) ++ [.discard t]) false
  | fail {E : Nat} {top : Nat × Nat} {st : List (Nat × Nat)} {act : Nat} {pops : List Ev} (hE : T.errsym = some E)
      (htop : p.stack.head? = some top) (h : top.2 ≠ E ∧ eh = false) (hp : popToError T E p.stack T.errAction = some (st, act, pops))
      (hf : st.length ≤ 1 ∨ t = 0) :
      OnErr T c t eh p { p with stack := (popAll st).1, errcnt := 3 }
        ((if p.errcnt < 0 then [.syntaxError t] else []) ++ pops ++ .discard t :: ((popAll st).2 ++ [.failed])) false
  | shift {E : Nat} {top : Nat × Nat} {st : List (Nat × Nat)} {act : Nat} {pops : List Ev} {q : PState} {evs : List Ev} (hE : T.errsym = some E)
      (htop : p.stack.head? = some top) (h : top.2 ≠ E ∧ eh = false) (hp : popToError T E p.stack T.errAction = some (st, act, pops))
      (hf : 2 ≤ st.length ∧ t ≠ 0) (hs : yyShift T c act E { p with stack := st } = some (q, evs)) :
      OnErr T c t eh p { q with errcnt := 3 } ((if p.errcnt < 0 then [.syntaxError t] else []) ++ pops ++ evs) true

theorem onError_onErr {t : Nat} {eh b : Bool} {p q : PState} {evs : List Ev} (h : onError T c t eh p = some (q, evs, b)) :
    OnErr T c t eh p q evs b := by
  unfold onError at h
  split at h
  · rename_i E hE
    simp only at h
    split at h
    · cases h
    · rename_i top htop
      by_cases h1 : (decide (top.2 = E) || eh) = true
      · rw [if_pos h1] at h
        cases h
        exact .drop hE htop (by simpa using h1)
      · rw [if_neg h1] at h
        have h1' : top.2 ≠ E ∧ eh = false := by simpa using h1
        split at h
        · cases h
        · rename_i st act pops hp
          by_cases h2 : (decide (st.length ≤ 1) || decide (t = 0)) = true
          · rw [if_pos h2] at h
            cases h
            exact .fail hE htop h1' hp (by simpa using h2)
          · rw [if_neg h2] at h
            obtain ⟨⟨q1, e1⟩, h6, h7⟩ := Option.map_eq_some_iff.mp h
            simp only [Prod.mk.injEq] at h7
            obtain ⟨rfl, rfl, rfl⟩ := h7
            simp only [Bool.or_eq_true, decide_eq_true_eq, not_or, not_le] at h2
            exact .shift hE htop h1' hp ⟨h2.1, h2.2⟩ h6
  · rename_i hE
    by_cases h1 : c.noRecovery = true
    · rw [if_pos h1] at h
      cases h
      exact .none hE h1
    · rw [if_neg h1] at h
      have h1' : c.noRecovery = false := by simpa using h1
      simp only at h
      by_cases h2 : t = 0
      · rw [if_pos h2] at h
        cases h
        exact .last hE h1' h2
      · rw [if_neg h2] at h
        cases h
        exact .plain hE h1' h2

theorem popAll_evs {st : List (Nat × Nat)} : ∀ e ∈ (popAll st).2, ∃ X, e = .pop X := by
  intro e he
  unfold popAll at he
  obtain ⟨a, _, rfl⟩ := List.mem_map.mp he
  exact ⟨_, rfl⟩

/-! ### the counter of errors -/

/-- what an event does to `yyerrcnt` -/
def cntStep (E : Option Nat) (n : Int) : Ev → Int
  | .shift X => if E = some X then 3 else n - 1
  | .discard _ => 3
  | .accept => -1
  | .failed => if E = none then -1 else n
  | _ => n

def cnt (E : Option Nat) (n : Int) (evs : List Ev) : Int := evs.foldl (cntStep E) n

theorem cnt_append {E : Option Nat} {n : Int} {a b : List Ev} : cnt E n (a ++ b) = cnt E (cnt E n a) b := List.foldl_append

theorem cnt_cons {E : Option Nat} {n : Int} {e : Ev} {b : List Ev} : cnt E n (e :: b) = cnt E (cntStep E n e) b := rfl

theorem cnt_pops {E : Option Nat} {n : Int} {a : List Ev} (h : ∀ e ∈ a, ∃ X, e = .pop X) : cnt E n a = n := by
  induction a with
  | nil => rfl
  | cons e a ih =>
    obtain ⟨X, rfl⟩ := h e List.mem_cons_self
    exact ih fun e he => h e (List.mem_cons_of_mem _ he)

theorem cnt_syn {E : Option Nat} {n : Int} {t : Nat} {P : Prop} [Decidable P] : cnt E n (if P then [.syntaxError t] else []) = n := by
  split_ifs <;> rfl

theorem onErr_cnt {t : Nat} {eh b : Bool} {p q : PState} {evs : List Ev} (h : OnErr T c t eh p q evs b)
    (hr : c.noRecovery = false ∨ T.errsym ≠ none) (ho : .overflow ∉ evs) : q.errcnt = cnt T.errsym p.errcnt evs := by
  cases h with
  | none hE h1 => rcases hr with h | h <;> simp_all
  | plain => rw [cnt_append, cnt_syn]; rfl
  | last hE => rw [cnt_append, cnt_syn, cnt_cons, cnt_append, cnt_pops popAll_evs]; simp [cnt, cntStep, hE]
  | drop => rw [cnt_append, cnt_syn]; rfl
  | fail hE htop h hp hf =>
    rw [cnt_append, cnt_append, cnt_syn, cnt_pops (popToError_spec _ _ _ _ _ hp).2.2, cnt_cons, cnt_append, cnt_pops popAll_evs]
    simp [cnt, cntStep, hE]
  | shift hE htop h hp hf hs =>
    rw [cnt_append, cnt_append, cnt_syn, cnt_pops (popToError_spec _ _ _ _ _ hp).2.2]
    obtain ⟨p1, h1, ⟨_, h2⟩ | ⟨_, rfl, n, rfl⟩⟩ := yyShift_cases hs
    · simp only [stackOverflow, Prod.mk.injEq] at h2
      exfalso; apply ho; simp [h2.2]
    · simp [cnt, cntStep, hE]

theorem round_cnt {t fuel : Nat} {eh : Bool} {p : PState} {x : Round} (h : parseRound T c t fuel eh p = some x)
    (hr : c.noRecovery = false ∨ T.errsym ≠ none) (ht : T.errsym ≠ some t) (ho : .overflow ∉ x.evs) :
    x.state.errcnt = cnt T.errsym p.errcnt x.evs := by
  rcases round_cases h with ⟨r, p1, q, _, h1, _, h2, rfl⟩ | ⟨r, p1, _, _, _, rfl⟩ | ⟨r, q, _, h2, rfl⟩ | ⟨act, q, evs, h2, rfl⟩ |
    ⟨a, b, _, rfl⟩ | ⟨q, evs, b, h2, rfl⟩
  · obtain ⟨A, act, _, _, _, rfl⟩ := yyReduce_cases h2
    exact (track_spec h1).2.1
  · exact absurd (by simp [Round.evs, stackOverflow]) ho
  · obtain ⟨A, act, _, _, _, rfl⟩ := yyReduce_cases h2
    rfl
  · obtain ⟨p1, h1, ⟨_, h2⟩ | ⟨_, rfl, n, rfl⟩⟩ := yyShift_cases h2
    · simp only [stackOverflow, Prod.mk.injEq] at h2
      exact absurd (by simp [Round.evs, h2.2]) ho
    · simp [Round.state, Round.evs, cnt, cntStep, ht, (track_spec h1).2.1]
  · rfl
  · have hoe : .overflow ∉ evs := by cases b <;> exact ho
    have := onErr_cnt (onError_onErr h2) hr hoe
    cases b <;> exact this

theorem loop_cnt {t : Nat} (hr : c.noRecovery = false ∨ T.errsym ≠ none) (ht : T.errsym ≠ some t) :
    ∀ (fuel : Nat) (eh : Bool) (p q : PState) (evs : List Ev), parseLoop T c t fuel eh p = some (q, evs) → .overflow ∉ evs →
    q.errcnt = cnt T.errsym p.errcnt evs := by
  intro fuel
  induction fuel with
  | zero => intro eh p q evs h; cases h
  | succ fuel ih =>
    intro eh p q evs h ho
    rw [parseLoop] at h
    split at h
    · cases h
    · rename_i p1 e1 hx
      simp only [Option.some.injEq, Prod.mk.injEq] at h
      obtain ⟨rfl, rfl⟩ := h
      exact round_cnt hx hr ht ho
    · rename_i eh1 p1 e1 hx
      obtain ⟨⟨q', e2⟩, h1, h2⟩ := Option.map_eq_some_iff.mp h
      simp only [Prod.mk.injEq] at h2
      obtain ⟨rfl, rfl⟩ := h2
      simp only [List.mem_append, not_or] at ho
      have k1 := round_cnt hx hr ht ho.1
      rw [ih eh1 p1 q' e2 h1 ho.2, cnt_append]
      exact congrArg (fun n => cnt T.errsym n e2) k1

theorem tokens_cnt (hr : c.noRecovery = false ∨ T.errsym ≠ none) {fuel : Nat} : ∀ (ts : List Nat) (p q : PState) (evs : List Ev),
    (∀ t ∈ ts, T.errsym ≠ some t) → parseTokens T c fuel ts p = some (q, evs) → .overflow ∉ evs → q.errcnt = cnt T.errsym p.errcnt evs := by
  intro ts
  induction ts with
  | nil =>
    intro p q evs _ h _
    simp only [parseTokens, Option.some.injEq, Prod.mk.injEq] at h
    obtain ⟨rfl, rfl⟩ := h
    rfl
  | cons t ts ih =>
    intro p q evs ht h ho
    rw [parseTokens] at h
    obtain ⟨⟨p1, e1⟩, h1, h2⟩ := Option.bind_eq_some_iff.mp h
    obtain ⟨⟨q', e2⟩, h3, h4⟩ := Option.map_eq_some_iff.mp h2
    simp only [Prod.mk.injEq] at h4
    obtain ⟨rfl, rfl⟩ := h4
    simp only [List.mem_append, not_or] at ho
    rw [ih p1 q' e2 (fun t h => ht t (List.mem_cons_of_mem _ h)) h3 ho.2, cnt_append,
      loop_cnt hr (ht t List.mem_cons_self) fuel false p p1 e1 h1 ho.1]

/-- the events after which the counter is set back -/
def Ends (E : Option Nat) (e : Ev) : Prop := e = .accept ∨ E = none ∧ e = .failed

/-- what the counter says about the past -/
theorem cnt_calm {E : Option Nat} (evs : List Ev) : (cnt E (-1) evs ≤ 3) ∧ ∀ n ≤ 4, Calm E (Ends E) n evs ↔ cnt E (-1) evs ≤ 3 - (n : Int) := by
  induction evs using List.reverseRecOn with
  | nil =>
    simp only [cnt, List.foldl_nil]
    exact ⟨by decide, fun n hn => ⟨fun _ => by omega, fun _ a e b h => by simp at h⟩⟩
  | append_singleton evs e ih =>
    obtain ⟨ih0, ih⟩ := ih
    have hc : cnt E (-1) (evs ++ [e]) = cntStep E (cnt E (-1) evs) e := by rw [cnt_append]; rfl
    -- the three kinds of events
    have hend : Ends E e → e.disturbs E = false → cntStep E (cnt E (-1) evs) e = -1 →
        (cnt E (-1) (evs ++ [e]) ≤ 3) ∧ ∀ n ≤ 4, Calm E (Ends E) n (evs ++ [e]) ↔ cnt E (-1) (evs ++ [e]) ≤ 3 - (n : Int) := by
      intro he hd hs
      rw [hc, hs]
      refine ⟨by decide, fun n hn => ⟨fun _ => by omega, fun _ a x b h hx => ?_⟩⟩
      rcases List.eq_nil_or_concat b with rfl | ⟨b', y, rfl⟩
      · have := List.append_inj_right' h rfl
        cases this
        rw [hd] at hx; cases hx
      · rw [List.concat_eq_append, ← List.cons_append, ← List.append_assoc] at h
        have := List.append_inj_right' h rfl
        cases this
        exact .inl ⟨e, by simp, he⟩
    have hdist : e.disturbs E = true → cntStep E (cnt E (-1) evs) e = 3 →
        (cnt E (-1) (evs ++ [e]) ≤ 3) ∧ ∀ n ≤ 4, Calm E (Ends E) n (evs ++ [e]) ↔ cnt E (-1) (evs ++ [e]) ≤ 3 - (n : Int) := by
      intro hd hs
      rw [hc, hs]
      refine ⟨by decide, fun n hn => ⟨fun h => ?_, fun h a x b hx hd => ?_⟩⟩
      · rcases h evs e [] rfl hd with ⟨x, hx, _⟩ | h
        · cases hx
        · simp only [tokensShifted, List.countP_nil] at h; omega
      · have : n = 0 := by omega
        subst this; exact .inr (Nat.zero_le _)
    -- a step that counts `k` tokens
    have hstep : ∀ k : Nat, k ≤ 1 → e.disturbs E = false → ¬ Ends E e → tokensShifted E [e] = k →
        cntStep E (cnt E (-1) evs) e = cnt E (-1) evs - k →
        (cnt E (-1) (evs ++ [e]) ≤ 3) ∧ ∀ n ≤ 4, Calm E (Ends E) n (evs ++ [e]) ↔ cnt E (-1) (evs ++ [e]) ≤ 3 - (n : Int) := by
      intro k hk hd he ht hs
      rw [hc, hs]
      refine ⟨by omega, fun n hn => ?_⟩
      have hcalm : Calm E (Ends E) n (evs ++ [e]) ↔ Calm E (Ends E) (n - k) evs := by
        constructor
        · rintro h a x b rfl hx
          rcases h a x (b ++ [e]) (by simp) hx with ⟨y, hy, hy'⟩ | h
          · rcases List.mem_append.mp hy with hy | hy
            · exact .inl ⟨y, hy, hy'⟩
            · rw [List.mem_singleton] at hy; subst hy; exact absurd hy' he
          · refine .inr ?_
            rw [tokensShifted, List.countP_append] at h
            change n ≤ tokensShifted E b + tokensShifted E [e] at h
            omega
        · intro h a x b hb hx
          rcases List.eq_nil_or_concat b with rfl | ⟨b', y, rfl⟩
          · have := List.append_inj_right' hb rfl
            cases this
            rw [hd] at hx; cases hx
          · rw [List.concat_eq_append, ← List.cons_append, ← List.append_assoc] at hb
            have h1 := List.append_inj_right' hb rfl
            have h2 := List.append_inj_left' hb rfl
            cases h1
            rw [List.concat_eq_append]
            rcases h a x b' h2 hx with ⟨y, hy, hy'⟩ | h
            · exact .inl ⟨y, List.mem_append_left _ hy, hy'⟩
            · refine .inr ?_
              rw [tokensShifted, List.countP_append]
              change n ≤ tokensShifted E b' + tokensShifted E [e]
              omega
      rw [hcalm, ih (n - k) (by omega)]
      omega
    cases e with
    | shift X =>
      by_cases hX : E = some X
      · exact hdist (by simp [Ev.disturbs, hX]) (by simp [cntStep, hX])
      · exact hstep 1 (by decide) (by simp [Ev.disturbs, hX]) (by simp [Ends]) (by simp [tokensShifted, hX]) (by simp [cntStep, hX])
    | reduce r => exact hstep 0 (by decide) rfl (by simp [Ends]) rfl (by simp [cntStep])
    | syntaxError r => exact hstep 0 (by decide) rfl (by simp [Ends]) rfl (by simp [cntStep])
    | discard t => exact hdist rfl rfl
    | pop X => exact hstep 0 (by decide) rfl (by simp [Ends]) rfl (by simp [cntStep])
    | failed =>
      cases E with
      | none => exact hend (.inr ⟨rfl, rfl⟩) rfl rfl
      | some E => exact hstep 0 (by decide) rfl (by simp [Ends]) rfl (by simp [cntStep])
    | accept => exact hend (.inl rfl) rfl rfl
    | overflow => exact hstep 0 (by decide) rfl (by simp [Ends]) rfl (by simp [cntStep])

/-! ### reports within a call -/

/-- the counter allows a report -/
def Allows (T : Tables) (c : PConf) (n : Int) : Prop := if T.errsym = none then c.noRecovery = true ∨ n ≤ 0 else n < 0

theorem onErr_report {t : Nat} {eh b : Bool} {p q : PState} {evs : List Ev} (h : OnErr T c t eh p q evs b) :
    (∀ s, .syntaxError s ∈ evs ↔ s = t ∧ Allows T c p.errcnt) ∧ (b = true → q.errcnt = 3 ∧ T.errsym ≠ none) ∧ evs.count (.syntaxError t) ≤ 1 := by
  have hp : ∀ (l : List Ev) (s : Nat), (∀ e ∈ l, ∃ X, e = .pop X) → .syntaxError s ∉ l := by
    intro l s hl hs
    obtain ⟨X, hX⟩ := hl _ hs
    cases hX
  have hp' : ∀ (l : List Ev), (∀ e ∈ l, ∃ X, e = .pop X) → l.count (.syntaxError t) = 0 := fun l hl => List.count_eq_zero.mpr (hp l t hl)
  have hif : ∀ (P : Prop) [Decidable P] (s : Nat), .syntaxError s ∈ (if P then [Ev.syntaxError t] else []) ↔ s = t ∧ P := by
    intro P _ s; split_ifs with h <;> simp [h]
  have hif' : ∀ (P : Prop) [Decidable P], (if P then [Ev.syntaxError t] else []).count (.syntaxError t) ≤ 1 := by
    intro P _; split_ifs with h <;> simp
  cases h with
  | none hE h1 => simp [Allows, hE, h1]
  | plain hE h1 h2 => refine ⟨fun s => ?_, by simp, ?_⟩ <;> simp [Allows, hE, h1, hif, hif']
  | last hE h1 h2 =>
    refine ⟨fun s => ?_, by simp, ?_⟩
    · simp [Allows, hE, h1, hif, hp _ s (popAll_evs (st := p.stack))]
    · simp [List.count_cons, hp' _ (popAll_evs (st := p.stack)), hif']
  | drop hE => refine ⟨fun s => ?_, by simp, ?_⟩ <;> simp [Allows, hE, hif, hif']
  | @fail E top st act pops hE htop h k hf =>
    have := (popToError_spec _ _ _ _ _ k).2.2
    refine ⟨fun s => ?_, by simp, ?_⟩
    · simp [Allows, hE, hif, hp _ s (popAll_evs (st := st)), hp _ s this]
    · simp [List.count_cons, hp' _ (popAll_evs (st := st)), hp' _ this, hif']
  | @shift E top st act pops q evs hE htop h k hf hs =>
    have := (popToError_spec _ _ _ _ _ k).2.2
    have hev : ∀ s, .syntaxError s ∉ evs := by
      intro s hs'
      obtain ⟨p1, h1, ⟨_, h2⟩ | ⟨_, rfl, n, rfl⟩⟩ := yyShift_cases hs
      · simp only [stackOverflow, Prod.mk.injEq] at h2
        rw [h2.2] at hs'
        rcases List.mem_append.mp hs' with h | h
        · exact hp _ s popAll_evs h
        · simp at h
      · simp at hs'
    refine ⟨fun s => ?_, fun _ => ⟨rfl, by simp [hE]⟩, ?_⟩
    · simp [Allows, hE, hif, hp _ s this, hev]
    · simp [List.count_eq_zero.mpr (hev t), hp' _ this, hif']

/-- a round without an error -/
theorem round_quiet {t fuel : Nat} {eh : Bool} {p : PState} {x : Round} (h : parseRound T c t fuel eh p = some x) (ht : T.errsym ≠ some t) :
    (∃ r, x = .next eh x.state [.reduce r] ∧ x.state.errcnt = p.errcnt) ∨
    ((∀ s, .syntaxError s ∉ x.evs) ∧ (∀ e ∈ x.evs, e.disturbs T.errsym = false) ∧ ∃ q evs, x = .stop q evs) ∨
    (∃ q evs b, OnErr T c t eh p q evs b ∧ x = if b = true then .next true q evs else .stop q evs) := by
  have hpa : ∀ st, (∀ s, .syntaxError s ∉ (popAll st).2 ++ [.overflow]) ∧ ∀ e ∈ (popAll st).2 ++ [.overflow], e.disturbs T.errsym = false := by
    intro st
    refine ⟨fun s hs => ?_, fun e he => ?_⟩
    · rcases List.mem_append.mp hs with h | h
      · obtain ⟨X, hX⟩ := popAll_evs _ h
        cases hX
      · simp at h
    · rcases List.mem_append.mp he with h | h
      · obtain ⟨X, rfl⟩ := popAll_evs _ h
        rfl
      · rw [List.mem_singleton] at h; subst h; rfl
  rcases round_cases h with ⟨r, p1, q, _, h1, _, h2, rfl⟩ | ⟨r, p1, _, _, _, rfl⟩ | ⟨r, q, _, h2, rfl⟩ | ⟨act, q, evs, h2, rfl⟩ |
    ⟨a, b, _, rfl⟩ | ⟨q, evs, b, h2, rfl⟩
  · obtain ⟨A, act, _, _, _, rfl⟩ := yyReduce_cases h2
    exact .inl ⟨r, rfl, (track_spec h1).2.1⟩
  · exact .inr (.inl ⟨(hpa _).1, (hpa _).2, _, _, rfl⟩)
  · obtain ⟨A, act, _, _, _, rfl⟩ := yyReduce_cases h2
    exact .inl ⟨r, rfl, rfl⟩
  · refine .inr (.inl ?_)
    obtain ⟨p1, h1, ⟨_, h2⟩ | ⟨_, rfl, n, rfl⟩⟩ := yyShift_cases h2
    · simp only [stackOverflow, Prod.mk.injEq] at h2
      obtain ⟨rfl, rfl⟩ := h2
      exact ⟨(hpa _).1, (hpa _).2, _, _, rfl⟩
    · refine ⟨by simp [Round.evs], ?_, _, _, rfl⟩
      intro e he
      simp only [Round.evs, List.mem_singleton] at he
      subst he
      simp [Ev.disturbs, ht]
  · exact .inr (.inl ⟨by simp [Round.evs], by simp [Round.evs, Ev.disturbs], _, _, rfl⟩)
  · exact .inr (.inr ⟨q, evs, b, onError_onErr h2, rfl⟩)

/-- after an error nothing is reported in the same call -/
theorem loop_silent {t : Nat} (hE : T.errsym ≠ none) (ht : T.errsym ≠ some t) : ∀ (fuel : Nat) (eh : Bool) (p q : PState) (evs : List Ev),
    parseLoop T c t fuel eh p = some (q, evs) → p.errcnt = 3 → ∀ s, .syntaxError s ∉ evs := by
  have hA : ¬ Allows T c 3 := by simp [Allows, hE]
  intro fuel
  induction fuel with
  | zero => intro eh p q evs h; cases h
  | succ fuel ih =>
    intro eh p q evs h h3 s
    rw [parseLoop] at h
    split at h
    · cases h
    · rename_i p1 e1 hx
      simp only [Option.some.injEq, Prod.mk.injEq] at h
      obtain ⟨rfl, rfl⟩ := h
      rcases round_quiet hx ht with ⟨r, h1, h2⟩ | ⟨h1, _⟩ | ⟨q, evs, b, h1, h2⟩
      · cases h1
      · exact h1 s
      · intro hs
        have : e1 = evs := by cases b <;> cases h2; rfl
        rw [this, (onErr_report h1).1, h3] at hs
        exact hA hs.2
    · rename_i eh1 p1 e1 hx
      obtain ⟨⟨q', e2⟩, h1, h2⟩ := Option.map_eq_some_iff.mp h
      simp only [Prod.mk.injEq] at h2
      obtain ⟨rfl, rfl⟩ := h2
      rw [List.mem_append, not_or]
      rcases round_quiet hx ht with ⟨r, h4, h5⟩ | ⟨_, _, _, _, h4⟩ | ⟨q, evs, b, h4, h5⟩
      · simp only [Round.state, Round.next.injEq, true_and] at h4 h5
        rw [h4.2]
        exact ⟨by simp, ih eh1 p1 q' e2 h1 (h5.trans h3) s⟩
      · cases h4
      · cases b with
        | false => cases h5
        | true =>
          simp only [if_true, Round.next.injEq] at h5
          obtain ⟨rfl, rfl, rfl⟩ := h5
          refine ⟨fun hs => ?_, ih _ p1 q' e2 h1 ((onErr_report h4).2.1 rfl).1 s⟩
          rw [(onErr_report h4).1, h3] at hs
          exact hA hs.2

theorem onErr_disturbs {t : Nat} {eh b : Bool} {p q : PState} {evs : List Ev} (h : OnErr T c t eh p q evs b) (ho : .overflow ∉ evs) :
    ∃ e ∈ evs, e.disturbs T.errsym = true := by
  cases h with
  | none => exact ⟨.discard t, by simp, rfl⟩
  | plain => exact ⟨.discard t, by simp, rfl⟩
  | last => exact ⟨.discard t, by simp, rfl⟩
  | drop => exact ⟨.discard t, by simp, rfl⟩
  | fail => exact ⟨.discard t, by simp, rfl⟩
  | @shift E top st act pops q evs hE htop h k hf hs =>
    obtain ⟨p1, h1, ⟨_, h2⟩ | ⟨_, rfl, n, rfl⟩⟩ := yyShift_cases hs
    · simp only [stackOverflow, Prod.mk.injEq] at h2
      exact absurd (by simp [h2.2]) ho
    · exact ⟨.shift E, by simp, by simp [Ev.disturbs, hE]⟩

/-- within a call: the report, if the call meets an error -/
theorem loop_report {t : Nat} (ht : T.errsym ≠ some t) : ∀ (fuel : Nat) (eh : Bool) (p q : PState) (evs : List Ev),
    parseLoop T c t fuel eh p = some (q, evs) → .overflow ∉ evs →
    (∀ s, .syntaxError s ∈ evs ↔ s = t ∧ (∃ e ∈ evs, e.disturbs T.errsym = true) ∧ Allows T c p.errcnt) ∧ evs.count (.syntaxError t) ≤ 1 := by
  intro fuel
  induction fuel with
  | zero => intro eh p q evs h; cases h
  | succ fuel ih =>
    intro eh p q evs h ho
    rw [parseLoop] at h
    split at h
    · cases h
    · rename_i p1 e1 hx
      simp only [Option.some.injEq, Prod.mk.injEq] at h
      obtain ⟨rfl, rfl⟩ := h
      rcases round_quiet hx ht with ⟨r, h1, h2⟩ | ⟨h1, h2, _⟩ | ⟨q, evs, b, h1, h2⟩
      · cases h1
      · refine ⟨fun s => ⟨fun h => absurd h (h1 s), ?_⟩, (List.count_eq_zero.mpr (h1 t)).trans_le (Nat.zero_le 1)⟩
        rintro ⟨_, ⟨e, he, hd⟩, _⟩
        rw [h2 e he] at hd; cases hd
      · have : e1 = evs := by cases b <;> cases h2; rfl
        subst this
        refine ⟨fun s => ?_, (onErr_report h1).2.2⟩
        rw [(onErr_report h1).1]
        have := onErr_disturbs h1 ho
        tauto
    · rename_i eh1 p1 e1 hx
      obtain ⟨⟨q', e2⟩, h1, h2⟩ := Option.map_eq_some_iff.mp h
      simp only [Prod.mk.injEq] at h2
      obtain ⟨rfl, rfl⟩ := h2
      simp only [List.mem_append, not_or] at ho
      rcases round_quiet hx ht with ⟨r, h4, h5⟩ | ⟨_, _, _, _, h4⟩ | ⟨q, evs, b, h4, h5⟩
      · simp only [Round.state, Round.next.injEq, true_and] at h4 h5
        obtain ⟨k1, k2⟩ := ih eh1 p1 q' e2 h1 ho.2
        rw [h4.2]
        refine ⟨fun s => ?_, by simpa using k2⟩
        have := k1 s
        rw [h5] at this
        simpa [Ev.disturbs] using this
      · cases h4
      · cases b with
        | false => cases h5
        | true =>
          simp only [if_true, Round.next.injEq] at h5
          obtain ⟨rfl, rfl, rfl⟩ := h5
          obtain ⟨k1, k2, k3⟩ := onErr_report h4
          have hs := loop_silent (k2 rfl).2 ht fuel _ p1 q' e2 h1 (k2 rfl).1
          refine ⟨fun s => ?_, ?_⟩
          · rw [List.mem_append, k1]
            obtain ⟨e, he, hd⟩ := onErr_disturbs h4 ho.1
            constructor
            · rintro (h | h)
              · exact ⟨h.1, ⟨e, List.mem_append_left _ he, hd⟩, h.2⟩
              · exact absurd h (hs s)
            · rintro ⟨h, _, h'⟩
              exact .inl ⟨h, h'⟩
          · rw [List.count_append, List.count_eq_zero.mpr (hs t)]
            omega

/-! ### what becomes of tokens -/

theorem popAll_filter {E : Option Nat} {st : List (Nat × Nat)} : (popAll st).2.filter (Ev.consumes E) = [] := by
  rw [List.filter_eq_nil_iff]
  intro e he
  obtain ⟨X, rfl⟩ := popAll_evs e he
  simp [Ev.consumes]

theorem pops_filter {E : Option Nat} {l : List Ev} (h : ∀ e ∈ l, ∃ X, e = .pop X) : l.filter (Ev.consumes E) = [] := by
  rw [List.filter_eq_nil_iff]
  intro e he
  obtain ⟨X, rfl⟩ := h e he
  simp [Ev.consumes]

theorem pops_count {X : Nat} {l : List Ev} (h : ∀ e ∈ l, ∃ X, e = .pop X) : l.count (.shift X) = 0 := by
  rw [List.count_eq_zero]
  intro he
  obtain ⟨X, h⟩ := h _ he
  cases h

theorem syn_filter {E : Option Nat} {t : Nat} {P : Prop} [Decidable P] : (if P then [Ev.syntaxError t] else []).filter (Ev.consumes E) = [] := by
  split_ifs <;> rfl

theorem syn_count {X t : Nat} {P : Prop} [Decidable P] : (if P then [Ev.syntaxError t] else []).count (.shift X) = 0 := by
  split_ifs <;> rfl

/-- on an error: the token is thrown away, or the error symbol is shifted -/
theorem onErr_consumes {t : Nat} {eh b : Bool} {p q : PState} {evs : List Ev} (h : OnErr T c t eh p q evs b) (ho : .overflow ∉ evs) :
    evs.filter (Ev.consumes T.errsym) = (if b = true then [] else [.discard t]) ∧
    (∀ X, evs.count (.shift X) = if b = true ∧ T.errsym = some X then 1 else 0) ∧ (b = true → eh = false) := by
  cases h with
  | none => refine ⟨rfl, fun X => by simp, by simp⟩
  | plain => refine ⟨by simp [List.filter_append, syn_filter, Ev.consumes], fun X => by simp [syn_count], by simp⟩
  | last =>
    refine ⟨by simp [List.filter_append, List.filter_cons, syn_filter, popAll_filter, Ev.consumes], fun X => ?_, by simp⟩
    simp [List.count_cons, syn_count, pops_count popAll_evs]
  | drop => refine ⟨by simp [List.filter_append, syn_filter, Ev.consumes], fun X => by simp [syn_count], by simp⟩
  | fail hE htop h k hf =>
    have := (popToError_spec _ _ _ _ _ k).2.2
    refine ⟨by simp [List.filter_append, List.filter_cons, syn_filter, popAll_filter, pops_filter this, Ev.consumes], fun X => ?_, by simp⟩
    simp [List.count_cons, syn_count, pops_count popAll_evs, pops_count this]
  | @shift E top st act pops q evs hE htop h k hf hs =>
    have := (popToError_spec _ _ _ _ _ k).2.2
    obtain ⟨p1, h1, ⟨_, h2⟩ | ⟨_, rfl, n, rfl⟩⟩ := yyShift_cases hs
    · simp only [stackOverflow, Prod.mk.injEq] at h2
      exact absurd (by simp [h2.2]) ho
    · refine ⟨by simp [List.filter_append, syn_filter, pops_filter this, Ev.consumes, hE], fun X => ?_, fun _ => h.2⟩
      simp [syn_count, pops_count this, hE, List.count_cons]

theorem loop_consumes {t : Nat} (ht : T.errsym ≠ some t) : ∀ (fuel : Nat) (eh : Bool) (p q : PState) (evs : List Ev),
    parseLoop T c t fuel eh p = some (q, evs) → .overflow ∉ evs →
    (∃ e, (e = .shift t ∨ e = .discard t ∨ e = .accept) ∧ evs.filter (Ev.consumes T.errsym) = [e]) ∧
    (∀ E, T.errsym = some E → evs.count (.shift E) ≤ if eh = true then 0 else 1) := by
  intro fuel
  induction fuel with
  | zero => intro eh p q evs h; cases h
  | succ fuel ih =>
    intro eh p q evs h ho
    rw [parseLoop] at h
    split at h
    · cases h
    · rename_i p1 e1 hx
      simp only [Option.some.injEq, Prod.mk.injEq] at h
      obtain ⟨rfl, rfl⟩ := h
      rcases round_cases hx with ⟨r, p1, q, _, h1, _, h2, h3⟩ | ⟨r, p1, _, _, _, h3⟩ | ⟨r, q, _, h2, h3⟩ | ⟨act, q, evs, h2, h3⟩ |
        ⟨a, b, _, h3⟩ | ⟨q, evs, b, h2, h3⟩
      · cases h3
      · cases h3; exact absurd (by simp [stackOverflow]) ho
      · cases h3
      · cases h3
        obtain ⟨p1, h1, ⟨_, h2⟩ | ⟨_, rfl, n, rfl⟩⟩ := yyShift_cases h2
        · simp only [stackOverflow, Prod.mk.injEq] at h2
          exact absurd (by simp [h2.2]) ho
        · refine ⟨⟨_, .inl rfl, by simp [Ev.consumes, ht]⟩, fun E hE => ?_⟩
          have : t ≠ E := by rintro rfl; exact ht hE
          simp [List.count_cons, this]
      · cases h3
        exact ⟨⟨_, .inr (.inr rfl), rfl⟩, fun E hE => by simp⟩
      · cases b with
        | true => cases h3
        | false =>
          cases h3
          obtain ⟨k1, k2, k3⟩ := onErr_consumes (onError_onErr h2) ho
          exact ⟨⟨_, .inr (.inl rfl), k1⟩, fun E hE => by rw [k2]; simp⟩
    · rename_i eh1 p1 e1 hx
      obtain ⟨⟨q', e2⟩, h1, h2⟩ := Option.map_eq_some_iff.mp h
      simp only [Prod.mk.injEq] at h2
      obtain ⟨rfl, rfl⟩ := h2
      simp only [List.mem_append, not_or] at ho
      obtain ⟨⟨e, he, k1⟩, k2⟩ := ih eh1 p1 q' e2 h1 ho.2
      rcases round_quiet hx ht with ⟨r, h4, h5⟩ | ⟨_, _, _, _, h4⟩ | ⟨q, evs, b, h4, h5⟩
      · simp only [Round.state, Round.next.injEq, true_and] at h4
        obtain ⟨rfl, rfl⟩ := h4
        exact ⟨⟨e, he, by simpa [Ev.consumes] using k1⟩, fun E hE => by simpa [List.count_cons] using k2 E hE⟩
      · cases h4
      · cases b with
        | false => cases h5
        | true =>
          simp only [if_true, Round.next.injEq] at h5
          obtain ⟨rfl, rfl, rfl⟩ := h5
          obtain ⟨k3, k4, k5⟩ := onErr_consumes h4 ho.1
          refine ⟨⟨e, he, by rw [List.filter_append, k3, k1]; rfl⟩, fun E hE => ?_⟩
          have := k2 E hE
          rw [List.count_append, k4, if_pos ⟨rfl, hE⟩, k5 rfl]
          simp only [if_true, Nat.le_zero] at this
          rw [this]; decide

/-! ### what becomes of symbols on the stack -/

theorem Uses.append {s s1 s2 : List Nat} {e1 e2 : List Ev} (h1 : Uses T s e1 s1) (h2 : Uses T s1 e2 s2) : Uses T s (e1 ++ e2) s2 := by
  induction h1 with
  | done => exact h2
  | shift X _ ih => exact .shift X (ih h2)
  | pop X _ ih => exact .pop X (ih h2)
  | reduce r A α hA hα _ ih => exact .reduce r A α hA hα (ih h2)
  | syntaxError t _ ih => exact .syntaxError t (ih h2)
  | discard t _ ih => exact .discard t (ih h2)
  | failed _ ih => exact .failed (ih h2)
  | overflow _ ih => exact .overflow (ih h2)
  | accept X _ ih => exact .accept X (ih h2)

theorem uses_pops (l : List (Nat × Nat)) : Uses T (l.map Prod.snd) (l.map fun e => Ev.pop e.2) [] := by
  induction l with
  | nil => exact .done _
  | cons e l ih => exact .pop _ ih

theorem uses_popAll (st : List (Nat × Nat)) : Uses T (st.dropLast.map Prod.snd) (popAll st).2 [] := by
  have := uses_pops (T := T) st.dropLast
  rwa [List.dropLast_eq_take] at this ⊢

theorem uses_syn {s : List Nat} {t : Nat} {P : Prop} [Decidable P] : Uses T s (if P then [.syntaxError t] else []) s := by
  split_ifs
  · exact .syntaxError t (.done s)
  · exact .done s

theorem uses_popToError {E : Nat} : ∀ (st : List (Nat × Nat)) (a : Nat) (st' : List (Nat × Nat)) (act : Nat) (pops : List Ev),
    popToError T E st a = some (st', act, pops) → Uses T (st.dropLast.map Prod.snd) pops (st'.dropLast.map Prod.snd) := by
  intro st
  induction st with
  | nil => intro a st' act pops h; cases h
  | cons e st ih =>
    intro a st' act pops h
    cases st with
    | nil =>
      simp only [popToError, Option.some.injEq, Prod.mk.injEq] at h
      obtain ⟨rfl, rfl, rfl⟩ := h
      exact .done _
    | cons e' st =>
      rw [popToError] at h
      · split at h
        · cases h
        · split_ifs at h with h1
          · simp only [Option.some.injEq, Prod.mk.injEq] at h
            obtain ⟨rfl, rfl, rfl⟩ := h
            exact .done _
          · obtain ⟨⟨s1, a1, p1⟩, h2, h3⟩ := Option.map_eq_some_iff.mp h
            simp only [Prod.mk.injEq] at h3
            obtain ⟨rfl, rfl, rfl⟩ := h3
            exact .pop _ (ih _ _ _ _ h2)
      · simp

/-- the lengths of the rules of the tables fit into a `signed char` -/
structure RuleLens (T : Tables) : Prop where
  len : T.ruleNRhs.length = T.ruleLhs.length
  fits : ∀ n ∈ T.ruleNRhs, n ≤ 128

theorem RuleLens.nrhs (hT : RuleLens T) {r A : Nat} (h : T.ruleLhs[r]? = some A) : T.ruleNRhs[r]? = some (-T.nrhs r).toNat := by
  obtain ⟨h1, _⟩ := List.getElem?_eq_some_iff.mp h
  have h2 : r < T.ruleNRhs.length := hT.len ▸ h1
  have h3 := hT.fits _ (List.getElem_mem h2)
  rw [List.getElem?_eq_getElem h2, Tables.nrhs, List.getD_eq_getElem?_getD, List.getElem?_eq_getElem h2, Option.getD_some, schar]
  congr 1
  omega

theorem uses_reduce (hT : RuleLens T) {r : Nat} {p q : PState} (h : yyReduce T r p = some q) :
    Uses T p.symbols [.reduce r] q.symbols ∧ q.stack ≠ [] := by
  obtain ⟨A, act, hA, _, hlt, rfl⟩ := yyReduce_cases h
  refine ⟨?_, by simp⟩
  set k := (-T.nrhs r).toNat
  have hd : p.stack.drop k ≠ [] := by
    intro hc
    have := congrArg List.length hc
    simp only [List.length_drop, List.length_nil] at this
    omega
  have e1 : p.symbols = (p.stack.take k).map Prod.snd ++ (p.stack.drop k).dropLast.map Prod.snd := by
    rw [PState.symbols, ← List.map_append, ← List.dropLast_append_of_ne_nil hd, List.take_append_drop]
  rw [e1]
  refine .reduce r A _ hA ?_ ?_
  · rw [hT.nrhs hA, List.length_map, List.length_take, Nat.min_eq_left (by omega)]
  · have : PState.symbols { p with stack := (act, A) :: p.stack.drop k } = A :: (p.stack.drop k).dropLast.map Prod.snd := by
      rw [PState.symbols]
      simp only
      rw [List.dropLast_cons_of_ne_nil hd, List.map_cons]
    rw [this]
    exact .done _

theorem symbols_popAll (p : PState) (st : List (Nat × Nat)) (n : Int) : PState.symbols { p with stack := (popAll st).1, errcnt := n } = [] := by
  rw [PState.symbols]
  simp only [popAll_last]
  cases st.getLast? <;> rfl

theorem popAll_ne_nil {st : List (Nat × Nat)} (h : st ≠ []) : (popAll st).1 ≠ [] := by
  intro hc
  have := popAll_length (List.length_pos_of_ne_nil h)
  rw [hc] at this
  cases this

theorem uses_shift {new X : Nat} {p q : PState} {evs : List Ev} (h : yyShift T c new X p = some (q, evs)) (hne : p.stack ≠ []) :
    Uses T p.symbols evs q.symbols ∧ q.stack ≠ [] := by
  obtain ⟨p1, h1, ⟨_, h2⟩ | ⟨_, rfl, n, rfl⟩⟩ := yyShift_cases h
  · obtain ⟨h3, _, _⟩ := track_spec h1
    simp only [stackOverflow, Prod.mk.injEq] at h2
    obtain ⟨rfl, rfl⟩ := h2
    rw [h3]
    refine ⟨?_, popAll_ne_nil hne⟩
    rw [show PState.symbols { p1 with stack := (popAll p.stack).1 } = [] from symbols_popAll p1 p.stack p1.errcnt]
    exact (uses_popAll _).append (.overflow (.done _))
  · obtain ⟨h3, _, _⟩ := track_spec h1
    refine ⟨?_, by simp⟩
    have : PState.symbols { p1 with stack := (n, X) :: p1.stack } = X :: p.symbols := by
      rw [PState.symbols, PState.symbols]
      simp only
      rw [h3, List.dropLast_cons_of_ne_nil hne, List.map_cons]
    rw [this]
    exact .shift X (.done _)

theorem uses_onErr {t : Nat} {eh b : Bool} {p q : PState} {evs : List Ev} (h : OnErr T c t eh p q evs b) (hne : p.stack ≠ []) :
    Uses T p.symbols evs q.symbols ∧ q.stack ≠ [] := by
  cases h with
  | none => exact ⟨.syntaxError t (.discard t (.done _)), hne⟩
  | plain => exact ⟨uses_syn.append (.discard t (.done _)), hne⟩
  | last =>
    refine ⟨uses_syn.append (.discard t ?_), popAll_ne_nil hne⟩
    rw [symbols_popAll]
    exact (uses_popAll _).append (.failed (.done _))
  | drop => exact ⟨uses_syn.append (.discard t (.done _)), hne⟩
  | fail hE htop h k hf =>
    refine ⟨(uses_syn.append (uses_popToError _ _ _ _ _ k)).append (.discard t ?_), popAll_ne_nil (popToError_spec _ _ _ _ _ k).2.1⟩
    rw [symbols_popAll]
    exact (uses_popAll _).append (.failed (.done _))
  | shift hE htop h k hf hs =>
    obtain ⟨k1, k2⟩ := uses_shift hs (popToError_spec _ _ _ _ _ k).2.1
    exact ⟨(uses_syn.append (uses_popToError _ _ _ _ _ k)).append k1, k2⟩

theorem uses_round (hT : RuleLens T) {t fuel : Nat} {eh : Bool} {p : PState} {x : Round} (h : parseRound T c t fuel eh p = some x)
    (hne : p.stack ≠ []) : Uses T p.symbols x.evs x.state.symbols ∧ x.state.stack ≠ [] := by
  rcases round_cases h with ⟨r, p1, q, _, h1, _, h2, rfl⟩ | ⟨r, p1, _, h1, _, rfl⟩ | ⟨r, q, _, h2, rfl⟩ | ⟨act, q, evs, h2, rfl⟩ |
    ⟨a, b, hst, rfl⟩ | ⟨q, evs, b, h2, rfl⟩
  · have := uses_reduce hT h2
    rwa [PState.symbols, (track_spec h1).1] at this
  · obtain ⟨h3, _, _⟩ := track_spec h1
    simp only [Round.evs, Round.state, stackOverflow, h3]
    refine ⟨?_, popAll_ne_nil hne⟩
    rw [show PState.symbols { p1 with stack := (popAll p.stack).1 } = [] from symbols_popAll p1 p.stack p1.errcnt]
    exact (uses_popAll _).append (.overflow (.done _))
  · exact uses_reduce hT h2
  · exact (uses_shift h2 hne : _)
  · refine ⟨?_, by simp [Round.state]⟩
    have : p.symbols = [a.2] := by rw [PState.symbols, hst]; rfl
    rw [this]
    exact .accept _ (.done _)
  · have := uses_onErr (onError_onErr h2) hne
    cases b <;> exact this

theorem uses_loop (hT : RuleLens T) {t : Nat} : ∀ (fuel : Nat) (eh : Bool) (p q : PState) (evs : List Ev),
    parseLoop T c t fuel eh p = some (q, evs) → p.stack ≠ [] → Uses T p.symbols evs q.symbols ∧ q.stack ≠ [] := by
  intro fuel
  induction fuel with
  | zero => intro eh p q evs h; cases h
  | succ fuel ih =>
    intro eh p q evs h hne
    rw [parseLoop] at h
    split at h
    · cases h
    · rename_i p1 e1 hx
      simp only [Option.some.injEq, Prod.mk.injEq] at h
      obtain ⟨rfl, rfl⟩ := h
      exact uses_round hT hx hne
    · rename_i eh1 p1 e1 hx
      obtain ⟨⟨q', e2⟩, h1, h2⟩ := Option.map_eq_some_iff.mp h
      simp only [Prod.mk.injEq] at h2
      obtain ⟨rfl, rfl⟩ := h2
      obtain ⟨k1, k2⟩ := uses_round hT hx hne
      obtain ⟨k3, k4⟩ := ih eh1 p1 q' e2 h1 k2
      exact ⟨k1.append k3, k4⟩

theorem uses_tokens (hT : RuleLens T) {fuel : Nat} : ∀ (ts : List Nat) (p q : PState) (evs : List Ev),
    parseTokens T c fuel ts p = some (q, evs) → p.stack ≠ [] → Uses T p.symbols evs q.symbols ∧ q.stack ≠ [] := by
  intro ts
  induction ts with
  | nil =>
    intro p q evs h hne
    simp only [parseTokens, Option.some.injEq, Prod.mk.injEq] at h
    obtain ⟨rfl, rfl⟩ := h
    exact ⟨.done _, hne⟩
  | cons t ts ih =>
    intro p q evs h hne
    rw [parseTokens] at h
    obtain ⟨⟨p1, e1⟩, h1, h2⟩ := Option.bind_eq_some_iff.mp h
    obtain ⟨⟨q', e2⟩, h3, h4⟩ := Option.map_eq_some_iff.mp h2
    simp only [Prod.mk.injEq] at h4
    obtain ⟨rfl, rfl⟩ := h4
    obtain ⟨k1, k2⟩ := uses_loop hT fuel false p p1 e1 h1 hne
    obtain ⟨k3, k4⟩ := ih p1 q' e2 h3 k2
    exact ⟨k1.append k3, k4⟩

end Verif.Lemon
