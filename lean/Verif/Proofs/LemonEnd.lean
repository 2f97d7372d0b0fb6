import Verif.Proofs.LemonErr
import Verif.Proofs.LemonSound
/-
The end of a parse.
-/
set_option autoImplicit false
namespace Verif.Lemon
open Verif.Spec

variable {g : Gram} {fb : Nat → Option Nat} {compress : Bool} {m : Mach} {F : List TSet} {A : Acts} {cs : List CState} {T : Tables} {c : PConf}

/-! ### the bottom of the stack -/

theorem last_popAll {st : List (Nat × Nat)} : (popAll st).1.getLast? = st.getLast? := by
  rw [popAll_last]
  cases st.getLast? <;> rfl

theorem last_cons {e : Nat × Nat} {st : List (Nat × Nat)} (h : st ≠ []) : (e :: st).getLast? = st.getLast? := by
  obtain ⟨a, l, rfl⟩ := List.exists_cons_of_ne_nil h
  exact List.getLast?_cons_cons

theorem last_popToError {E : Nat} : ∀ (st : List (Nat × Nat)) (a : Nat) (st' : List (Nat × Nat)) (act : Nat) (pops : List Ev),
    popToError T E st a = some (st', act, pops) → st'.getLast? = st.getLast? ∧ st' ≠ [] := by
  intro st
  induction st with
  | nil => intro a st' act pops h; cases h
  | cons e st ih =>
    intro a st' act pops h
    cases st with
    | nil =>
      simp only [popToError, Option.some.injEq, Prod.mk.injEq] at h
      obtain ⟨rfl, rfl, rfl⟩ := h
      exact ⟨rfl, by simp⟩
    | cons e' st =>
      rw [popToError] at h
      · split at h
        · cases h
        · split_ifs at h with h1
          · simp only [Option.some.injEq, Prod.mk.injEq] at h
            obtain ⟨rfl, rfl, rfl⟩ := h
            exact ⟨rfl, by simp⟩
          · obtain ⟨⟨s1, a1, p1⟩, h2, h3⟩ := Option.map_eq_some_iff.mp h
            simp only [Prod.mk.injEq] at h3
            obtain ⟨rfl, rfl, rfl⟩ := h3
            obtain ⟨h4, h5⟩ := ih _ _ _ _ h2
            exact ⟨h4.trans (last_cons (List.cons_ne_nil _ _)).symm, h5⟩
      · simp

theorem last_shift {new X : Nat} {p q : PState} {evs : List Ev} (h : yyShift T c new X p = some (q, evs)) (hne : p.stack ≠ []) :
    q.stack.getLast? = p.stack.getLast? := by
  obtain ⟨p1, h1, ⟨_, h2⟩ | ⟨_, rfl, n, rfl⟩⟩ := yyShift_cases h
  · simp only [stackOverflow, Prod.mk.injEq] at h2
    rw [h2.1]
    simp only
    rw [last_popAll, (track_spec h1).1]
  · simp only [(track_spec h1).1]
    exact last_cons hne

theorem last_onErr {t : Nat} {eh b : Bool} {p q : PState} {evs : List Ev} (h : OnErr T c t eh p q evs b) (hne : p.stack ≠ []) :
    q.stack.getLast? = p.stack.getLast? := by
  cases h with
  | none => rfl
  | plain => rfl
  | last => exact last_popAll
  | drop => rfl
  | fail hE htop h hp hf => exact last_popAll.trans (last_popToError _ _ _ _ _ hp).1
  | shift hE htop h hp hf hs =>
    obtain ⟨k1, k2⟩ := last_popToError _ _ _ _ _ hp
    exact (last_shift hs k2).trans k1

theorem last_reduce {r : Nat} {p q : PState} (h : yyReduce T r p = some q) : q.stack.getLast? = p.stack.getLast? := by
  obtain ⟨A, act, hA, _, hlt, rfl⟩ := yyReduce_cases h
  simp only
  have hd : p.stack.drop (-T.nrhs r).toNat ≠ [] := by
    intro hc
    have := congrArg List.length hc
    rw [List.length_drop, List.length_nil] at this
    omega
  rw [last_cons hd, List.getLast?_drop, if_neg (by omega)]

theorem last_round {t fuel : Nat} {eh : Bool} {p : PState} {x : Round} (h : parseRound T c t fuel eh p = some x) (hne : p.stack ≠ []) :
    x.state.stack.getLast? = p.stack.getLast? := by
  rcases round_cases h with ⟨r, p1, q, _, h1, _, h2, rfl⟩ | ⟨r, p1, _, h1, _, rfl⟩ | ⟨r, q, _, h2, rfl⟩ | ⟨act, q, evs, h2, rfl⟩ |
    ⟨a, b, hst, rfl⟩ | ⟨q, evs, b, h2, rfl⟩
  · have := last_reduce h2
    rwa [(track_spec h1).1] at this
  · have := last_popAll (st := p1.stack)
    rw [(track_spec h1).1] at this
    rw [← this, ← (track_spec h1).1]
    rfl
  · exact last_reduce h2
  · have := last_shift h2 hne
    exact this
  · rw [hst]; rfl
  · have := last_onErr (onError_onErr h2) hne
    split_ifs <;> exact this

/-! ### the stack after errors, without an error symbol -/

theorem Sim.last {nx : Nat} {st : List (Nat × Nat)} {s : Nat} {γ : List Nat} (h : Sim g m cs nx st s γ) : ∃ X, st.getLast? = some (0, X) := by
  induction h with
  | bottom X => exact ⟨X, rfl⟩
  | push X h _ _ ih =>
    obtain ⟨Y, hY⟩ := ih
    refine ⟨Y, ?_⟩
    rw [last_cons, hY]
    intro hc
    rw [hc] at hY
    cases hY

theorem Conf.last {nx : Nat} {fin : Prop} {st : List (Nat × Nat)} {γ : List Nat} (h : Conf g m cs nx fin st γ) : ∃ X, st.getLast? = some (0, X) := by
  have key : ∀ {st : List (Nat × Nat)} {s : Nat} {γ : List Nat} (e : Nat × Nat), Sim g m cs nx st s γ → ∃ X, (e :: st).getLast? = some (0, X) := by
    intro st s γ e h
    obtain ⟨Y, hY⟩ := h.last
    refine ⟨Y, ?_⟩
    rw [last_cons, hY]
    intro hc
    rw [hc] at hY
    cases hY
  cases h with
  | norm h => exact h.last
  | pend X h ht ha => exact key _ h
  | acc X h h' => exact key _ h'

theorem Conf.popAll {nx : Nat} {fin fin' : Prop} {st : List (Nat × Nat)} {γ : List Nat} (h : Conf g m cs nx fin st γ) :
    Conf g m cs nx fin' (popAll st).1 [] := by
  obtain ⟨X, hX⟩ := h.last
  rw [popAll_last, hX]
  exact .norm (.bottom X)

theorem Conf.ne_nil {nx : Nat} {fin : Prop} {st : List (Nat × Nat)} {γ : List Nat} (h : Conf g m cs nx fin st γ) : st ≠ [] := by
  intro hc
  have := h.length
  rw [hc] at this
  cases this

section
variable (u : Usable g) (h : Generated g fb compress m F A cs T)
include u h

theorem trans_occurs {s X q : Nat} (ht : m.Trans s X q) : ∃ r ∈ g.rules, X ∈ r.rhs := by
  have ha := h.toPrepared.isAuto u
  obtain ⟨_, r, d, _, B, α, hB, hα⟩ := (ha.ex s X (ha.lt _ _ _ ht).1).mp ⟨q, ht⟩
  have hm := List.mem_of_getElem? hB
  simp only [Gram.ext, List.mem_map] at hm
  obtain ⟨r', hr', e⟩ := hm
  cases e
  exact ⟨r', hr', List.mem_of_getElem? hα⟩

theorem loop_any (hfb : FallbackOK g fb) (hlen : ∀ r ∈ g.rules, r.rhs.length < 256) (hE : g.errsym = none) {t : Nat} (ht : t < g.nterm) :
    ∀ (fuel : Nat) (eh : Bool) (p q : PState) (γ : List Nat) (evs : List Ev),
    Conf g m cs (nxstate cs (resortStates g cs)) (t = 0) p.stack γ → parseLoop T c t fuel eh p = some (q, evs) →
    (∃ γ', Conf g m cs (nxstate cs (resortStates g cs)) False q.stack γ') ∧ q.stack.getLast? = p.stack.getLast? ∧
    (t = 0 → c.noRecovery = false → (∀ r ∈ g.rules, 0 ∉ r.rhs) → (∀ l ∈ g.mts, 0 ∉ l) →
      q.stack.length = 1 ∧ ∃ es e, evs = es ++ [e] ∧ (e = .accept ∨ e = .failed ∨ e = .overflow) ∧ (e ≠ .overflow → q.errcnt = -1)) := by
  intro fuel
  have hTE : T.errsym = none := by rw [(h.reported u).errsym, hE]; rfl
  induction fuel with
  | zero => intro eh p q γ evs _ hl; cases hl
  | succ fuel ih =>
    intro eh p q γ evs hc hl
    rw [parseLoop] at hl
    cases hx : parseRound T c t (fuel + 1) eh p with
    | none => rw [hx] at hl; cases hl
    | some x =>
      have hr := round_any u h hfb hlen ht hc hx
      have hb := last_round hx hc.ne_nil
      rw [hx] at hl
      cases x with
      | stop p1 e1 =>
        simp only [Option.some.injEq, Prod.mk.injEq] at hl
        obtain ⟨rfl, rfl⟩ := hl
        refine ⟨?_, hb, ?_⟩
        · generalize hg : Round.stop p1 e1 = y at hr
          cases hr with
          | reduce => cases hg
          | shift _ _ _ _ h4 _ => cases hg; exact ⟨_, h4⟩
          | @accept a b h0 e hst =>
            cases hg
            obtain ⟨X, hX⟩ := hc.last
            rw [hst] at hX
            cases hX
            exact ⟨_, .norm (.bottom X)⟩
          | @error s q' evs' b hs hon =>
            cases b
            · cases hg
              cases onError_onErr hon with
              | none => exact ⟨_, .norm hs⟩
              | plain => exact ⟨_, .norm hs⟩
              | last => exact ⟨_, hc.popAll⟩
              | drop hE' => rw [hTE] at hE'; cases hE'
              | fail hE' => rw [hTE] at hE'; cases hE'
            · cases hg
          | overflow e => cases hg; rw [e]; exact ⟨_, hc.popAll⟩
        · intro h0 hrec hz hm
          generalize hg : Round.stop p1 e1 = y at hr
          cases hr with
          | reduce => cases hg
          | @shift t' Y _ k1 k2 k3 k4 _ _ =>
            exfalso
            obtain ⟨s', q', k4⟩ := k4
            obtain ⟨r, k5, k6⟩ := trans_occurs u h k4
            have ht' : t' = 0 := by
              subst h0
              cases k1 with
              | self => rfl
              | fallback k _ => have := (hfb _ _ k).1; omega
              | wildcard _ k => exact absurd rfl k
            subst ht'
            unfold Gram.shiftSyms at k3
            split_ifs at k3 with hmt
            · unfold Gram.subsym at k3
              rw [List.getD_eq_getElem?_getD] at k3
              cases hl : g.mts[Y - g.nterm]? with
              | none => rw [hl] at k3; simp at k3
              | some l =>
                rw [hl, Option.getD_some] at k3
                exact hm l (List.mem_of_getElem? hl) k3
            · have := List.mem_singleton.mp k3
              subst this
              exact hz r k5 k6
          | accept => cases hg; exact ⟨rfl, [], .accept, rfl, .inl rfl, fun _ => rfl⟩
          | @error s q' evs' b hs hon =>
            cases b
            · cases hg
              cases onError_onErr hon with
              | none _ hr => rw [hrec] at hr; cases hr
              | plain _ _ hr => exact absurd h0 hr
              | last =>
                exact ⟨popAll_length (List.length_pos_of_ne_nil hc.ne_nil), (if p.errcnt ≤ 0 then [.syntaxError t] else []) ++ .discard t :: (popAll p.stack).2,
                  .failed, by simp, .inr (.inl rfl), fun _ => rfl⟩
              | drop hE' => rw [hTE] at hE'; cases hE'
              | fail hE' => rw [hTE] at hE'; cases hE'
            · cases hg
          | overflow e =>
            cases hg
            rw [e]
            exact ⟨popAll_length (List.length_pos_of_ne_nil hc.ne_nil), _, .overflow, rfl, .inr (.inr rfl), fun k => absurd rfl k⟩
      | next eh1 p1 e1 =>
        simp only at hl
        obtain ⟨⟨q', e2⟩, h1, h2⟩ := Option.map_eq_some_iff.mp hl
        simp only [Prod.mk.injEq] at h2
        obtain ⟨rfl, rfl⟩ := h2
        have : ∃ γ', Conf g m cs (nxstate cs (resortStates g cs)) (t = 0) p1.stack γ' := by
          generalize hg : Round.next eh1 p1 e1 = y at hr
          cases hr with
          | reduce _ _ _ h4 _ => cases hg; exact ⟨_, h4⟩
          | @error s q' evs' b hs hon =>
            cases b
            · cases hg
            · cases hg
              cases onError_onErr hon with
              | shift hE' => rw [hTE] at hE'; cases hE'
          | shift => cases hg
          | accept => cases hg
          | overflow => cases hg
        obtain ⟨γ', hc'⟩ := this
        obtain ⟨k1, k2, k3⟩ := ih eh1 p1 q' γ' e2 hc' h1
        refine ⟨k1, k2.trans hb, fun a b d e => ?_⟩
        obtain ⟨j1, es, e', rfl, j2⟩ := k3 a b d e
        exact ⟨j1, e1 ++ es, e', by rw [List.append_assoc], j2⟩

theorem tokens_any (hfb : FallbackOK g fb) (hlen : ∀ r ∈ g.rules, r.rhs.length < 256) (hE : g.errsym = none) {fuel : Nat} :
    ∀ (ts : List Nat) (p q : PState) (γ : List Nat) (evs : List Ev), (∀ t ∈ ts, t < g.nterm) →
    Conf g m cs (nxstate cs (resortStates g cs)) False p.stack γ → parseTokens T c fuel ts p = some (q, evs) →
    (∃ γ', Conf g m cs (nxstate cs (resortStates g cs)) False q.stack γ') ∧ q.stack.getLast? = p.stack.getLast? := by
  intro ts
  induction ts with
  | nil =>
    intro p q γ evs _ hc hl
    rw [parseTokens] at hl
    cases hl
    exact ⟨⟨γ, hc⟩, rfl⟩
  | cons t ts ih =>
    intro p q γ evs hts hc hl
    rw [parseTokens] at hl
    obtain ⟨⟨p1, e1⟩, h1, h2⟩ := Option.bind_eq_some_iff.mp hl
    obtain ⟨⟨q', e2⟩, h3, h4⟩ := Option.map_eq_some_iff.mp h2
    simp only [Prod.mk.injEq] at h4
    obtain ⟨rfl, rfl⟩ := h4
    obtain ⟨⟨γ', k1⟩, k2, _⟩ := loop_any u h hfb hlen hE (hts t List.mem_cons_self) fuel false p p1 γ e1 (hc.mono (fun h => h.elim)) h1
    obtain ⟨j1, j2⟩ := ih p1 q' γ' e2 (fun t ht => hts t (List.mem_cons_of_mem _ ht)) k1 h3
    exact ⟨j1, j2.trans k2⟩

end
end Verif.Lemon
