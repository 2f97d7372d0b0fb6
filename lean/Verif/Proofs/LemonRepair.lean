import Verif.Proofs.LemonEnd
import Verif.Spec.LemonRepair
import Verif.Proofs.Grammar
/-
Error recovery.
-/
set_option autoImplicit false
namespace Verif.Lemon
open Verif.Spec

variable {g : Gram} {fb : Nat → Option Nat} {compress : Bool} {m : Mach} {F : List TSet} {A : Acts} {cs : List CState} {T : Tables} {c : PConf}

/-! ### popping -/

theorem popToError_drop {E : Nat} : ∀ (st : List (Nat × Nat)) (a : Nat) (st' : List (Nat × Nat)) (act : Nat) (pops : List Ev),
    popToError T E st a = some (st', act, pops) → ∃ j, j < st.length ∧ st' = st.drop j ∧ pops = (st.take j).map (fun e => Ev.pop e.2) ∧
      (∀ i e, i < j → st[i]? = some e → ∃ n, T.findReduce e.1 E = some n ∧ T.minShiftReduce + T.nrule ≤ n) ∧
      (j + 1 = st.length ∨ ∃ e, st'.head? = some e ∧ T.findReduce e.1 E = some act ∧ act < T.minShiftReduce + T.nrule) := by
  intro st
  induction st with
  | nil => intro a st' act pops h; cases h
  | cons e st ih =>
    intro a st' act pops h
    cases st with
    | nil =>
      simp only [popToError, Option.some.injEq, Prod.mk.injEq] at h
      obtain ⟨rfl, rfl, rfl⟩ := h
      exact ⟨0, by simp, by simp, by simp, by simp, .inl rfl⟩
    | cons e' st =>
      rw [popToError] at h
      · split at h
        · cases h
        · rename_i act0 hact0
          split_ifs at h with h1
          · simp only [Option.some.injEq, Prod.mk.injEq] at h
            obtain ⟨rfl, rfl, rfl⟩ := h
            exact ⟨0, by simp, by simp, by simp, by simp, .inr ⟨e, rfl, hact0, h1⟩⟩
          · obtain ⟨⟨s1, a1, p1⟩, h2, h3⟩ := Option.map_eq_some_iff.mp h
            simp only [Prod.mk.injEq] at h3
            obtain ⟨rfl, rfl, rfl⟩ := h3
            obtain ⟨j, k1, k2, k3, k4, k5⟩ := ih _ _ _ _ h2
            refine ⟨j + 1, by simpa using k1, by simpa using k2, by simp [k3], ?_, ?_⟩
            · intro i e0 hi he
              cases i with
              | zero => simp at he; subst he; exact ⟨act0, hact0, by omega⟩
              | succ i => exact k4 i e0 (by omega) (by simpa using he)
            · rcases k5 with k5 | k5
              · exact .inl (by simpa using k5)
              · exact .inr k5
      · simp

/-! ### what is kept -/

def keepFrom (T : Tables) (k : List (List Nat)) (evs : List Ev) : List (List Nat) := evs.foldl (keepStep T) k

theorem keepFrom_append {k : List (List Nat)} {a b : List Ev} : keepFrom T k (a ++ b) = keepFrom T (keepFrom T k a) b := List.foldl_append

theorem keepFrom_pops : ∀ (st : List (Nat × Nat)) (k : List (List Nat)), keepFrom T k (st.map fun e => Ev.pop e.2) = k.drop st.length := by
  intro st
  induction st with
  | nil => intro k; rfl
  | cons e st ih =>
    intro k
    show keepFrom T k.tail _ = _
    rw [ih, List.length_cons, List.drop_tail]

theorem keepFrom_syn {k : List (List Nat)} {t : Nat} {P : Prop} [Decidable P] : keepFrom T k (if P then [.syntaxError t] else []) = k := by
  split_ifs <;> rfl

/-- a symbol of the grammar and what it was made of -/
def Made (g : Gram) (fb : Nat → Option Nat) (w : List Nat) (Y : Nat) : Prop := ∃ ys, g.cfg.Derives [Y] ys ∧ List.Forall₂ (Stands g fb) w ys

theorem made_flatten {k : List (List Nat)} {α : List Nat} (h : List.Forall₂ (Made g fb) k α) :
    ∃ ys, g.cfg.Derives α ys ∧ List.Forall₂ (Stands g fb) k.flatten ys := by
  induction h with
  | nil => exact ⟨[], .refl, .nil⟩
  | @cons w Y k α h _ ih =>
    obtain ⟨ys, h1, h2⟩ := h
    obtain ⟨zs, h3, h4⟩ := ih
    exact ⟨ys ++ zs, Derives.append h1 h3, by simpa using List.rel_append h2 h4⟩

theorem chain_derives {X X' : Nat} {us : List Nat} (h : Chain g compress X us X') : g.cfg.Derives [X'] [X] := by
  induction h with
  | nil => exact .refl
  | @cons X X' r us _ hr _ hX _ ih =>
    refine ih.trans (Derives.rule ?_)
    rw [← hX]
    exact mem_cfg.mpr (.inl ⟨g.rule r, rule_mem hr, rfl, rfl⟩)

/-- the stack and what is kept -/
def KeepsOK (g : Gram) (fb : Nat → Option Nat) (m : Mach) (cs : List CState) (nx : Nat) (fin : Prop) (st : List (Nat × Nat)) (k : List (List Nat)) : Prop :=
  ∃ γ, Conf g m cs nx fin st γ ∧ List.Forall₂ (Made g fb) k γ.reverse

theorem KeepsOK.mono {nx : Nat} {fin fin' : Prop} (hf : fin → fin') {st : List (Nat × Nat)} {k : List (List Nat)} (h : KeepsOK g fb m cs nx fin st k) :
    KeepsOK g fb m cs nx fin' st k := by
  obtain ⟨γ, h1, h2⟩ := h
  exact ⟨γ, h1.mono hf, h2⟩

theorem KeepsOK.popAll {nx : Nat} {fin fin' : Prop} {st : List (Nat × Nat)} {k : List (List Nat)} (h : KeepsOK g fb m cs nx fin st k) :
    KeepsOK g fb m cs nx fin' (popAll st).1 [] := by
  obtain ⟨γ, h1, _⟩ := h
  exact ⟨[], h1.popAll, .nil⟩

section
variable (u : Usable g) (h : Generated g fb compress m F A cs T)
include u h

/-- the action found for the error symbol -/
theorem findErr_sound (hx : ErrExact g m cs T) {E : Nat} (hE : g.errsym = some E) {st : List (Nat × Nat)} {s n : Nat} {γ : List Nat}
    (hs : Sim g m cs (nxstate cs (resortStates g cs)) st s γ) (hn : T.findReduce (numOf g cs s) (g.index E) = some n) :
    (n < T.minShiftReduce + T.nrule → ∃ us X e, Chain g compress E us X ∧ Landed g m cs s X e ∧ n = actNum g cs.length (resortStates g cs) E e) ∧
    (s ≠ 0 → ((∃ q, m.Trans s E q) ↔ n < T.minShiftReduce + T.nrule)) := by
  have hp := h.toPrepared
  have R := h.reported u
  obtain ⟨_, h2, h3⟩ := hs.head u hp
  obtain ⟨c1, c2, c3, c4, c5, c6, c7⟩ := consts u h
  have hb := u.err E hE
  have hnt := on_nt u.wf u.start u.items h.analysed h.small h.actions h2 hb.1 hb.2
  have htr : (∃ q, m.Trans s E q) → ∃ us X e, Chain g compress E us X ∧ Landed g m cs s X e ∧
      n = actNum g cs.length (resortStates g cs) E e := by
    rintro ⟨q, hq⟩
    have hne : A.on s E ≠ [] := by rw [(hnt.1 q).mp hq]; simp
    obtain ⟨e, h4, h5⟩ := ((hp.states u).2 s h2).comp.goto _ hb.1 hb.2 hne
    have hf := findReduce_eq R h3 hb.1 hb.2 (n := actNum g cs.length (resortStates g cs) E e) (by
      rw [stateAt_num u hp h2]
      unfold lastNum
      rw [h4]
      rfl)
    rw [hf] at hn
    obtain ⟨us, X, k1, k2, _⟩ := lands_sound u hp h2 h5 hb.1 hb.2
    exact ⟨us, X, e, k1, k2, (Option.some.inj hn).symm⟩
  have hdef : T.findReduce (numOf g cs s) (g.index E) = some n → n < T.minShiftReduce + T.nrule → ∃ q, m.Trans s E q := by
    intro hn hlt
    refine hx E hE s (by rw [(hp.states u).1]; exact h2) (by rw [c6]; exact h3) ?_
    have hd : ∀ n, T.dflt[numOf g cs s]? = some n → T.minShiftReduce + T.nrule ≤ n := by
      intro n' hn'
      rw [R.dflt _ h3] at hn'
      have hn' := Option.some.inj hn'
      have e1 : errAction g cs = cs.length + g.rules.length := rfl
      have e2 : minReduce g cs = cs.length + g.rules.length + 3 := rfl
      rw [← hn']
      split
      · omega
      · exact Nat.le_trans (by omega) (Nat.le_add_right (minReduce g cs) _)
    have hTE : T.errsym = some (g.index E) := by rw [R.errsym, hE]; rfl
    unfold Tables.findReduce at hn
    rw [hTE] at hn
    simp only at hn
    show T.gotoEntry (numOf g cs s) (g.index E) ≠ none
    unfold Tables.gotoEntry
    split at hn
    · have := hd _ hn; omega
    · rename_i o ho
      rw [ho]
      simp only
      split_ifs at hn with h5
      · have := hd _ hn; omega
      · simp only [Bool.or_eq_true, decide_eq_true_eq, bne_iff_ne, ne_eq, not_or, not_not] at h5
        rw [if_pos ⟨by omega, h5.2⟩, hn]
        simp
  refine ⟨fun hlt => htr (hdef hn hlt), fun hs0 => ⟨fun hq => ?_, hdef hn⟩⟩
  obtain ⟨us, X, e, _, k2, rfl⟩ := htr hq
  cases k2 with
  | accept h0 => exact absurd h0 hs0
  | shift ht ha =>
    have := nx_of_auto (order := resortStates g cs) (cs := cs) (s := _) (by
      rw [(order_perm g cs).mem_iff, List.mem_range, (hp.states u).1]
      exact ((hp.isAuto u).lt _ _ _ ht).2) ha
    show (resortStates g cs).idxOf _ < _
    omega
  | @reduce X q r ht ha =>
    have hr := (item_lt u hp (auto_item u hp ((hp.isAuto u).lt _ _ _ ht).2 ha).1).2
    have := iRule_lt u hr
    unfold actNum
    simp only [hE, or_true, if_true]
    omega

theorem keepFrom_reset {k : List (List Nat)} {evs : List Ev} {e : Ev} (he : e = .failed ∨ e = .overflow ∨ e = .accept) :
    keepFrom T k (evs ++ [e]) = [] := by
  rw [keepFrom_append]
  rcases he with rfl | rfl | rfl <;> rfl

/-- the stack after popping `j` symbols -/
theorem sim_drop {nx : Nat} {st : List (Nat × Nat)} {s : Nat} {γ : List Nat} {k : List (List Nat)} (hs : Sim g m cs nx st s γ)
    (hk : List.Forall₂ (Made g fb) k γ.reverse) {j : Nat} (hj : j < st.length) :
    ∃ s' δ, Sim g m cs nx (st.drop j) s' δ ∧ List.Forall₂ (Made g fb) (k.drop j) δ.reverse := by
  have hl := hs.length
  have hj' : (γ.drop (γ.length - j)).length = j := by rw [List.length_drop]; omega
  obtain ⟨s', h1⟩ := hs.split (γ.take (γ.length - j)) (γ.drop (γ.length - j)) (List.take_append_drop _ _).symm
  rw [hj'] at h1
  refine ⟨s', _, h1, ?_⟩
  have := List.forall₂_drop j hk
  rwa [List.drop_reverse] at this

theorem keeps_onErr (hx : ErrExact g m cs T) {t s : Nat} {eh b : Bool} {p q : PState} {γ : List Nat} {k : List (List Nat)} {evs : List Ev} {fin : Prop}
    (hs : Sim g m cs (nxstate cs (resortStates g cs)) p.stack s γ) (hk : List.Forall₂ (Made g fb) k γ.reverse) (ho : OnErr T c t eh p q evs b) :
    KeepsOK g fb m cs (nxstate cs (resortStates g cs)) fin q.stack (keepFrom T k evs) ∧ .accept ∉ evs := by
  have hp := h.toPrepared
  have hkeep : KeepsOK g fb m cs (nxstate cs (resortStates g cs)) fin p.stack k := ⟨γ, .norm hs, hk⟩
  have hsyn : ∀ (P : Prop) [Decidable P], Ev.accept ∉ (if P then [Ev.syntaxError t] else []) := by
    intro P _; split_ifs <;> simp
  have hpop : ∀ l : List (Nat × Nat), Ev.accept ∉ l.map (fun e => Ev.pop e.2) := by
    intro l hc
    obtain ⟨_, _, hc⟩ := List.mem_map.mp hc
    cases hc
  cases ho with
  | none => exact ⟨hkeep, by simp⟩
  | plain => rw [keepFrom_append, keepFrom_syn]; exact ⟨hkeep, by simp [hsyn]⟩
  | last hE hr h0 =>
    refine ⟨?_, ?_⟩
    · rw [show (if p.errcnt ≤ 0 then [Ev.syntaxError t] else []) ++ .discard t :: ((popAll p.stack).2 ++ [.failed]) =
        ((if p.errcnt ≤ 0 then [Ev.syntaxError t] else []) ++ .discard t :: (popAll p.stack).2) ++ [.failed] by simp, keepFrom_reset u h (.inl rfl)]
      exact hkeep.popAll
    · simp only [List.mem_append, List.mem_cons, hsyn, false_or, not_or]
      exact ⟨by simp, hpop _, by simp⟩
  | drop => rw [keepFrom_append, keepFrom_syn]; exact ⟨hkeep, by simp [hsyn]⟩
  | @fail E top st act pops hE htop h1 hpp hf =>
    obtain ⟨j, k1, k2, k3, k4, k5⟩ := popToError_drop _ _ _ _ _ hpp
    refine ⟨?_, ?_⟩
    · rw [show (if p.errcnt < 0 then [Ev.syntaxError t] else []) ++ pops ++ .discard t :: ((popAll st).2 ++ [.failed]) =
        ((if p.errcnt < 0 then [Ev.syntaxError t] else []) ++ pops ++ .discard t :: (popAll st).2) ++ [.failed] by simp, keepFrom_reset u h (.inl rfl)]
      obtain ⟨s', δ, j1, _⟩ := sim_drop u h hs hk k1
      rw [← k2] at j1
      exact ⟨[], (Conf.norm j1).popAll (fin := fin), .nil⟩
    · rw [k3]
      simp only [List.mem_append, List.mem_cons, hsyn, false_or, not_or]
      exact ⟨hpop _, by simp, hpop _, by simp⟩
  | @shift E top st act pops q' evs' hE htop h1 hpp hf hsh =>
    obtain ⟨j, k1, k2, k3, k4, k5⟩ := popToError_drop _ _ _ _ _ hpp
    obtain ⟨s', δ, j1, j2⟩ := sim_drop u h hs hk k1
    rw [← k2] at j1
    obtain ⟨e0, e1, e2, e3⟩ : ∃ e, st.head? = some e ∧ T.findReduce e.1 E = some act ∧ act < T.minShiftReduce + T.nrule := by
      rcases k5 with k5 | k5
      · exfalso
        have := hf.1
        rw [k2, List.length_drop] at this
        omega
      · exact k5
    obtain ⟨⟨X0, hX0⟩, h2, h3⟩ := j1.head u hp
    rw [hX0] at e1
    cases e1
    obtain ⟨E0, hE0, rfl⟩ : ∃ E0, g.errsym = some E0 ∧ g.index E0 = E := by
      rw [(h.reported u).errsym] at hE
      exact Option.map_eq_some_iff.mp hE
    obtain ⟨us, X, e, f1, f2, f3⟩ := (findErr_sound u h hx hE0 j1 e2).1 e3
    obtain ⟨c1, c2, c3, c4, c5, c6, c7⟩ := consts u h
    have hkeep1 : keepFrom T k ((if p.errcnt < 0 then [Ev.syntaxError t] else []) ++ pops ++ evs') = keepFrom T (k.drop j) evs' := by
      rw [keepFrom_append, keepFrom_append, keepFrom_syn, k3, keepFrom_pops, List.length_take, Nat.min_eq_left (by omega)]
    rw [hkeep1]
    unfold yyShift at hsh
    simp only at hsh
    obtain ⟨p1, t1, t2⟩ := Option.map_eq_some_iff.mp hsh
    obtain ⟨t3, t4, _⟩ := track_spec t1
    simp only at t3
    have hacc : Ev.accept ∉ (if p.errcnt < 0 then [Ev.syntaxError t] else []) ++ pops := by
      rw [k3]
      simp only [List.mem_append, hsyn, false_or]
      exact hpop _
    by_cases hov : (c.depth.any fun d => decide (st.length > d - 1)) = true
    · rw [if_pos hov] at t2
      cases t2
      simp only [stackOverflow]
      rw [keepFrom_reset u h (.inr (.inl rfl)), t3]
      refine ⟨⟨[], (Conf.norm j1).popAll (fin := fin), .nil⟩, ?_⟩
      rw [List.mem_append, not_or]
      refine ⟨hacc, ?_⟩
      rw [List.mem_append, not_or]
      exact ⟨hpop _, by simp⟩
    · rw [if_neg hov] at t2
      simp only [Prod.mk.injEq] at t2
      obtain ⟨rfl, rfl⟩ := t2
      refine ⟨?_, by rw [List.mem_append, not_or]; exact ⟨hacc, by simp⟩⟩
      have hmade : List.Forall₂ (Made g fb) (keepFrom T (k.drop j) [.shift (g.index E0)]) (δ ++ [X]).reverse := by
        rw [List.reverse_append]
        refine .cons ⟨[E0], chain_derives f1, .cons (.inr ⟨E0, hE0, rfl, rfl⟩) .nil⟩ j2
      refine ⟨δ ++ [X], ?_, hmade⟩
      simp only [t3]
      cases f2 with
      | accept =>
        exfalso
        have : act = cs.length + g.rules.length + 1 := f3
        omega
      | @shift X q ht ha =>
        have hq : numOf g cs q < nxstate cs (resortStates g cs) := by
          refine nx_of_auto ?_ ha
          rw [(order_perm g cs).mem_iff, List.mem_range, (hp.states u).1]
          exact ((hp.isAuto u).lt _ _ _ ht).2
        have hq' : act = numOf g cs q := f3
        rw [if_neg (by omega), hq']
        exact .norm (.push _ j1 ht hq)
      | @reduce X q r ht ha =>
        have hr := (item_lt u hp (auto_item u hp ((hp.isAuto u).lt _ _ _ ht).2 ha).1).2
        have := iRule_lt u hr
        have hq' : act = cs.length + g.iRule r := by rw [f3]; unfold actNum; simp only [hE0, or_true, if_true]
        rw [if_pos (by omega), show act + (T.minReduce - T.minShiftReduce) = cs.length + g.rules.length + 3 + g.iRule r by omega]
        exact .pend _ j1 ht ha

/-- one token -/
theorem keeps_loop (hfb : FallbackOK g fb) (hlen : ∀ r ∈ g.rules, r.rhs.length < 256) (hx : ErrExact g m cs T) {t : Nat} (ht : t < g.nterm) :
    ∀ (fuel : Nat) (eh : Bool) (p q : PState) (k : List (List Nat)) (evs : List Ev),
    KeepsOK g fb m cs (nxstate cs (resortStates g cs)) (t = 0) p.stack k → parseLoop T c t fuel eh p = some (q, evs) →
    KeepsOK g fb m cs (nxstate cs (resortStates g cs)) False q.stack (keepFrom T k evs) ∧
      ∀ a b, evs = a ++ .accept :: b → ∃ w, keepFrom T k a = [w] ∧ Made g fb w g.start := by
  intro fuel
  induction fuel with
  | zero => intro eh p q k evs _ hl; cases hl
  | succ fuel ih =>
    intro eh p q k evs hkp hl
    obtain ⟨γ, hc, hk⟩ := hkp
    rw [parseLoop] at hl
    have hno : ∀ {evs : List Ev}, .accept ∉ evs → ∀ a b, evs = a ++ .accept :: b → ∃ w, keepFrom T k a = [w] ∧ Made g fb w g.start := by
      intro evs hn a b e
      exact absurd (by rw [e]; simp) hn
    cases hx' : parseRound T c t (fuel + 1) eh p with
    | none => rw [hx'] at hl; cases hl
    | some x =>
      have hr := round_any u h hfb hlen ht hc hx'
      rw [hx'] at hl
      cases x with
      | stop p1 e1 =>
        simp only [Option.some.injEq, Prod.mk.injEq] at hl
        obtain ⟨rfl, rfl⟩ := hl
        generalize hg : Round.stop p1 e1 = y at hr
        cases hr with
        | reduce => cases hg
        | @shift t' Y _ h1 h2 h3 _ h4 _ =>
          cases hg
          refine ⟨⟨_, h4, ?_⟩, hno (by simp)⟩
          rw [List.reverse_append]
          refine .cons ⟨[t'], ?_, .cons (.inl ⟨ht, h1⟩) .nil⟩ hk
          obtain ⟨h5, h6⟩ := shiftSyms_members h2 h3
          unfold Gram.members at h5
          split_ifs at h5 with h0
          · rw [List.mem_singleton.mp h5]
            exact .refl
          · have hm : g.isMT Y = true := by unfold Gram.isMT; simp; omega
            obtain ⟨i, k1, k2, k3⟩ := (mem_cfg_MT Y t').mpr ⟨hm, h5⟩
            exact Derives.rule (mem_cfg.mpr (.inr ⟨i, t', k1, k2, k3, rfl⟩))
        | @accept a b h0 e hst =>
          cases hg
          obtain ⟨X, hX⟩ := hc.last
          rw [hst] at hX
          cases hX
          refine ⟨⟨[], .norm (.bottom X), .nil⟩, ?_⟩
          intro a b hab
          cases a with
          | nil =>
            subst e
            cases hk with
            | cons h1 h2 => cases h2; exact ⟨_, rfl, h1⟩
          | cons _ a =>
            simp at hab
        | @error s q' evs' b hs hon =>
          cases b
          · cases hg
            obtain ⟨k1, k2⟩ := keeps_onErr u h (fin := False) hx hs hk (onError_onErr hon)
            exact ⟨k1, hno k2⟩
          · cases hg
        | overflow e =>
          cases hg
          rw [e, keepFrom_reset u h (.inr (.inl rfl))]
          refine ⟨⟨[], hc.popAll, .nil⟩, hno ?_⟩
          rw [List.mem_append, not_or]
          refine ⟨?_, by simp⟩
          intro hc
          obtain ⟨X, hX⟩ := popAll_evs _ hc
          cases hX
      | next eh1 p1 e1 =>
        simp only at hl
        obtain ⟨⟨q', e2⟩, h1, h2⟩ := Option.map_eq_some_iff.mp hl
        simp only [Prod.mk.injEq] at h2
        obtain ⟨rfl, rfl⟩ := h2
        have : KeepsOK g fb m cs (nxstate cs (resortStates g cs)) (t = 0) p1.stack (keepFrom T k e1) ∧ .accept ∉ e1 := by
          generalize hg : Round.next eh1 p1 e1 = y at hr
          cases hr with
          | @reduce r X us δ _ hr e hch h4 _ =>
            cases hg
            subst e
            refine ⟨⟨_, h4, ?_⟩, by simp⟩
            have hn : T.ruleNRhs.getD (g.iRule r) 0 = (g.rule r).rhs.length := by
              rw [(h.reported u).ruleNRhs, List.getD_eq_getElem?_getD, List.getElem?_map, ruleList_at u hr]
              rfl
            rw [List.reverse_append] at hk ⊢
            have hk1 := List.forall₂_take (g.rule r).rhs.length hk
            have hk2 := List.forall₂_drop (g.rule r).rhs.length hk
            rw [List.take_left' (by simp)] at hk1
            rw [List.drop_left' (by simp)] at hk2
            show List.Forall₂ _ ((k.take (T.ruleNRhs.getD (g.iRule r) 0)).reverse.flatten :: k.drop (T.ruleNRhs.getD (g.iRule r) 0)) _
            rw [hn]
            refine .cons ?_ hk2
            have hk3 := List.rel_reverse hk1
            rw [List.reverse_reverse] at hk3
            obtain ⟨ys, m1, m2⟩ := made_flatten hk3
            refine ⟨ys, (chain_derives hch).trans (.trans (Derives.rule ?_) m1), m2⟩
            exact mem_cfg.mpr (.inl ⟨g.rule r, rule_mem hr, rfl, rfl⟩)
          | @error s q' evs' b hs hon =>
            cases b
            · cases hg
            · cases hg
              exact keeps_onErr u h hx hs hk (onError_onErr hon)
          | shift => cases hg
          | accept => cases hg
          | overflow => cases hg
        obtain ⟨k1, k2⟩ := this
        obtain ⟨k3, k4⟩ := ih eh1 p1 q' _ e2 k1 h1
        rw [keepFrom_append]
        refine ⟨k3, ?_⟩
        intro a b hab
        rcases List.append_eq_append_iff.mp hab with ⟨a', ha, hb⟩ | ⟨c', ha, hb⟩
        · obtain ⟨w, w1, w2⟩ := k4 a' b hb
          refine ⟨w, ?_, w2⟩
          rw [ha, keepFrom_append, w1]
        · cases c' with
          | nil =>
            simp only [List.nil_append] at hb
            obtain ⟨w, w1, w2⟩ := k4 [] b hb.symm
            refine ⟨w, ?_, w2⟩
            rw [ha] at w1
            simpa [keepFrom] using w1
          | cons x c' =>
            simp only [List.cons_append, List.cons.injEq] at hb
            exact absurd (by rw [ha, ← hb.1]; simp) k2

theorem keeps_tokens (hfb : FallbackOK g fb) (hlen : ∀ r ∈ g.rules, r.rhs.length < 256) (hx : ErrExact g m cs T) {fuel : Nat} :
    ∀ (ts : List Nat) (p q : PState) (k : List (List Nat)) (evs : List Ev), (∀ t ∈ ts, t < g.nterm) →
    KeepsOK g fb m cs (nxstate cs (resortStates g cs)) False p.stack k → parseTokens T c fuel ts p = some (q, evs) →
    KeepsOK g fb m cs (nxstate cs (resortStates g cs)) False q.stack (keepFrom T k evs) ∧
      ∀ a b, evs = a ++ .accept :: b → ∃ w, keepFrom T k a = [w] ∧ Made g fb w g.start := by
  intro ts
  induction ts with
  | nil =>
    intro p q k evs _ hc hl
    rw [parseTokens] at hl
    cases hl
    exact ⟨hc, fun a b e => by simp at e⟩
  | cons t ts ih =>
    intro p q k evs hts hc hl
    rw [parseTokens] at hl
    obtain ⟨⟨p1, e1⟩, h1, h2⟩ := Option.bind_eq_some_iff.mp hl
    obtain ⟨⟨q', e2⟩, h3, h4⟩ := Option.map_eq_some_iff.mp h2
    simp only [Prod.mk.injEq] at h4
    obtain ⟨rfl, rfl⟩ := h4
    obtain ⟨k1, k2⟩ := keeps_loop u h hfb hlen hx (hts t List.mem_cons_self) fuel false p p1 k e1 (hc.mono (fun h => h.elim)) h1
    obtain ⟨j1, j2⟩ := ih p1 q' _ e2 (fun t ht => hts t (List.mem_cons_of_mem _ ht)) k1 h3
    rw [keepFrom_append]
    refine ⟨j1, ?_⟩
    intro a b hab
    rcases List.append_eq_append_iff.mp hab with ⟨a', ha, hb⟩ | ⟨c', ha, hb⟩
    · obtain ⟨w, w1, w2⟩ := j2 a' b hb
      exact ⟨w, by rw [ha, keepFrom_append, w1], w2⟩
    · cases c' with
      | nil =>
        simp only [List.nil_append] at hb
        obtain ⟨w, w1, w2⟩ := j2 [] b hb.symm
        rw [ha] at w1
        exact ⟨w, by simpa [keepFrom] using w1, w2⟩
      | cons x c' =>
        simp only [List.cons_append, List.cons.injEq] at hb
        exact k2 a c' (by rw [ha, ← hb.1])

/-- no transition leads to the first state -/
theorem trans_ne_zero {s X q : Nat} (ht : m.Trans s X q) : q ≠ 0 := by
  rintro rfl
  have ha := h.toPrepared.isAuto u
  obtain ⟨_, r, d, h1, h2⟩ := (ha.ex s X (ha.lt _ _ _ ht).1).mp ⟨_, ht⟩
  have h3 := (ha.tgt s X 0 ht r (d + 1)).mpr (.kern ⟨d, rfl, h1, h2⟩)
  have h4 := (ha.item0 r (d + 1)).mp h3
  generalize hd : d + 1 = d' at h4
  cases h4 with
  | kern hk => omega
  | step => omega

theorem keeps_visits (hfb : FallbackOK g fb) (hlen : ∀ r ∈ g.rules, r.rhs.length < 256) (hx : ErrExact g m cs T) {t : Nat} {eh : Bool} {p : PState}
    (hv : Visits T c g.nterm t eh p) : t < g.nterm ∧ ∃ k, KeepsOK g fb m cs (nxstate cs (resortStates g cs)) (t = 0) p.stack k := by
  -- one round as a loop that ends
  have key : ∀ {t fuel : Nat} {eh : Bool} {p : PState} {x : Round}, t < g.nterm →
      (∃ k, KeepsOK g fb m cs (nxstate cs (resortStates g cs)) (t = 0) p.stack k) → parseRound T c t fuel eh p = some x →
      ∃ k, match x with
        | .next _ p' _ => KeepsOK g fb m cs (nxstate cs (resortStates g cs)) (t = 0) p'.stack k
        | .stop p' _ => KeepsOK g fb m cs (nxstate cs (resortStates g cs)) False p'.stack k := by
    intro t fuel eh p x ht hk hr
    obtain ⟨k, γ, hc, hk⟩ := hk
    cases round_any u h hfb hlen ht hc hr with
    | @reduce r X us δ p' hr' e hch h4 _ =>
      subst e
      have : ∃ w, List.Forall₂ (Made g fb) w ([X] ++ δ.reverse) := by
        rw [List.reverse_append] at hk
        have hk1 := List.forall₂_take (g.rule r).rhs.length hk
        have hk2 := List.forall₂_drop (g.rule r).rhs.length hk
        rw [List.take_left' (by simp)] at hk1
        rw [List.drop_left' (by simp)] at hk2
        have hk3 := List.rel_reverse hk1
        rw [List.reverse_reverse] at hk3
        obtain ⟨ys, m1, m2⟩ := made_flatten hk3
        refine ⟨_, .cons ⟨ys, (chain_derives hch).trans (.trans (Derives.rule ?_) m1), m2⟩ hk2⟩
        exact mem_cfg.mpr (.inl ⟨g.rule r, rule_mem hr', rfl, rfl⟩)
      obtain ⟨w, hw⟩ := this
      exact ⟨w, _, h4, by rw [List.reverse_append]; exact hw⟩
    | @shift t' Y p' h1 h2 h3 _ h4 _ =>
      have : ∃ k', List.Forall₂ (Made g fb) k' (γ ++ [Y]).reverse := by
        refine ⟨[t] :: k, ?_⟩
        rw [List.reverse_append]
        refine .cons ⟨[t'], ?_, .cons (.inl ⟨ht, h1⟩) .nil⟩ hk
        obtain ⟨h5, h6⟩ := shiftSyms_members h2 h3
        unfold Gram.members at h5
        split_ifs at h5 with h0
        · rw [List.mem_singleton.mp h5]
          exact .refl
        · have hm : g.isMT Y = true := by unfold Gram.isMT; simp; omega
          obtain ⟨i, k1, k2, k3⟩ := (mem_cfg_MT Y t').mpr ⟨hm, h5⟩
          exact Derives.rule (mem_cfg.mpr (.inr ⟨i, t', k1, k2, k3, rfl⟩))
      obtain ⟨k', hk'⟩ := this
      exact ⟨k', _, h4, hk'⟩
    | @accept a b h0 e hst =>
      obtain ⟨X, hX⟩ := hc.last
      rw [hst] at hX
      cases hX
      exact ⟨[], [], .norm (.bottom X), .nil⟩
    | @error s q' evs' b hs hon =>
      cases b with
      | false => exact ⟨_, (keeps_onErr u h (fin := False) hx hs hk (onError_onErr hon)).1⟩
      | true => exact ⟨_, (keeps_onErr u h (fin := t = 0) hx hs hk (onError_onErr hon)).1⟩
    | overflow e =>
      refine ⟨[], [], ?_, .nil⟩
      rw [e]
      exact hc.popAll
  induction hv with
  | first ht => exact ⟨ht, [], [], .norm (.bottom 0), .nil⟩
  | next _ hr ih => exact ⟨ih.1, key ih.1 ih.2 hr⟩
  | token _ hr ht ih =>
    obtain ⟨k, hk⟩ := key ih.1 ih.2 hr
    exact ⟨ht, k, hk.mono (fun h => h.elim)⟩

end

/-! ### tokens kept are tokens given -/

theorem pushed_append {a b : List Ev} : pushed (a ++ b) = pushed a ++ pushed b := by
  unfold pushed
  rw [List.filterMap_append]

theorem keepFrom_sublist : ∀ (evs : List Ev) (k : List (List Nat)), (keepFrom T k evs).reverse.flatten.Sublist (k.reverse.flatten ++ pushed evs) := by
  intro evs
  induction evs with
  | nil => intro k; simp [keepFrom, pushed]
  | cons e evs ih =>
    intro k
    have h1 := ih (keepStep T k e)
    refine h1.trans ?_
    have hz : ∀ s : List Nat, ([] : List (List Nat)).reverse.flatten ++ s = s := by simp
    cases e with
    | shift X => simp [keepStep, pushed]
    | reduce r =>
      have : (keepStep T k (.reduce r)).reverse.flatten = k.reverse.flatten := by
        show ((k.take (T.ruleNRhs.getD r 0)).reverse.flatten :: k.drop (T.ruleNRhs.getD r 0)).reverse.flatten = _
        generalize T.ruleNRhs.getD r 0 = n
        conv_rhs => rw [← List.take_append_drop n k, List.reverse_append, List.flatten_append]
        simp
      rw [this]
      exact List.Sublist.refl _
    | pop X =>
      refine List.Sublist.append ?_ (List.Sublist.refl _)
      cases k with
      | nil => simp [keepStep]
      | cons w k => simp [keepStep]
    | failed => simp only [keepStep, hz]; exact List.sublist_append_right _ _
    | overflow => simp only [keepStep, hz]; exact List.sublist_append_right _ _
    | accept => simp only [keepStep, hz]; exact List.sublist_append_right _ _
    | syntaxError t => exact List.Sublist.refl _
    | discard t => exact List.Sublist.refl _

theorem pushed_pops {a : List Ev} (h : ∀ e ∈ a, ∃ X, e = .pop X) : pushed a = [] := by
  unfold pushed
  rw [List.filterMap_eq_nil_iff]
  intro e he
  obtain ⟨X, rfl⟩ := h e he
  rfl

theorem pushed_shift {new X : Nat} {p q : PState} {evs : List Ev} (h : yyShift T c new X p = some (q, evs)) : pushed evs = [] ∨ pushed evs = [X] := by
  obtain ⟨p1, _, ⟨_, h2⟩ | ⟨_, rfl, _⟩⟩ := yyShift_cases h
  · simp only [stackOverflow, Prod.mk.injEq] at h2
    rw [h2.2, pushed_append, pushed_pops popAll_evs]
    exact .inl rfl
  · exact .inr rfl

theorem pushed_syn {t : Nat} {P : Prop} [Decidable P] : pushed (if P then [.syntaxError t] else []) = [] := by
  split_ifs <;> rfl

theorem pushed_onErr {t : Nat} {eh b : Bool} {p q : PState} {evs : List Ev} (h : OnErr T c t eh p q evs b) :
    ∀ X ∈ pushed evs, T.errsym = some X := by
  have hd : ∀ l : List Ev, pushed (.discard t :: l) = pushed l := fun l => rfl
  have hf : pushed [.failed] = [] := rfl
  cases h with
  | none => intro X hX; cases hX
  | plain => intro X hX; rw [pushed_append, pushed_syn] at hX; cases hX
  | last => intro X hX; rw [pushed_append, pushed_syn, hd, pushed_append, pushed_pops popAll_evs, hf] at hX; cases hX
  | drop => intro X hX; rw [pushed_append, pushed_syn] at hX; cases hX
  | fail hE htop h hp hf' =>
    intro X hX
    rw [pushed_append, pushed_append, pushed_syn, pushed_pops (popToError_spec _ _ _ _ _ hp).2.2, hd, pushed_append, pushed_pops popAll_evs, hf] at hX
    cases hX
  | shift hE htop h hp hf' hs =>
    intro X hX
    rw [pushed_append, pushed_append, pushed_syn, pushed_pops (popToError_spec _ _ _ _ _ hp).2.2] at hX
    rcases pushed_shift hs with e | e <;> rw [e] at hX
    · cases hX
    · have := List.mem_singleton.mp hX
      subst this
      exact hE

theorem pushed_loop {t n : Nat} (hE : ∀ X, T.errsym = some X → n ≤ X) : ∀ (fuel : Nat) (eh : Bool) (p q : PState) (evs : List Ev),
    parseLoop T c t fuel eh p = some (q, evs) → ((pushed evs).filter (decide <| · < n)).Sublist [t] := by
  have hnil : ∀ {l : List Nat}, (∀ X ∈ l, T.errsym = some X) → l.filter (decide <| · < n) = [] := by
    intro l hl
    rw [List.filter_eq_nil_iff]
    intro X hX hc
    have := hE X (hl X hX)
    simp at hc
    omega
  intro fuel
  induction fuel with
  | zero => intro eh p q evs hl; cases hl
  | succ fuel ih =>
    intro eh p q evs hl
    rw [parseLoop] at hl
    cases hx : parseRound T c t (fuel + 1) eh p with
    | none => rw [hx] at hl; cases hl
    | some x =>
      rw [hx] at hl
      have hev : (∃ p evs, x = .stop p evs ∧ ((pushed evs).filter (decide <| · < n)).Sublist [t]) ∨
          ∃ eh p evs, x = .next eh p evs ∧ (pushed evs).filter (decide <| · < n) = [] := by
        rcases round_cases hx with ⟨r, p1, q, _, h1, _, h2, rfl⟩ | ⟨r, p1, _, h1, _, rfl⟩ | ⟨r, q, _, h2, rfl⟩ | ⟨act, q, evs, h2, rfl⟩ |
          ⟨a, b, hst, rfl⟩ | ⟨q, evs, b, h2, rfl⟩
        · exact .inr ⟨_, _, _, rfl, rfl⟩
        · refine .inl ⟨_, _, rfl, ?_⟩
          simp only [stackOverflow]
          rw [pushed_append, pushed_pops popAll_evs]
          exact List.nil_sublist _
        · exact .inr ⟨_, _, _, rfl, rfl⟩
        · refine .inl ⟨_, _, rfl, ?_⟩
          rcases pushed_shift h2 with e | e <;> rw [e]
          · exact List.nil_sublist _
          · exact List.filter_sublist
        · exact .inl ⟨_, _, rfl, List.nil_sublist _⟩
        · have := hnil (pushed_onErr (onError_onErr h2))
          cases b with
          | true => exact .inr ⟨_, _, _, rfl, this⟩
          | false => exact .inl ⟨_, _, rfl, by rw [this]; exact List.nil_sublist _⟩
      rcases hev with ⟨p1, e1, rfl, k⟩ | ⟨eh1, p1, e1, rfl, k⟩
      · simp only [Option.some.injEq, Prod.mk.injEq] at hl
        rw [← hl.2]
        exact k
      · simp only at hl
        obtain ⟨⟨q', e2⟩, h1, h2⟩ := Option.map_eq_some_iff.mp hl
        simp only [Prod.mk.injEq] at h2
        rw [← h2.2, pushed_append, List.filter_append, k, List.nil_append]
        exact ih _ _ _ _ h1

theorem pushed_tokens {n fuel : Nat} (hE : ∀ X, T.errsym = some X → n ≤ X) : ∀ (ts : List Nat) (p q : PState) (evs : List Ev),
    parseTokens T c fuel ts p = some (q, evs) → ((pushed evs).filter (decide <| · < n)).Sublist ts := by
  intro ts
  induction ts with
  | nil =>
    intro p q evs hl
    rw [parseTokens] at hl
    cases hl
    exact List.nil_sublist _
  | cons t ts ih =>
    intro p q evs hl
    rw [parseTokens] at hl
    obtain ⟨⟨p1, e1⟩, h1, h2⟩ := Option.bind_eq_some_iff.mp hl
    obtain ⟨⟨q', e2⟩, h3, h4⟩ := Option.map_eq_some_iff.mp h2
    simp only [Prod.mk.injEq] at h4
    rw [← h4.2, pushed_append, List.filter_append]
    exact List.Sublist.append (l₂ := [t]) (pushed_loop hE fuel false p p1 e1 h1) (ih _ _ _ h3)

end Verif.Lemon
