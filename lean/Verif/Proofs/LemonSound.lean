import Verif.Proofs.LemonSim
/-
Soundness of the parser.
-/
set_option autoImplicit false
namespace Verif.Lemon
open Verif.Spec

variable {g : Gram} {fb : Nat → Option Nat} {compress : Bool} {m : Mach} {F : List TSet} {A : Acts} {cs : List CState} {T : Tables}

theorem Finds.readAs {act : Nat → Option Nat} {wild : Option Nat} {d t n : Nat} (h : Finds act fb wild d t n) :
    (∃ t', ReadAs fb wild t t' ∧ act t' = some n) ∨ n = d := by
  induction h with
  | hit h => exact .inl ⟨_, .self _, h⟩
  | fallback _ h2 _ ih =>
    rcases ih with ⟨t', k1, k2⟩ | k
    · exact .inl ⟨t', .fallback h2 k1, k2⟩
    · exact .inr k
  | wildcard _ _ h3 h4 h5 => exact .inl ⟨_, .wildcard h3 h4, h5⟩
  | dflt => exact .inr rfl

theorem ReadAs.lt (u : Usable g) (hfb : FallbackOK g fb) {t t' : Nat} (h : ReadAs fb g.wildcard t t') (ht : t < g.nterm) : t' < g.nterm := by
  induction h with
  | self => exact ht
  | fallback h _ ih => exact ih (hfb _ _ h).2.2.2
  | wildcard h => exact (u.wild _ h).2

theorem ReadAs.zero (u : Usable g) (hfb : FallbackOK g fb) {t t' : Nat} (h : ReadAs fb g.wildcard t t') (h0 : t' = 0) : t = 0 := by
  induction h with
  | self => exact h0
  | fallback h _ ih => have := (hfb _ _ h).2.2.1; have := ih h0; omega
  | wildcard h => have := (u.wild _ h).1; omega

/-- the states of the parser between two rounds; `fin`: the parser may be about to accept -/
inductive Conf (g : Gram) (m : Mach) (cs : List CState) (nx : Nat) (fin : Prop) : List (Nat × Nat) → List Nat → Prop
  | norm {st : List (Nat × Nat)} {s : Nat} {γ : List Nat} (h : Sim g m cs nx st s γ) : Conf g m cs nx fin st γ
  | pend (X : Nat) {st : List (Nat × Nat)} {s Y q r : Nat} {γ : List Nat} (h : Sim g m cs nx st s γ) (ht : m.Trans s Y q)
      (ha : autoAt cs q = some r) : Conf g m cs nx fin ((cs.length + g.rules.length + 3 + g.iRule r, X) :: st) (γ ++ [Y])
  | acc (X : Nat) {st : List (Nat × Nat)} {s : Nat} {γ : List Nat} (hf : fin) (h : Sim g m cs nx st s γ) :
      Conf g m cs nx fin ((cs.length + g.rules.length + 1, X) :: st) (γ ++ [g.start])

theorem Conf.mono {nx : Nat} {fin fin' : Prop} (hf : fin → fin') {st : List (Nat × Nat)} {γ : List Nat} (h : Conf g m cs nx fin st γ) :
    Conf g m cs nx fin' st γ := by
  cases h with
  | norm h => exact .norm h
  | pend X h ht ha => exact .pend X h ht ha
  | acc X h h' => exact .acc X (hf h) h'

theorem Conf.length {nx : Nat} {fin : Prop} {st : List (Nat × Nat)} {γ : List Nat} (h : Conf g m cs nx fin st γ) : st.length = γ.length + 1 := by
  cases h with
  | norm h => exact h.length
  | pend X h ht ha => simp [h.length]
  | acc X h h' => simp [h'.length]

/-- numbers of rules in events -/
theorem reductions_append (a b : List Ev) : reductions (a ++ b) = reductions a ++ reductions b := by
  unfold reductions
  rw [List.filterMap_append]

/-- ready for a reduction by `r` -/
def Ready (g : Gram) (m : Mach) (cs : List CState) (nx : Nat) (r : Nat) (st : List (Nat × Nat)) (γ : List Nat) : Prop :=
  ∃ δ q, γ = δ ++ (g.rule r).rhs ∧ Sim g m cs nx (st.drop (g.rule r).rhs.length) q δ ∧ m.Item q r 0

theorem pend_ready (u : Usable g) (h : Prepared g compress m F A cs) {nx : Nat} {st : List (Nat × Nat)} {s Y q r n X : Nat} {γ : List Nat}
    (hs : Sim g m cs nx st s γ) (ht : m.Trans s Y q) (ha : autoAt cs q = some r) : Ready g m cs nx r ((n, X) :: st) (γ ++ [Y]) := by
  have auto := h.isAuto u
  obtain ⟨h1, _, h3⟩ := auto_item u h (auto.lt _ _ _ ht).2 ha
  obtain ⟨δ, q', e, k1, k2, k3⟩ := item_back u h (hs.path.snoc ht) h1
  rcases List.eq_nil_or_concat (g.rule r).rhs with e0 | ⟨α, Z, e0⟩
  · exact absurd e0 h3
  · rw [List.concat_eq_append] at e0
    have e' := e
    rw [e0, ← List.append_assoc] at e'
    obtain ⟨e1, _⟩ := List.append_inj' e' rfl
    obtain ⟨s', h4⟩ := hs.split δ α e1
    have := auto.path_det k1 h4.path
    subst this
    refine ⟨δ, q', e, ?_, k3⟩
    rw [e0]
    simpa using h4

section
variable (u : Usable g) (h : Generated g fb compress m F A cs T)
include u h

theorem nrhs_eq {r : Nat} (hr : r < g.rules.length) (hl : (g.rule r).rhs.length < 256) (hn : T.nrhs (g.iRule r) ≤ 0) :
    (-T.nrhs (g.iRule r)).toNat = (g.rule r).rhs.length := by
  have R := h.reported u
  unfold Tables.nrhs schar at hn ⊢
  have : T.ruleNRhs.getD (g.iRule r) 0 = (g.rule r).rhs.length := by
    rw [R.ruleNRhs, List.getD_eq_getElem?_getD, List.getElem?_map, ruleList_at u hr]
    rfl
  rw [this] at hn ⊢
  omega

theorem nrhs_le {r : Nat} (hr : r < g.rules.length) (hl : (g.rule r).rhs.length ≤ 128) : T.nrhs (g.iRule r) = -((g.rule r).rhs.length : Int) := by
  have R := h.reported u
  unfold Tables.nrhs schar
  have : T.ruleNRhs.getD (g.iRule r) 0 = (g.rule r).rhs.length := by
    rw [R.ruleNRhs, List.getD_eq_getElem?_getD, List.getElem?_map, ruleList_at u hr]
    rfl
  rw [this]
  omega

theorem lhs_eq {r : Nat} (hr : r < g.rules.length) : T.ruleLhs[g.iRule r]? = some (g.index (g.rule r).lhs) := by
  rw [(h.reported u).ruleLhs, List.getElem?_map, ruleList_at u hr]
  rfl

theorem consts : T.minReduce = cs.length + g.rules.length + 3 ∧ T.minShiftReduce = cs.length ∧ T.nrule = g.rules.length ∧
    T.accAction = cs.length + g.rules.length + 1 ∧ T.errAction = cs.length + g.rules.length ∧ T.nx = nxstate cs (resortStates g cs) ∧
    T.nx ≤ cs.length := by
  have R := h.reported u
  have := nxstate_le cs (resortStates g cs)
  rw [order_length] at this
  unfold Tables.minReduce Tables.noAction Tables.accAction Tables.errAction
  rw [R.msr, R.nrule, R.nxs]
  exact ⟨rfl, rfl, rfl, rfl, rfl, rfl, this⟩

/-- a reduction -/
theorem reduce_sound {r : Nat} {p p' : PState} {γ : List Nat} {fin : Prop} (hr : r < g.rules.length) (hlen : (g.rule r).rhs.length < 256)
    (hs : Ready g m cs (nxstate cs (resortStates g cs)) r p.stack γ) (hf : (g.rule r).lhs = g.start → fin)
    (hy : yyReduce T (g.iRule r) p = some p') :
    ∃ δ us X, γ = δ ++ (g.rule r).rhs ∧ Chain g compress (g.rule r).lhs us X ∧ Conf g m cs (nxstate cs (resortStates g cs)) fin p'.stack (δ ++ [X]) ∧
      p'.errcnt = p.errcnt := by
  obtain ⟨δ, q, e, h1, h2⟩ := hs
  have hp := h.toPrepared
  obtain ⟨ev, k1, k2⟩ := reduce_finds u h h1 h2
  obtain ⟨⟨X0, hX0⟩, hq, _⟩ := h1.head u hp
  obtain ⟨c1, c2, c3, c4, c5, c6, c7⟩ := consts u h
  have hb := u.wf.lhs _ (rule_mem hr)
  obtain ⟨us, X, k3, k4, k5⟩ := lands_sound u hp hq k1 hb.1 hb.2
  unfold yyReduce at hy
  rw [lhs_eq u h hr] at hy
  simp only at hy
  split_ifs at hy with hpos
  rw [nrhs_eq u h hr hlen (by omega), hX0] at hy
  simp only [k2] at hy
  split_ifs at hy with ha
  cases hy
  simp only [Bool.or_eq_true, Bool.and_eq_true, decide_eq_true_eq, not_or, not_and] at ha
  refine ⟨δ, us, X, e, k3, ?_, rfl⟩
  cases k4 with
  | accept h0 =>
    exact .acc _ (hf (k5 rfl)) h1
  | shift ht ha' =>
    refine .norm (.push _ h1 ht ?_)
    refine nx_of_auto ?_ ha'
    rw [(order_perm g cs).mem_iff, List.mem_range, (hp.states u).1]
    exact ((hp.isAuto u).lt _ _ _ ht).2
  | @reduce X q' r' ht ha' =>
    have : actNum g cs.length (resortStates g cs) (g.rule r).lhs (AType.SHIFTREDUCE, r') = cs.length + g.rules.length + 3 + g.iRule r' := by
      have hr' := (item_lt u hp (auto_item u hp ((hp.isAuto u).lt _ _ _ ht).2 ha').1).2
      have := iRule_lt u hr'
      unfold actNum
      split_ifs with h0
      · unfold actNum at ha
        simp only [h0, if_true] at ha
        omega
      · rfl
    rw [this]
    exact .pend _ h1 ht ha'

/-- `findShift` in a state with a row -/
theorem find_sound (hfb : FallbackOK g fb) {st : List (Nat × Nat)} {s t fuel n : Nat} {nd : Bool} {γ : List Nat}
    (hs : Sim g m cs (nxstate cs (resortStates g cs)) st s γ) (ht : t < g.nterm) (hn : T.findShift nd fuel t (numOf g cs s) = some n) :
    (∃ t' e, ReadAs fb g.wildcard t t' ∧ t' < g.nterm ∧ TokAct g m F cs s t' e ∧ n = actNum g cs.length (resortStates g cs) t' e) ∨
    (∃ r, m.Item s r (g.rule r).rhs.length ∧ (g.rule r).lhs ≠ g.start ∧ n = cs.length + g.rules.length + 3 + g.iRule r) ∨
    n = T.errAction := by
  have hp := h.toPrepared
  have R := h.reported u
  obtain ⟨_, h2, h3⟩ := hs.head u hp
  obtain ⟨c1, c2, c3, c4, c5, c6, c7⟩ := consts u h
  unfold Tables.findShift at hn
  rw [if_neg (by rw [c6]; omega)] at hn
  have hl : numOf g cs s < T.shiftOfst.length := by
    cases fuel with
    | zero => cases hn
    | succ fuel =>
      by_contra hc
      rw [Tables.findShiftLoop, List.getElem?_eq_none (by omega)] at hn
      cases hn
  have hf := finds_of_loop R hfb u.wild hl fuel t n ht hn
  unfold FindsAt at hf
  rw [stateAt_num u hp h2] at hf
  rcases hf.readAs with ⟨t', k1, k2⟩ | k
  · left
    unfold lastNum at k2
    obtain ⟨e, k3, k4⟩ := Option.map_eq_some_iff.mp k2
    have ht' := k1.lt u hfb ht
    exact ⟨t', e, k1, ht', tok_act u hp h2 ht' (List.mem_of_getLast? k3), k4.symm⟩
  · right
    cases hd : dfltReduce g (cs.getD s ⟨[], none⟩) with
    | none => right; rw [k, hd, c5]; rfl
    | some r =>
      left
      obtain ⟨k1, k2⟩ := dflt_item u hp h2 hd
      exact ⟨r, k1, k2, by rw [k, hd]; rfl⟩

/-- what a round does -/
inductive RoundAny (g : Gram) (compress : Bool) (fb : Nat → Option Nat) (m : Mach) (cs : List CState) (T : Tables) (c : PConf) (nx : Nat) (t : Nat)
    (eh : Bool) (p0 : PState) (γ : List Nat) : Round → Prop
  | reduce {r X : Nat} {us δ : List Nat} {p : PState} (hr : r < g.rules.length) (e : γ = δ ++ (g.rule r).rhs)
      (hc : Chain g compress (g.rule r).lhs us X) (h : Conf g m cs nx (t = 0) p.stack (δ ++ [X])) (hn : p.errcnt = p0.errcnt) :
      RoundAny g compress fb m cs T c nx t eh p0 γ (.next eh p [.reduce (g.iRule r)])
  | shift {t' Y : Nat} {p : PState} (hr : ReadAs fb g.wildcard t t') (ht : t' < g.nterm) (hY : t' ∈ g.shiftSyms Y) (hs : ∃ s q, m.Trans s Y q)
      (h : Conf g m cs nx False p.stack (γ ++ [Y])) (hn : p.errcnt = p0.errcnt - 1) : RoundAny g compress fb m cs T c nx t eh p0 γ (.stop p [.shift t])
  | accept {a b : Nat × Nat} (h0 : t = 0) (e : γ = [g.start]) (hst : p0.stack = [a, b]) :
      RoundAny g compress fb m cs T c nx t eh p0 γ (.stop { p0 with stack := [b], errcnt := -1 } [.accept])
  | error {s : Nat} {q : PState} {evs : List Ev} {b : Bool} (hs : Sim g m cs nx p0.stack s γ) (h : onError T c t eh p0 = some (q, evs, b)) :
      RoundAny g compress fb m cs T c nx t eh p0 γ (if b then .next true q evs else .stop q evs)
  | overflow {q : PState} (e : q.stack = (popAll p0.stack).1) : RoundAny g compress fb m cs T c nx t eh p0 γ (.stop q ((popAll p0.stack).2 ++ [.overflow]))

theorem round_any (hfb : FallbackOK g fb) (hlen : ∀ r ∈ g.rules, r.rhs.length < 256) {c : PConf} {t fuel : Nat} (ht : t < g.nterm) {eh : Bool} {p : PState}
    {γ : List Nat} {x : Round} (hc : Conf g m cs (nxstate cs (resortStates g cs)) (t = 0) p.stack γ)
    (hx : parseRound T c t fuel eh p = some x) : RoundAny g compress fb m cs T c (nxstate cs (resortStates g cs)) t eh p γ x := by
  have hp := h.toPrepared
  obtain ⟨c1, c2, c3, c4, c5, c6, c7⟩ := consts u h
  -- reductions
  have hred : ∀ r, r < g.rules.length → Ready g m cs (nxstate cs (resortStates g cs)) r p.stack γ → ((g.rule r).lhs = g.start → t = 0) →
      ∀ x, (if T.nrhs (g.iRule r) = 0 then
          (track c (p.stack.length - 1) p).bind fun p =>
            if c.depth.any fun d => p.stack.length - 1 ≥ d - 1 then some (.stop (stackOverflow p).1 (stackOverflow p).2)
            else (yyReduce T (g.iRule r) p).map fun p => .next eh p [.reduce (g.iRule r)]
        else (yyReduce T (g.iRule r) p).map fun p => Round.next eh p [.reduce (g.iRule r)]) = some x →
      RoundAny g compress fb m cs T c (nxstate cs (resortStates g cs)) t eh p γ x := by
    intro r hr hrd hf x hx
    have hl := hlen _ (rule_mem hr)
    split_ifs at hx with h0
    · obtain ⟨p1, k1, k2⟩ := Option.bind_eq_some_iff.mp hx
      obtain ⟨e1, e2, _⟩ := track_spec k1
      split_ifs at k2
      · cases k2
        simp only [stackOverflow, e1]
        exact .overflow rfl
      · obtain ⟨p2, k3, k4⟩ := Option.map_eq_some_iff.mp k2
        subst k4
        rw [← e1] at hrd
        obtain ⟨δ, us, X, j1, j2, j3, j4⟩ := reduce_sound u h hr hl hrd hf k3
        exact .reduce hr j1 j2 j3 (by omega)
    · obtain ⟨p2, k3, k4⟩ := Option.map_eq_some_iff.mp hx
      subst k4
      obtain ⟨δ, us, X, j1, j2, j3, j4⟩ := reduce_sound u h hr hl hrd hf k3
      exact .reduce hr j1 j2 j3 (by omega)
  -- errors
  have herr : ∀ s, Sim g m cs (nxstate cs (resortStates g cs)) p.stack s γ →
      ∀ x, (onError T c t eh p).map (fun x => if x.2.2 then Round.next true x.1 x.2.1 else .stop x.1 x.2.1) = some x →
      RoundAny g compress fb m cs T c (nxstate cs (resortStates g cs)) t eh p γ x := by
    intro s hs x hx
    obtain ⟨⟨q, evs, b⟩, k1, k2⟩ := Option.map_eq_some_iff.mp hx
    rw [← k2]
    exact .error hs k1
  unfold parseRound at hx
  generalize hst : p.stack = st0 at hc
  cases hc with
  | @norm _ s _ hs =>
    rw [← hst] at hs
    obtain ⟨⟨X0, hX0⟩, h2, h3⟩ := hs.head u hp
    rw [hX0] at hx
    simp only at hx
    cases hn : T.findShift c.ndebug fuel t (numOf g cs s) with
    | none => rw [hn] at hx; cases hx
    | some n =>
      rw [hn] at hx
      simp only at hx
      have hitem : ∀ r, m.Item s r (g.rule r).rhs.length → ((g.rule r).lhs = g.start → t = 0) → n = cs.length + g.rules.length + 3 + g.iRule r →
          RoundAny g compress fb m cs T c (nxstate cs (resortStates g cs)) t eh p γ x := by
        intro r hi hf e
        have hr := (item_lt u hp hi).2
        have := iRule_lt u hr
        have e' : n - T.minReduce = g.iRule r := by omega
        rw [if_pos (by omega), e', if_neg (by omega)] at hx
        exact hred r hr (hs.back u hp hi) hf x hx
      rcases find_sound u h hfb hs ht hn with ⟨t', e, k1, k2, k3, k4⟩ | ⟨r, k1, k2, k3⟩ | k
      · cases k3 with
        | @shift q Y ht' hY ha =>
          have hq : numOf g cs q < nxstate cs (resortStates g cs) := by
            refine nx_of_auto ?_ ha
            rw [(order_perm g cs).mem_iff, List.mem_range, (hp.states u).1]
            exact ((hp.isAuto u).lt _ _ _ ht').2
          have hq' : n = numOf g cs q := k4
          rw [if_neg (by omega), if_pos (by omega)] at hx
          obtain ⟨⟨q1, evs⟩, j1, j2⟩ := Option.map_eq_some_iff.mp hx
          subst j2
          unfold yyShift at j1
          simp only at j1
          obtain ⟨p1, j2, j3⟩ := Option.map_eq_some_iff.mp j1
          obtain ⟨e1, e2, _⟩ := track_spec j2
          split_ifs at j3
          · cases j3
            simp only [stackOverflow, e1]
            exact .overflow rfl
          · omega
          · cases j3
            refine .shift k1 k2 hY ⟨_, _, ht'⟩ ?_ ?_
            · simp only [e1]
              rw [hq']
              exact .norm (.push _ hs ht' hq)
            · simp only; omega
        | @shred q Y r ht' hY ha =>
          have hr := (item_lt u hp (auto_item u hp ((hp.isAuto u).lt _ _ _ ht').2 ha).1).2
          have := iRule_lt u hr
          have hq' : n = cs.length + g.iRule r := by rw [k4]; unfold actNum; simp only [k2, true_or, if_true]
          rw [if_neg (by omega), if_pos (by omega)] at hx
          obtain ⟨⟨q1, evs⟩, j1, j2⟩ := Option.map_eq_some_iff.mp hx
          subst j2
          unfold yyShift at j1
          simp only at j1
          obtain ⟨p1, j2, j3⟩ := Option.map_eq_some_iff.mp j1
          obtain ⟨e1, e2, _⟩ := track_spec j2
          split_ifs at j3
          · cases j3
            simp only [stackOverflow, e1]
            exact .overflow rfl
          · cases j3
            refine .shift k1 k2 hY ⟨_, _, ht'⟩ ?_ ?_
            · simp only [e1]
              have e3 : n + (T.minReduce - T.minShiftReduce) = cs.length + g.rules.length + 3 + g.iRule r := by omega
              rw [e3]
              exact .pend _ hs ht' ha
            · simp only; omega
          · omega
        | reduce hi hf =>
          refine hitem _ hi ?_ k4
          intro hl
          exact k1.zero u hfb (start_end u hp hi hl hf)
        | error =>
          have : n = cs.length + g.rules.length := k4
          rw [if_neg (by omega), if_neg (by omega), if_neg (by omega), if_pos (by omega)] at hx
          exact herr s hs x hx
      · exact hitem r k1 (fun e => absurd e k2) k3
      · rw [if_neg (by omega), if_neg (by omega), if_neg (by omega), if_pos (by omega)] at hx
        exact herr s hs x hx
  | @pend X st s Y q r γ hs ht' ha =>
    obtain ⟨hi, hl, hne⟩ := auto_item u hp ((hp.isAuto u).lt _ _ _ ht').2 ha
    have hr := (item_lt u hp hi).2
    have := iRule_lt u hr
    rw [show p.stack.head? = some (cs.length + g.rules.length + 3 + g.iRule r, X) by rw [hst]; rfl] at hx
    simp only at hx
    unfold Tables.findShift at hx
    rw [if_pos (by omega)] at hx
    simp only at hx
    have e' : cs.length + g.rules.length + 3 + g.iRule r - T.minReduce = g.iRule r := by omega
    rw [if_pos (by omega), e', if_neg (by omega)] at hx
    have hrd := pend_ready u hp (n := cs.length + g.rules.length + 3 + g.iRule r) (X := X) hs ht' ha
    rw [← hst] at hrd
    exact hred r hr hrd (fun e => absurd e hl) x hx
  | @acc X st s γ hf hs =>
    rw [show p.stack.head? = some (cs.length + g.rules.length + 1, X) by rw [hst]; rfl] at hx
    simp only at hx
    unfold Tables.findShift at hx
    rw [if_pos (by omega)] at hx
    simp only at hx
    rw [if_neg (by omega), if_neg (by omega), if_pos (by omega)] at hx
    split at hx
    · rename_i b e
      rw [hst] at e
      simp only [List.cons.injEq] at e
      have hlen := hs.length
      rw [e.2] at hlen
      simp only [List.length_cons, List.length_nil] at hlen
      have : γ = [] := List.length_eq_zero_iff.mp (by omega)
      subst this
      cases hx
      exact .accept hf rfl (hst.trans (by rw [e.2]))
    · cases hx

/-- what a round does in the absence of errors -/
inductive RoundOK (g : Gram) (compress : Bool) (fb : Nat → Option Nat) (m : Mach) (cs : List CState) (nx : Nat) (t : Nat) (γ : List Nat) : Round → Prop
  | reduce {eh : Bool} {r X : Nat} {us δ : List Nat} {p : PState} (hr : r < g.rules.length) (e : γ = δ ++ (g.rule r).rhs)
      (hc : Chain g compress (g.rule r).lhs us X) (h : Conf g m cs nx (t = 0) p.stack (δ ++ [X])) (hn : p.errcnt < 0) :
      RoundOK g compress fb m cs nx t γ (.next eh p [.reduce (g.iRule r)])
  | shift {t' Y : Nat} {p : PState} (hr : ReadAs fb g.wildcard t t') (ht : t' < g.nterm) (hY : t' ∈ g.shiftSyms Y)
      (h : Conf g m cs nx False p.stack (γ ++ [Y])) (hn : p.errcnt < 0) : RoundOK g compress fb m cs nx t γ (.stop p [.shift t])
  | accept {p : PState} (h0 : t = 0) (e : γ = [g.start]) : RoundOK g compress fb m cs nx t γ (.stop p [.accept])
  | error {x : Round} (h : .syntaxError t ∈ x.evs ∨ .overflow ∈ x.evs) : RoundOK g compress fb m cs nx t γ x

theorem round_sound (hfb : FallbackOK g fb) (hlen : ∀ r ∈ g.rules, r.rhs.length < 256) {c : PConf} {t fuel : Nat} (ht : t < g.nterm) {eh : Bool} {p : PState}
    {γ : List Nat} {x : Round} (hc : Conf g m cs (nxstate cs (resortStates g cs)) (t = 0) p.stack γ) (he : p.errcnt < 0)
    (hx : parseRound T c t fuel eh p = some x) : RoundOK g compress fb m cs (nxstate cs (resortStates g cs)) t γ x := by
  cases round_any u h hfb hlen ht hc hx with
  | reduce hr e hch hcf hn => exact .reduce hr e hch hcf (by omega)
  | shift h1 h2 h3 _ h4 h5 => exact .shift h1 h2 h3 h4 (by omega)
  | accept h0 e _ => exact .accept h0 e
  | error _ k1 =>
    have := onError_reports k1 he
    refine .error (.inl ?_)
    split_ifs <;> exact this
  | overflow => exact .error (.inr (by simp [Round.evs]))

/-- one token -/
theorem loop_sound (hfb : FallbackOK g fb) (hlen : ∀ r ∈ g.rules, r.rhs.length < 256) {c : PConf} {t : Nat} (ht : t < g.nterm) :
    ∀ (fuel : Nat) (eh : Bool) (p q : PState) (γ ps es : List Nat) (w : List (Nat × Unit)) (vs : List Unit) (evs : List Ev),
    Conf g m cs (nxstate cs (resortStates g cs)) (t = 0) p.stack γ → p.errcnt < 0 →
    Builds g.ext (fun _ _ => ()) ps γ w vs → Skips g compress ps es →
    parseLoop T c t fuel eh p = some (q, evs) → .syntaxError t ∉ evs → .overflow ∉ evs →
    (∃ t' Y γ' ps' vs', ReadAs fb g.wildcard t t' ∧ t' < g.nterm ∧ t' ∈ g.shiftSyms Y ∧ .accept ∉ evs ∧
      Conf g m cs (nxstate cs (resortStates g cs)) False q.stack γ' ∧ q.errcnt < 0 ∧
      Builds g.ext (fun _ _ => ()) ps' γ' (w ++ [(Y, ())]) vs' ∧ Skips g compress ps' (es ++ reductions evs)) ∨
    (t = 0 ∧ ∃ ps' vs', Builds g.ext (fun _ _ => ()) ps' [g.start] w vs' ∧ Skips g compress ps' (es ++ reductions evs)) := by
  intro fuel
  induction fuel with
  | zero => intro eh p q γ ps es w vs evs _ _ _ _ hl; cases hl
  | succ fuel ih =>
    intro eh p q γ ps es w vs evs hc he hb hk hl hs ho
    rw [parseLoop] at hl
    cases hx : parseRound T c t (fuel + 1) eh p with
    | none => rw [hx] at hl; cases hl
    | some x =>
      have hr := round_sound u h hfb hlen ht hc he hx
      rw [hx] at hl
      cases x with
      | stop p1 e1 =>
        simp only [Option.some.injEq, Prod.mk.injEq] at hl
        obtain ⟨rfl, rfl⟩ := hl
        cases hr with
        | @shift t' Y _ h1 h2 h3 h4 h5 =>
          left
          have hY : Y < g.ext.ntok := by
            show Y < g.nlow
            by_contra hc
            have := (shiftSyms_nt (g := g) u.wf (X := t') (Y := Y))
            unfold Gram.shiftSyms at h3
            split_ifs at h3 with hm
            · unfold Gram.isMT Gram.nlow at *
              simp only [Bool.and_eq_true, decide_eq_true_eq] at hm
              omega
            · have := List.mem_singleton.mp h3
              unfold Gram.nlow at hc
              omega
          exact ⟨t', Y, _, ps, _, h1, h2, h3, by simp, h4, h5, .tok () hY hb, by simpa [reductions] using hk⟩
        | accept h1 h2 =>
          right
          subst h2
          exact ⟨h1, ps, vs, hb, by simpa [reductions] using hk⟩
        | error h1 =>
          rcases h1 with h1 | h1
          · exact absurd h1 hs
          · exact absurd h1 ho
      | next eh1 p1 e1 =>
        simp only at hl
        obtain ⟨⟨q', e2⟩, h1, h2⟩ := Option.map_eq_some_iff.mp hl
        simp only [Prod.mk.injEq] at h2
        obtain ⟨rfl, rfl⟩ := h2
        rw [List.mem_append, not_or] at hs ho
        cases hr with
        | @reduce _ r X us δ _ hr e hch hcf hn =>
          subst e
          obtain ⟨vs1, hb1⟩ := hch.builds (hb.reduce (ext_at hr))
          have hk1 := hch.skips (Skips.keep r hk)
          have hres := ih eh1 p1 q' (δ ++ [X]) _ _ w vs1 e2 hcf hn hb1 hk1 h1 hs.2 ho.2
          have hred : es ++ reductions ([.reduce (g.iRule r)] ++ e2) = es ++ [g.iRule r] ++ reductions e2 := by
            rw [reductions_append]; simp [reductions]
          rw [hred]
          rcases hres with ⟨t', Y, γ', ps', vs', k1, k2, k3, k4, k5⟩ | ⟨k0, k1⟩
          · exact .inl ⟨t', Y, γ', ps', vs', k1, k2, k3, by simpa using k4, k5⟩
          · exact .inr ⟨k0, k1⟩
        | error h1 =>
          rcases h1 with h1 | h1
          · exact absurd h1 hs.1
          · exact absurd h1 ho.1

/-- all tokens up to the end of input -/
theorem tokens_sound (hfb : FallbackOK g fb) (hlen : ∀ r ∈ g.rules, r.rhs.length < 256) {c : PConf} {fuel : Nat} :
    ∀ (ts : List Nat) (p q : PState) (γ ps es : List Nat) (w : List (Nat × Unit)) (vs : List Unit) (evs : List Ev),
    (∀ t ∈ ts, t ≠ 0 ∧ t < g.nterm) →
    Conf g m cs (nxstate cs (resortStates g cs)) False p.stack γ → p.errcnt < 0 →
    Builds g.ext (fun _ _ => ()) ps γ w vs → Skips g compress ps es →
    parseTokens T c fuel (ts ++ [0]) p = some (q, evs) → (∀ t, .syntaxError t ∉ evs) → .overflow ∉ evs → .accept ∈ evs →
    ∃ Ys ps' vs', List.Forall₂ (fun t Y => ∃ t', ReadAs fb g.wildcard t t' ∧ t' < g.nterm ∧ t' ∈ g.shiftSyms Y) ts Ys ∧
      Builds g.ext (fun _ _ => ()) ps' [g.start] (w ++ Ys.map fun Y => (Y, ())) vs' ∧ Skips g compress ps' (es ++ reductions evs) := by
  intro ts
  induction ts with
  | nil =>
    intro p q γ ps es w vs evs _ hc he hb hk hl hs ho ha
    rw [List.nil_append, parseTokens] at hl
    obtain ⟨⟨p1, e1⟩, h1, h2⟩ := Option.bind_eq_some_iff.mp hl
    simp only [parseTokens, Option.map_some, List.append_nil, Option.some.injEq, Prod.mk.injEq] at h2
    obtain ⟨rfl, rfl⟩ := h2
    rcases loop_sound u h hfb hlen u.wf.nterm fuel false p p1 γ ps es w vs e1 (hc.mono (by simp)) he hb hk h1 (hs 0) ho with
      ⟨_, _, _, _, _, _, _, _, k, _⟩ | ⟨_, ps', vs', k1, k2⟩
    · exact absurd ha k
    · exact ⟨[], ps', vs', .nil, by simpa using k1, k2⟩
  | cons t ts ih =>
    intro p q γ ps es w vs evs hts hc he hb hk hl hs ho ha
    rw [List.cons_append, parseTokens] at hl
    obtain ⟨⟨p1, e1⟩, h1, h2⟩ := Option.bind_eq_some_iff.mp hl
    obtain ⟨⟨q', e2⟩, h3, h4⟩ := Option.map_eq_some_iff.mp h2
    simp only [Prod.mk.injEq] at h4
    obtain ⟨rfl, rfl⟩ := h4
    have hs1 : ∀ t, .syntaxError t ∉ e1 := fun t hm => hs t (List.mem_append_left _ hm)
    have hs2 : ∀ t, .syntaxError t ∉ e2 := fun t hm => hs t (List.mem_append_right _ hm)
    rw [List.mem_append, not_or] at ho
    have ht := hts t List.mem_cons_self
    rcases loop_sound u h hfb hlen ht.2 fuel false p p1 γ ps es w vs e1 (hc.mono (fun h => h.elim)) he hb hk h1 (hs1 t) ho.1 with
      ⟨t', Y, γ', ps', vs', k1, k2, k3, k4, k5, k6, k7, k8⟩ | ⟨k0, _⟩
    · have ha' : .accept ∈ e2 := by
        rcases List.mem_append.mp ha with h | h
        · exact absurd h k4
        · exact h
      obtain ⟨Ys, ps2, vs2, j1, j2, j3⟩ := ih p1 q' γ' ps' _ _ vs' e2 (fun t ht => hts t (List.mem_cons_of_mem _ ht)) k5 k6 k7 k8 h3 hs2 ho.2 ha'
      refine ⟨Y :: Ys, ps2, vs2, .cons ⟨t', k1, k2, k3⟩ j1, by simpa using j2, ?_⟩
      rw [reductions_append, ← List.append_assoc]
      exact j3
    · exact absurd k0 ht.1

end

theorem shiftSyms_members {t Y : Nat} (ht : t < g.nterm) (h : t ∈ g.shiftSyms Y) : t ∈ g.members Y ∧ Y < g.nlow := by
  unfold Gram.shiftSyms at h
  unfold Gram.members
  split_ifs at h with h1
  · unfold Gram.isMT at h1
    simp only [Bool.and_eq_true, decide_eq_true_eq] at h1
    rw [if_neg (by omega)]
    exact ⟨h, h1.2⟩
  · have := List.mem_singleton.mp h
    subst this
    rw [if_pos ht]
    exact ⟨List.mem_singleton_self _, by unfold Gram.nlow; omega⟩

/-- derivations with multi-terminals as tokens -/
theorem yields_members (wf : g.WF) {β ws : List Nat} (hy : Yields g.ext β ws) : ∀ w : List Nat, List.Forall₂ (fun t Y => t ∈ g.members Y) w ws →
    Yields g.cfg β w := by
  induction hy with
  | nil => intro w hw; cases hw; exact .nil
  | @tok Y β ws hY hy ih =>
    intro w hw
    cases hw with
    | @cons t _ w _ h1 h2 =>
      have ih := ih w h2
      unfold Gram.members at h1
      split_ifs at h1 with h0
      · rw [List.mem_singleton.mp h1]
        exact .tok h0 ih
      · have hY' : Y < g.nlow := hY
        have hm : g.isMT Y = true := by unfold Gram.isMT; simp; omega
        obtain ⟨i, k1, k2, k3⟩ := (mem_cfg_MT Y t).mpr ⟨hm, h1⟩
        exact .var (w₁ := [t]) (mem_cfg.mpr (.inr ⟨i, t, k1, k2, k3, rfl⟩)) (.tok (subsym_lt wf h1) .nil) ih
  | @var A α β w1 w2 hr _ _ ih1 ih2 =>
    intro w hw
    obtain ⟨r, k1, k2⟩ := List.mem_map.mp hr
    simp only [Prod.mk.injEq] at k2
    have h1 := List.forall₂_iff_get.mp hw
    have hl := hw.length_eq
    rw [List.length_append] at hl
    have hsp := List.take_append_drop w1.length w
    have hw1 : List.Forall₂ (fun t Y => t ∈ g.members Y) (w.take w1.length) w1 := by
      have := List.forall₂_take w1.length hw
      rwa [List.take_left] at this
    have hw2 : List.Forall₂ (fun t Y => t ∈ g.members Y) (w.drop w1.length) w2 := by
      have := List.forall₂_drop w1.length hw
      rwa [List.drop_left] at this
    rw [← hsp]
    exact .var (mem_cfg.mpr (.inl ⟨r, k1, k2⟩)) (ih1 _ hw1) (ih2 _ hw2)

end Verif.Lemon
