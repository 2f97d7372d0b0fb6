import Verif.Proofs.LemonSound
import Verif.Proofs.Licensed
import Verif.Props.C36
/-
Completeness of the parser for grammars without conflicts.
-/
set_option autoImplicit false
namespace Verif.Lemon
open Verif.Spec

variable {g : Gram} {fb : Nat → Option Nat} {compress : Bool} {m : Mach} {F : List TSet} {A : Acts} {cs : List CState} {T : Tables}

/-! ### terminals and multi-terminals -/

theorem ext_mem_cfg {A : Nat} {α : List Nat} (h : (A, α) ∈ g.ext.rules) : (A, α) ∈ g.cfg.rules := by
  obtain ⟨r, h1, h2⟩ := List.mem_map.mp h
  simp only [Prod.mk.injEq] at h2
  exact mem_cfg.mpr (.inl ⟨r, h1, h2⟩)

/-- every derivation is one with multi-terminals as tokens -/
theorem yields_ext (wf : g.WF) {β w : List Nat} (hy : Yields g.cfg β w) :
    ∃ ws, Yields g.ext β ws ∧ List.Forall₂ (fun t Y => t ∈ g.members Y) w ws := by
  induction hy with
  | nil => exact ⟨[], .nil, .nil⟩
  | @tok t β w ht _ ih =>
    obtain ⟨ws, h1, h2⟩ := ih
    have ht' : t < g.nterm := ht
    refine ⟨t :: ws, .tok (show t < g.nlow by unfold Gram.nlow; omega) h1, .cons ?_ h2⟩
    unfold Gram.members
    rw [if_pos ht']
    exact List.mem_singleton_self _
  | @var A α β w1 w2 hr hy1 _ ih1 ih2 =>
    obtain ⟨ws2, k1, k2⟩ := ih2
    obtain ⟨ws1, h1, h2⟩ := ih1
    rcases mem_cfg.mp hr with ⟨r, j1, rfl, rfl⟩ | ⟨i, t, j1, j2, rfl, rfl⟩
    · exact ⟨ws1 ++ ws2, .var (List.mem_map.mpr ⟨r, j1, rfl⟩) h1 k1, List.rel_append h2 k2⟩
    · have ht : t < g.nterm := by
        refine wf.mts (g.mts.getD i []) ?_ t j2
        rw [List.getD_eq_getElem?_getD, List.getElem?_eq_getElem j1]
        exact List.getElem_mem j1
      have hw1 : w1 = [t] := by
        clear h1 hr
        generalize e : [t] = l at hy1
        cases hy1 with
        | nil => cases e
        | @tok t' β w _ h =>
          obtain ⟨rfl, rfl⟩ := List.cons.inj e
          cases h
          rfl
        | var hr' =>
          obtain ⟨rfl, _⟩ := List.cons.inj e
          rcases mem_cfg.mp hr' with ⟨r', l1, l2, _⟩ | ⟨_, _, _, _, l2, _⟩
          · have := (wf.lhs r' l1).1
            unfold Gram.nlow at this
            omega
          · omega
      subst hw1
      refine ⟨(g.nterm + i) :: ws2, .tok (show g.nterm + i < g.nlow by unfold Gram.nlow; omega) k1, .cons ?_ k2⟩
      unfold Gram.members Gram.subsym
      rw [if_neg (by omega), Nat.add_sub_cancel_left]
      exact j2

theorem null_cfg {X : Nat} (h : Null g.ext X) : Null g.cfg X := by
  induction h with
  | mk hr _ ih => exact .mk (ext_mem_cfg hr) ih

theorem fst_cfg (wf : g.WF) {z : List Nat} {X : Nat} (h : Fst g.ext z X) {t : Nat} (ht : t ∈ g.members X) : Fst g.cfg z t := by
  induction h with
  | @tok X z hX =>
    have hX' : X < g.nlow := hX
    unfold Gram.members at ht
    split_ifs at ht with h0
    · rw [List.mem_singleton.mp ht]
      exact .tok h0
    · have hm : g.isMT X = true := by unfold Gram.isMT; simp; omega
      obtain ⟨i, k1, k2, k3⟩ := (mem_cfg_MT X t).mpr ⟨hm, ht⟩
      exact .rule (mem_cfg.mpr (.inr ⟨i, t, k1, k2, k3, rfl⟩)) (.tok (subsym_lt wf ht))
  | rule hr _ ih => exact .rule (ext_mem_cfg hr) (ih ht)
  | skip hn _ ih => exact .skip (null_cfg hn) (ih ht)

/-! ### actions -/

/-- No conflicts: at most one action for each token in each state, precedences not considered. -/
def NoConflicts (g : Gram) (m : Mach) (F : List TSet) : Prop :=
  ∀ s < m.sts.length, ∀ t < g.nterm, ∀ cs, Competitors g m F s t cs → cs.length ≤ 1

theorem on_single (u : Usable g) (h : Prepared g compress m F A cs) (hn : NoConflicts g m F) {s t : Nat} (hs : s < m.sts.length) (ht : t < g.nterm)
    {c : Cand} (hc : ∀ cs, Competitors g m F s t cs → c ∈ cs) : A.on s t = [c.act] := by
  obtain ⟨_, k, h1, _⟩ := C33_resolution g u.wf u.start u.items _ m F h.analysed h.small A h.actions
  have hi : g.index t < g.nsymbol := by
    have := u.wf.nsym
    unfold Gram.nlow at this
    unfold Gram.index Gram.nsymbol
    rw [if_pos ht]; omega
  have h2 := h1 s hs (g.index t) hi
  rw [sym_index (.inl ht)] at h2
  rcases h2 with ⟨h2, _⟩ | ⟨c', cs', o, h2, h3, h4⟩
  · cases hc _ h2
  · have hl := hn s hs t ht _ h2
    have : cs' = [] := List.length_eq_zero_iff.mp (by simp at hl; simpa using hl)
    subst this
    have := List.mem_singleton.mp (hc _ h2)
    subst this
    simp only [settle, Option.some.injEq, Prod.mk.injEq] at h3
    rw [h4, ← h3.1]
    rfl

theorem on_shift (u : Usable g) (h : Prepared g compress m F A cs) (hn : NoConflicts g m F) {s t Y q : Nat} (ht : t < g.nterm)
    (hY : m.Trans s Y q) (hm : t ∈ g.shiftSyms Y) : A.on s t = [(.SHIFT, q)] := by
  refine on_single u h hn (c := .shift q) ((h.isAuto u).lt _ _ _ hY).1 ht ?_
  rintro cs ⟨qs, rs, rfl, e2, e3, e4⟩
  refine List.mem_append_left _ (List.mem_append_left _ (List.mem_map_of_mem ?_))
  exact e2.mem_iff.mpr (mem_shiftTargets.mpr ⟨Y, hY, hm⟩)

theorem on_reduce (u : Usable g) (h : Prepared g compress m F A cs) (hn : NoConflicts g m F) {s t r : Nat} (ht : t < g.nterm)
    (hi : m.Item s r (g.rule r).rhs.length) (hf : setFind (m.fws F s (r, (g.rule r).rhs.length)) t = true) : A.on s t = [(.REDUCE, r)] := by
  refine on_single u h hn (c := .reduce r) (item_lt u h hi).1 ht ?_
  rintro cs ⟨qs, rs, rfl, e2, e3, e4⟩
  exact List.mem_append_right _ (List.mem_map_of_mem ((e4 r).mpr ⟨hi, ht, hf⟩))

theorem follow_of_ctx (u : Usable g) (h : Prepared g compress m F A cs) {γ z : List Nat} {s r X t : Nat} (hp : Path m.Trans 0 γ s)
    (hz : Ctx g.ext (lemonInit g) γ r (g.rule r).rhs.length z) (hf : Fst g.ext z X) (ht : t ∈ g.members X) :
    setFind (m.fws F s (r, (g.rule r).rhs.length)) t = true := by
  obtain ⟨F', h1, h2⟩ := follow_iff u.wf u.items (h.analysed.ok u.wf u.items)
  have : F' = F := by
    obtain ⟨_, _, _, this⟩ := h.analysed
    rw [h1] at this
    exact Option.some.inj this
  subst this
  exact (h2 s r _ (((h.isAuto u).item_valid hp r _).mpr ⟨z, hz⟩) t).mpr ⟨γ, hp, z, hz, fst_cfg u.wf hf ht⟩

/-! ### the parser -/

/-- the state is one that always reduces, or the number of the state -/
def topNum (g : Gram) (cs : List CState) (q : Nat) : Nat :=
  match autoAt cs q with
  | some r => cs.length + g.rules.length + 3 + g.iRule r
  | none => numOf g cs q

/-- number for where the parser lands -/
def landNum (g : Gram) (cs : List CState) : AType × Nat → Nat
  | (.SHIFT, q) => numOf g cs q
  | (.SHIFTREDUCE, r) => cs.length + g.rules.length + 3 + g.iRule r
  | _ => cs.length + g.rules.length + 1

/-- the stack of the parser when that of an LR parser without compression spells `γ` -/
inductive Rel (g : Gram) (m : Mach) (A : Acts) (cs : List CState) (nx : Nat) : List (Nat × Nat) → List Nat → Prop
  | bottom (X : Nat) : Rel g m A cs nx [(0, X)] []
  | tok (X : Nat) {st : List (Nat × Nat)} {s Y q : Nat} {γ : List Nat} (h : Sim g m cs nx st s γ) (ht : m.Trans s Y q) :
      Rel g m A cs nx ((topNum g cs q, X) :: st) (γ ++ [Y])
  | nt (X : Nat) {st : List (Nat × Nat)} {s Y : Nat} {e : AType × Nat} {γ : List Nat} (h : Sim g m cs nx st s γ)
      (hY : g.nlow ≤ Y ∧ Y < g.nsym) (hl : Lands g (A.on s) (autoAt cs) Y e) : Rel g m A cs nx ((landNum g cs e, X) :: st) (γ ++ [Y])

theorem Rel.length {nx : Nat} {st : List (Nat × Nat)} {γ : List Nat} (h : Rel g m A cs nx st γ) : st.length = γ.length + 1 := by
  cases h with
  | bottom => rfl
  | tok X h => simp [h.length]
  | nt X h => simp [h.length]

/-- the state of the LR parser is on the stack unless it always reduces -/
theorem Rel.norm (u : Usable g) (h : Prepared g compress m F A cs) {st : List (Nat × Nat)} {γ : List Nat} {q : Nat}
    (hr : Rel g m A cs (nxstate cs (resortStates g cs)) st γ) (hp : Path m.Trans 0 γ q) (ha : autoAt cs q = none) :
    Sim g m cs (nxstate cs (resortStates g cs)) st q γ := by
  have auto := h.isAuto u
  have hnx : ∀ s Y, m.Trans s Y q → numOf g cs q < nxstate cs (resortStates g cs) := by
    intro s Y ht
    refine nx_of_auto ?_ ha
    rw [(order_perm g cs).mem_iff, List.mem_range, (h.states u).1]
    exact (auto.lt _ _ _ ht).2
  cases hr with
  | bottom X =>
    have := hp.nil_inv
    subst this
    exact .bottom X
  | @tok X st s Y q' γ hs ht =>
    have := auto.path_det hp (hs.path.snoc ht)
    subst this
    unfold topNum
    rw [ha]
    exact .push X hs ht (hnx _ _ ht)
  | @nt X st s Y e γ hs hY hl =>
    obtain ⟨s', h1, h2⟩ := hp.snoc_inv
    have := auto.path_det h1 hs.path
    subst this
    have hon := ((on_nt u.wf u.start u.items h.analysed h.small h.actions (auto.lt _ _ _ h2).1 hY.1 hY.2).1 q).mp h2
    cases hl with
    | accept h3 => rw [hon] at h3; cases h3
    | shift h3 => rw [hon] at h3; cases h3; exact .push X hs h2 (hnx _ _ h2)
    | reduce h3 h4 => rw [hon] at h3; cases h3; rw [ha] at h4; cases h4
    | unit h3 h4 => rw [hon] at h3; cases h3; rw [ha] at h4; cases h4

/-- if the state always reduces then the reduction is on the stack, or has been done if it is by a rule with one symbol without code -/
theorem Rel.auto (u : Usable g) (h : Prepared g compress m F A cs) {st : List (Nat × Nat)} {γ : List Nat} {q r : Nat}
    (hr : Rel g m A cs (nxstate cs (resortStates g cs)) st γ) (hp : Path m.Trans 0 γ q) (ha : autoAt cs q = some r) :
    (∃ X st', st = (cs.length + g.rules.length + 3 + g.iRule r, X) :: st' ∧ Ready g m cs (nxstate cs (resortStates g cs)) r st γ) ∨
    (g.unitRule r ∧ ∀ δ, γ = δ ++ (g.rule r).rhs → Rel g m A cs (nxstate cs (resortStates g cs)) st (δ ++ [(g.rule r).lhs])) := by
  have auto := h.isAuto u
  cases hr with
  | bottom X =>
    have := hp.nil_inv
    subst this
    obtain ⟨h1, h2, h3⟩ := auto_item u h auto.pos ha
    obtain ⟨δ, _, e, _⟩ := item_back u h (.nil 0) h1
    simp only [List.nil_eq, List.append_eq_nil_iff] at e
    exact absurd e.2 h3
  | @tok X st s Y q' γ hs ht =>
    have := auto.path_det hp (hs.path.snoc ht)
    subst this
    left
    refine ⟨X, st, ?_, ?_⟩
    · unfold topNum; rw [ha]
    · exact pend_ready u h hs ht ha
  | @nt X st s Y e γ hs hY hl =>
    obtain ⟨s', h1, h2⟩ := hp.snoc_inv
    have := auto.path_det h1 hs.path
    subst this
    have hon := ((on_nt u.wf u.start u.items h.analysed h.small h.actions (auto.lt _ _ _ h2).1 hY.1 hY.2).1 q).mp h2
    cases hl with
    | accept h3 => rw [hon] at h3; cases h3
    | shift h3 h4 => rw [hon] at h3; cases h3; rw [ha] at h4; cases h4
    | reduce h3 h4 =>
      rw [hon] at h3; cases h3; rw [ha] at h4; cases h4
      exact .inl ⟨X, st, rfl, pend_ready u h hs h2 ha⟩
    | unit h3 h4 h5 h6 =>
      rw [hon] at h3; cases h3; rw [ha] at h4; cases h4
      right
      refine ⟨h5, fun δ e => ?_⟩
      obtain ⟨x, hx⟩ := List.length_eq_one_iff.mp h5.1
      rw [hx] at e
      obtain ⟨rfl, _⟩ := List.append_inj' e rfl
      have hr := (item_lt u h (auto_item u h (auto.lt _ _ _ h2).2 ha).1).2
      exact .nt X hs (u.wf.lhs _ (rule_mem hr)) h6

/-- tracking the depth of the stack does not stop the parser -/
def NoTrack (c : PConf) : Prop := c.track = false ∨ c.ndebug = true

theorem track_some {c : PConf} (hc : NoTrack c) (idx : Nat) (p : PState) : ∃ p', track c idx p = some p' ∧ p'.stack = p.stack ∧ p'.errcnt = p.errcnt := by
  have : ∃ p', track c idx p = some p' := by
    unfold track
    split_ifs with h1 h2
    · exact ⟨_, rfl⟩
    · simp only [Bool.and_eq_true, Bool.or_eq_true, decide_eq_true_eq] at h1 h2
      rcases hc with hc | hc
      · rw [hc] at h1; simp at h1
      · exact absurd (.inl hc) h2
    · exact ⟨_, rfl⟩
  obtain ⟨p', h⟩ := this
  exact ⟨p', h, (track_spec h).1, (track_spec h).2.1⟩

section
variable (u : Usable g) (h : Generated g fb compress m F A cs T)
include u h

theorem reduce_complete (herr : ∀ r ∈ g.rules, g.errsym ≠ some r.lhs) {r : Nat} {p : PState} {δ : List Nat} (hr : r < g.rules.length)
    (hlen : (g.rule r).rhs.length ≤ 128) (hs : Ready g m cs (nxstate cs (resortStates g cs)) r p.stack (δ ++ (g.rule r).rhs)) :
    ∃ p', yyReduce T (g.iRule r) p = some p' ∧ Rel g m A cs (nxstate cs (resortStates g cs)) p'.stack (δ ++ [(g.rule r).lhs]) := by
  obtain ⟨δ', q, e, h1, h2⟩ := hs
  obtain ⟨rfl, _⟩ := List.append_inj' e rfl
  have hp := h.toPrepared
  obtain ⟨ev, k1, k2⟩ := reduce_finds u h h1 h2
  obtain ⟨⟨X0, hX0⟩, hq, _⟩ := h1.head u hp
  obtain ⟨c1, c2, c3, c4, c5, c6, c7⟩ := consts u h
  have hb := u.wf.lhs _ (rule_mem hr)
  have hne := herr _ (rule_mem hr)
  have hnt : ¬ (g.rule r).lhs < g.nterm := by have := hb.1; unfold Gram.nlow at this; omega
  obtain ⟨us, X, k3, k4, k5⟩ := lands_sound u hp hq k1 hb.1 hb.2
  have hact : actNum g cs.length (resortStates g cs) (g.rule r).lhs ev = landNum g cs ev ∧
      (landNum g cs ev < T.nx ∨ T.accAction ≤ landNum g cs ev) := by
    cases k4 with
    | accept => exact ⟨rfl, .inr (by rw [c4]; exact Nat.le_refl _)⟩
    | shift ht ha =>
      refine ⟨rfl, .inl ?_⟩
      rw [c6]
      refine nx_of_auto ?_ ha
      rw [(order_perm g cs).mem_iff, List.mem_range, (hp.states u).1]
      exact ((hp.isAuto u).lt _ _ _ ht).2
    | reduce ht ha =>
      refine ⟨?_, .inr ?_⟩
      · unfold actNum
        simp only
        rw [if_neg (by rintro (h | h); exacts [hnt h, hne h])]
        rfl
      · rw [c4]
        unfold landNum
        simp only
        omega
  unfold yyReduce
  rw [lhs_eq u h hr]
  simp only
  rw [nrhs_le u h hr hlen, if_neg (by omega), Int.neg_neg, Int.toNat_natCast, hX0]
  simp only [k2]
  rw [if_neg, hact.1]
  · exact ⟨_, rfl, .nt _ h1 hb k1⟩
  · rw [hact.1]
    simp only [Bool.or_eq_true, Bool.and_eq_true, decide_eq_true_eq]
    omega

/-- a round that reduces -/
theorem reduce_round (herr : ∀ r ∈ g.rules, g.errsym ≠ some r.lhs) {c : PConf} (hc : NoTrack c) {r t fuel : Nat} {eh : Bool} {p : PState} {δ : List Nat}
    {n X : Nat} (hr : r < g.rules.length) (hlen : (g.rule r).rhs.length ≤ 128)
    (hs : Ready g m cs (nxstate cs (resortStates g cs)) r p.stack (δ ++ (g.rule r).rhs)) (hd : ∀ d, c.depth = some d → p.stack.length < d)
    (hX : p.stack.head? = some (n, X)) (hn : T.findShift c.ndebug fuel t n = some (cs.length + g.rules.length + 3 + g.iRule r)) :
    ∃ p', parseRound T c t fuel eh p = some (.next eh p' [.reduce (g.iRule r)]) ∧
      Rel g m A cs (nxstate cs (resortStates g cs)) p'.stack (δ ++ [(g.rule r).lhs]) := by
  obtain ⟨c1, c2, c3, c4, c5, c6, c7⟩ := consts u h
  have hlt := iRule_lt u hr
  unfold parseRound
  rw [hX]
  simp only
  rw [hn]
  simp only
  have e' : cs.length + g.rules.length + 3 + g.iRule r - T.minReduce = g.iRule r := by omega
  rw [if_pos (by omega), e', if_neg (by omega)]
  have hpos : 0 < p.stack.length := by
    cases hst : p.stack with
    | nil => rw [hst] at hX; cases hX
    | cons => simp
  split_ifs with h0
  · obtain ⟨p1, j1, j2, j3⟩ := track_some hc (p.stack.length - 1) p
    rw [j1]
    simp only [Option.bind_some]
    rw [if_neg]
    · rw [← j2] at hs
      obtain ⟨p', k1, k2⟩ := reduce_complete u h herr hr hlen hs
      exact ⟨p', by rw [k1]; rfl, k2⟩
    · rw [j2]
      simp only [Option.any_eq_true, decide_eq_true_eq, not_exists, not_and]
      intro d hd'
      have := hd d hd'
      omega
  · obtain ⟨p', k1, k2⟩ := reduce_complete u h herr hr hlen hs
    exact ⟨p', by rw [k1]; rfl, k2⟩

/-- what is found if there is an action on the token -/
theorem find_hit (hfb : FallbackOK g fb) {st : List (Nat × Nat)} {s t fuel : Nat} {nd : Bool} {γ : List Nat}
    (hs : Sim g m cs (nxstate cs (resortStates g cs)) st s γ) (ht : t < g.nterm) {e : AType × Nat} (he : (cs.getD s ⟨[], none⟩).on t = [e]) :
    T.findShift nd (fuel + 1) t (numOf g cs s) = some (actNum g cs.length (resortStates g cs) t e) := by
  have hp := h.toPrepared
  obtain ⟨_, h2, h3⟩ := hs.head u hp
  obtain ⟨c1, c2, c3, c4, c5, c6, c7⟩ := consts u h
  have hl : numOf g cs s < T.shiftOfst.length := by
    refine ((C37_bounds_partial u h).2 _).mpr ⟨s, by rw [(hp.states u).1]; exact h2, Nat.le_refl _, by rw [c6]; exact h3, t, ht, ?_⟩
    rw [he]; simp
  unfold Tables.findShift
  rw [if_neg (by rw [c6]; omega), findShiftLoop_succ (h.reported u) hfb u.wild hl ht, stateAt_num u hp h2]
  unfold lastNum
  rw [he]
  rfl

/-- what is found if there is no action on the token, but a default -/
theorem find_dflt (hfb : FallbackOK g fb) (hnf : ∀ t, fb t = none) (hw : g.wildcard = none) (hrow : T.shiftOfst.length = T.nx)
    {st : List (Nat × Nat)} {s t r fuel : Nat} {nd : Bool} {γ : List Nat}
    (hs : Sim g m cs (nxstate cs (resortStates g cs)) st s γ) (ht : t < g.nterm) (he : (cs.getD s ⟨[], none⟩).on t = [])
    (hd : dfltReduce g (cs.getD s ⟨[], none⟩) = some r) :
    T.findShift nd (fuel + 1) t (numOf g cs s) = some (cs.length + g.rules.length + 3 + g.iRule r) := by
  have hp := h.toPrepared
  have R := h.reported u
  obtain ⟨_, h2, h3⟩ := hs.head u hp
  obtain ⟨c1, c2, c3, c4, c5, c6, c7⟩ := consts u h
  unfold Tables.findShift
  rw [if_neg (by rw [c6]; omega), findShiftLoop_succ R hfb u.wild (by rw [hrow, c6]; exact h3) ht, hnf t, hw, dflt_eq R h3, stateAt_num u hp h2]
  unfold lastNum
  rw [he, hd]
  rfl

/-- a round that shifts -/
theorem shift_round (hfb : FallbackOK g fb) {c : PConf} (hc : NoTrack c) {s q Y t fuel : Nat} {eh : Bool}
    {p : PState} {γ : List Nat} (hs : Sim g m cs (nxstate cs (resortStates g cs)) p.stack s γ) (ht : t < g.nterm) (hY : m.Trans s Y q)
    (hon : A.on s t = [(.SHIFT, q)]) (hd : ∀ d, c.depth = some d → p.stack.length < d) :
    ∃ p', parseRound T c t (fuel + 1) eh p = some (.stop p' [.shift t]) ∧ Rel g m A cs (nxstate cs (resortStates g cs)) p'.stack (γ ++ [Y]) := by
  have hp := h.toPrepared
  obtain ⟨c1, c2, c3, c4, c5, c6, c7⟩ := consts u h
  obtain ⟨⟨X0, hX0⟩, h2, h3⟩ := hs.head u hp
  have hcomp : (∃ r, autoAt cs q = some r ∧ (cs.getD s ⟨[], none⟩).on t = [(.SHIFTREDUCE, r)]) ∨
      (autoAt cs q = none ∧ (cs.getD s ⟨[], none⟩).on t = [(.SHIFT, q)]) := by
    have k := ((hp.states u).2 s h2).comp.shift t q ht hon
    split at k
    · rename_i r hr; exact .inl ⟨r, hr, k⟩
    · rename_i hr
      refine .inr ⟨?_, k⟩
      cases ha : autoAt cs q with
      | none => rfl
      | some r => exact absurd ha (hr r)
  have hpush : ∀ n, n < T.minShiftReduce + T.nrule → (if T.nx ≤ n then n + (T.minReduce - T.minShiftReduce) else n) = topNum g cs q →
      T.findShift c.ndebug (fuel + 1) t (numOf g cs s) = some n →
      ∃ p', parseRound T c t (fuel + 1) eh p = some (.stop p' [.shift t]) ∧ Rel g m A cs (nxstate cs (resortStates g cs)) p'.stack (γ ++ [Y]) := by
    intro n hn htop hn'
    unfold parseRound
    rw [hX0]
    simp only
    rw [hn']
    simp only
    rw [if_neg (by omega), if_pos hn]
    unfold yyShift
    obtain ⟨p1, j1, j2, j3⟩ := track_some hc p.stack.length p
    simp only [j1, Option.map_some]
    rw [if_neg, htop]
    · refine ⟨_, rfl, ?_⟩
      simp only [j2]
      exact .tok t hs hY
    · simp only [Option.any_eq_true, decide_eq_true_eq, not_exists, not_and]
      intro d hd'
      have := hd d hd'
      omega
  rcases hcomp with ⟨r, ha, hcomp⟩ | ⟨ha, hcomp⟩
  · have hfind := find_hit u h hfb (nd := c.ndebug) (fuel := fuel) hs ht hcomp
    have hr := (item_lt u hp (auto_item u hp ((hp.isAuto u).lt _ _ _ hY).2 ha).1).2
    have := iRule_lt u hr
    have e : actNum g cs.length (resortStates g cs) t (.SHIFTREDUCE, r) = cs.length + g.iRule r := by
      unfold actNum; simp only [ht, true_or, if_true]
    rw [e] at hfind
    refine hpush _ (by omega) ?_ hfind
    unfold topNum
    rw [ha, if_pos (by omega)]
    simp only
    omega
  · have hfind := find_hit u h hfb (nd := c.ndebug) (fuel := fuel) hs ht hcomp
    have hq : numOf g cs q < nxstate cs (resortStates g cs) := by
      refine nx_of_auto ?_ ha
      rw [(order_perm g cs).mem_iff, List.mem_range, (hp.states u).1]
      exact ((hp.isAuto u).lt _ _ _ hY).2
    refine hpush (numOf g cs q) (by omega) ?_ hfind
    unfold topNum
    rw [ha, if_neg (by omega)]

end

/-! ### the whole input -/

/-- the parser in the middle of a token -/
def runs (T : Tables) (c : PConf) (fuel0 fuel : Nat) (eh : Bool) (t : Nat) (ts : List Nat) (p : PState) : Option (PState × List Ev) :=
  (parseLoop T c t fuel0 eh p).bind fun x => (parseTokens T c fuel ts x.1).map fun y => (y.1, x.2 ++ y.2)

theorem parseTokens_cons {c : PConf} {fuel t : Nat} {ts : List Nat} {p : PState} :
    parseTokens T c fuel (t :: ts) p = runs T c fuel fuel false t ts p := rfl

theorem runs_next {c : PConf} {fuel0 fuel t : Nat} {eh eh' : Bool} {ts : List Nat} {p p' q : PState} {e1 e2 : List Ev}
    (h1 : parseRound T c t (fuel0 + 1) eh p = some (.next eh' p' e1)) (h2 : runs T c fuel0 fuel eh' t ts p' = some (q, e2)) :
    runs T c (fuel0 + 1) fuel eh t ts p = some (q, e1 ++ e2) := by
  unfold runs at h2 ⊢
  rw [parseLoop, h1]
  simp only
  obtain ⟨⟨p2, e3⟩, k1, k2⟩ := Option.bind_eq_some_iff.mp h2
  obtain ⟨⟨p3, e4⟩, k3, k4⟩ := Option.map_eq_some_iff.mp k2
  simp only [Prod.mk.injEq] at k4
  obtain ⟨rfl, rfl⟩ := k4
  rw [k1]
  simp only [Option.map_some, Option.bind_some]
  simp only at k3
  rw [k3]
  simp

theorem runs_stop {c : PConf} {fuel0 fuel t t' : Nat} {eh : Bool} {ts : List Nat} {p p' q : PState} {e1 e2 : List Ev}
    (h1 : parseRound T c t (fuel0 + 1) eh p = some (.stop p' e1)) (h2 : runs T c fuel fuel false t' ts p' = some (q, e2)) :
    runs T c (fuel0 + 1) fuel eh t (t' :: ts) p = some (q, e1 ++ e2) := by
  rw [← parseTokens_cons] at h2
  unfold runs
  rw [parseLoop, h1]
  simp only [Option.bind_some]
  rw [h2]
  rfl

/-- tokens shifted -/
def shifted (evs : List Ev) : List Nat := evs.filterMap fun | .shift t => some t | _ => none

/-- nothing but shifts and reductions -/
def Clean (evs : List Ev) : Prop := ∀ e ∈ evs, (∃ t, e = .shift t) ∨ ∃ r, e = .reduce r

/-- What the compression of the tables must not meet: fallbacks, a wildcard, states without a row of actions on tokens. -/
def CompressOK (g : Gram) (fb : Nat → Option Nat) (T : Tables) : Prop := (∀ t, fb t = none) ∧ g.wildcard = none ∧ T.shiftOfst.length = T.nx

theorem dflt_compress (u : Usable g) (h : Prepared g compress m F A cs) {s r : Nat} (hs : s < m.sts.length)
    (hd : dfltReduce g (cs.getD s ⟨[], none⟩) = some r) : compress = true := by
  cases hc : compress with
  | true => rfl
  | false =>
    exfalso
    have hcs := h.uncompressed hc
    have hAl := (h.states u).1
    obtain ⟨hr, _⟩ := resolved_of_findActions u.wf u.start u.items (h.analysed.ok u.wf u.items) h.small h.actions hs
    have hget : cs.getD s ⟨[], none⟩ = ⟨A.acts.getD s [], none⟩ := by
      rw [hcs] at hAl ⊢
      unfold Lemon.uncompressed at hAl ⊢
      rw [List.length_map] at hAl
      rw [List.getD_eq_getElem?_getD, List.getElem?_map, List.getD_eq_getElem?_getD, List.getElem?_eq_getElem (by omega)]
      rfl
    rw [hget] at hd
    unfold dfltReduce at hd
    rw [List.filter_eq_nil_iff.mpr] at hd
    · cases hd
    · intro a ha hc
      simp only [Bool.and_eq_true, decide_eq_true_eq] at hc
      have := (hr.sp a ha).2
      omega

theorem simulate (u : Usable g) (h : Generated g fb compress m F A cs T) (hfb : FallbackOK g fb) (hcok : compress = true → CompressOK g fb T)
    (herr : ∀ r ∈ g.rules, g.errsym ≠ some r.lhs) (hlen : ∀ r ∈ g.rules, r.rhs.length ≤ 128)
    (hn : NoConflicts g m F) {rs : List Nat} {a b : List Nat × List Nat} (hl : Lic g.ext (lemonInit g) rs a b) (hb : b = ([g.start], [0])) :
    ∃ N, ∀ (c : PConf) (fuel0 fuel : Nat) (eh : Bool) (p : PState) (t : Nat) (ts : List Nat), NoTrack c → (∀ d, c.depth = some d → N ≤ d) →
      N ≤ fuel0 → N ≤ fuel → Rel g m A cs (nxstate cs (resortStates g cs)) p.stack a.1 →
      List.Forall₂ (fun t Y => t < g.nterm ∧ t ∈ g.members Y) (t :: ts) a.2 →
      ∃ q es, runs T c fuel0 fuel eh t ts p = some (q, es ++ [.accept]) ∧ Clean es ∧ shifted es = (t :: ts).dropLast := by
  have hp := h.toPrepared
  have auto := hp.isAuto u
  obtain ⟨c1, c2, c3, c4, c5, c6, c7⟩ := consts u h
  induction hl with
  | refl a =>
    subst hb
    refine ⟨1, ?_⟩
    intro c fuel0 fuel eh p t ts hc hd hf0 hf hr hts
    simp only at hr hts
    cases hts with
    | @cons _ _ _ _ h1 h2 =>
    cases h2
    obtain ⟨fuel0, rfl⟩ := Nat.exists_eq_add_of_le' hf0
    generalize hst : p.stack = st at hr
    generalize hγ : [g.start] = γ at hr
    have hround : ∀ X b, st = [(cs.length + g.rules.length + 1, X), b] →
        parseRound T c t (fuel0 + 1) eh p = some (.stop { p with stack := [b], errcnt := -1 } [.accept]) := by
      intro X b e
      unfold parseRound
      rw [hst, e]
      simp only [List.head?_cons]
      unfold Tables.findShift
      rw [if_pos (by omega)]
      simp only
      rw [if_neg (by omega), if_neg (by omega), if_pos (by omega)]
    have hnt : ∀ s Y q, m.Trans s Y q → Y ≠ g.start := by
      intro s Y q ht hY
      subst hY
      obtain ⟨_, r, d, _, A', α, k1, k2⟩ := (auto.ex s _ (auto.lt _ _ _ ht).1).mp ⟨q, ht⟩
      obtain ⟨k3, _, k4⟩ := ext_rule.mp k1
      refine u.noRhs _ (rule_mem k3) ?_
      rw [k4]
      exact List.mem_of_getElem? k2
    cases hr with
    | bottom => cases hγ
    | @tok X st' s Y q γ hs ht =>
      obtain ⟨_, e2⟩ := List.append_inj' (s₁ := []) hγ rfl
      simp only [List.cons.injEq, and_true] at e2
      exact absurd e2.symm (hnt _ _ _ ht)
    | @nt X st' s Y e γ hs hY hl =>
      obtain ⟨e1, e2⟩ := List.append_inj' (s₁ := []) hγ rfl
      simp only [List.cons.injEq, and_true] at e2
      subst e1 e2
      have hs0 := hs.path.nil_inv
      subst hs0
      have hon := (on_nt u.wf u.start u.items h.analysed h.small h.actions auto.pos u.start.1 u.start.2).2.mp ⟨rfl, rfl⟩
      have hland : e = (.ACCEPT, 0) := by
        cases hl with
        | accept => rfl
        | shift h3 => rw [hon] at h3; cases h3
        | reduce h3 => rw [hon] at h3; cases h3
        | unit h3 => rw [hon] at h3; cases h3
      subst hland
      obtain ⟨b, hb⟩ := List.length_eq_one_iff.mp hs.length
      subst hb
      refine ⟨{ p with stack := [b], errcnt := -1 }, [], ?_, (by intro e he; cases he), rfl⟩
      unfold runs
      rw [parseLoop, hround X b rfl]
      rfl
  | @shift rs γ v z α r d A' Y b' hz hr hY hlt hl ih =>
    obtain ⟨N, ih⟩ := ih hb
    refine ⟨max N (γ.length + 3), ?_⟩
    intro c fuel0 fuel eh p t ts hc hd hf0 hf hR hts
    simp only at hR hts
    have hN : N ≤ max N (γ.length + 3) := Nat.le_max_left _ _
    have hN' : γ.length + 3 ≤ max N (γ.length + 3) := Nat.le_max_right _ _
    cases hts with
    | @cons _ _ _ _ h1 h2 =>
    obtain ⟨s, hs, hi⟩ := auto.path_of_valid hz (by intros; trivial)
    have hsl := auto.path_lt auto.pos hs
    obtain ⟨q, hq⟩ := (auto.ex s Y hsl).mpr ⟨trivial, r, d, hi, A', α, hr, hY⟩
    have hm : t ∈ g.shiftSyms Y := by
      have hY' : Y < g.nlow := hlt
      have := h1.2
      unfold Gram.members at this
      unfold Gram.shiftSyms
      unfold Gram.isMT
      split_ifs at this with h0
      · have := List.mem_singleton.mp this
        subst this
        rw [if_neg (by simp; omega)]
        exact List.mem_singleton_self _
      · rw [if_pos (by simp; omega)]
        exact this
    have hon := on_shift u hp hn h1.1 hq hm
    have ha : autoAt cs s = none := by
      cases ha : autoAt cs s with
      | none => rfl
      | some r' =>
        obtain ⟨_, k2⟩ := (((hp.states u).2 s hsl).comp.auto r').mp ha
        exact absurd rfl (k2 t (.SHIFT, q) (by rw [hon]; exact List.mem_singleton_self _)).1
    have hsim := hR.norm u hp hs ha
    have hlenp := hsim.length
    obtain ⟨fuel1, rfl⟩ := Nat.exists_eq_add_of_le' (Nat.le_trans (by omega : 1 ≤ max N (γ.length + 3)) hf0)
    obtain ⟨p', k1, k2⟩ := shift_round u h hfb hc (eh := eh) (fuel := fuel1) hsim h1.1 hq hon
      (by intro d hd'; have := hd d hd'; omega)
    cases ts with
    | nil =>
      cases h2
      have := hl.nil_end
      rw [hb] at this
      simp at this
    | cons t' ts =>
      obtain ⟨q', es, j1, j2, j3⟩ := ih c fuel fuel false p' t' ts hc (fun d hd' => Nat.le_trans hN (hd d hd')) (by omega) (by omega) k2 h2
      refine ⟨q', .shift t :: es, ?_, ?_, ?_⟩
      · simpa using runs_stop k1 j1
      · intro e he
        rcases List.mem_cons.mp he with rfl | he
        · exact .inl ⟨t, rfl⟩
        · exact j2 e he
      · show t :: shifted es = _
        rw [j3]
        rfl
  | @reduce rs δ v z α r A' Y b' hz hr hf' hl ih =>
    obtain ⟨N, ih⟩ := ih hb
    refine ⟨max (N + 1) ((δ ++ α).length + 3), ?_⟩
    intro c fuel0 fuel eh p t ts hc hd hf0 hf hR hts
    simp only at hR hts
    have hN : N + 1 ≤ max (N + 1) ((δ ++ α).length + 3) := Nat.le_max_left _ _
    have hN' : (δ ++ α).length + 3 ≤ max (N + 1) ((δ ++ α).length + 3) := Nat.le_max_right _ _
    obtain ⟨hrl, e1, e2⟩ := ext_rule.mp hr
    subst e1 e2
    obtain ⟨s, hs, hi⟩ := auto.path_of_valid hz (by intros; trivial)
    have hsl := auto.path_lt auto.pos hs
    have hts' := hts
    cases hts with
    | @cons _ _ _ _ h1 h2 =>
    have hfol := follow_of_ctx u hp hs hz hf' h1.2
    have hon := on_reduce u hp hn h1.1 hi hfol
    have hRl := hR.length
    have hfin : ∀ n X, p.stack.head? = some (n, X) → (∀ fuel, 2 ≤ fuel → T.findShift c.ndebug fuel t n = some (cs.length + g.rules.length + 3 + g.iRule r)) →
        Ready g m cs (nxstate cs (resortStates g cs)) r p.stack (δ ++ (g.rule r).rhs) →
        ∃ q es, runs T c fuel0 fuel eh t ts p = some (q, es ++ [.accept]) ∧ Clean es ∧ shifted es = (t :: ts).dropLast := by
      intro n X hX hfn hrd
      obtain ⟨fuel1, rfl⟩ := Nat.exists_eq_add_of_le' (Nat.le_trans (by omega : 1 ≤ max (N + 1) ((δ ++ (g.rule r).rhs).length + 3)) hf0)
      obtain ⟨p', k1, k2⟩ := reduce_round u h herr hc (eh := eh) (fuel := fuel1 + 1) (t := t) hrl (hlen _ (rule_mem hrl)) hrd
        (by intro d hd'; have := hd d hd'; omega) hX (hfn _ (by omega))
      obtain ⟨q', es, j1, j2, j3⟩ := ih c fuel1 fuel eh p' t ts hc (fun d hd' => by have := hd d hd'; omega) (by omega) (by omega) k2 hts'
      refine ⟨q', .reduce (g.iRule r) :: es, ?_, ?_, ?_⟩
      · simpa using runs_next k1 j1
      · intro e he
        rcases List.mem_cons.mp he with rfl | he
        · exact .inr ⟨_, rfl⟩
        · exact j2 e he
      · exact j3
    cases ha : autoAt cs s with
    | none =>
      have hsim := hR.norm u hp hs ha
      obtain ⟨⟨X0, hX0⟩, _, _⟩ := hsim.head u hp
      refine hfin _ _ hX0 ?_ (hsim.back u hp hi)
      intro fuel hfu
      obtain ⟨fuel2, rfl⟩ := Nat.exists_eq_add_of_le' hfu
      rcases ((hp.states u).2 s hsl).comp.reduce t r hon with ⟨k1, k2⟩ | ⟨k1, k2⟩
      · obtain ⟨j1, j2, j3⟩ := hcok (dflt_compress u hp hsl k1)
        exact find_dflt u h hfb j1 j2 j3 hsim h1.1 k2 k1
      · exact find_hit u h hfb hsim h1.1 k2
    | some r' =>
      have hrr : r' = r := by
        obtain ⟨_, k2⟩ := (((hp.states u).2 s hsl).comp.auto r').mp ha
        exact ((k2 t (.REDUCE, r) (by rw [hon]; exact List.mem_singleton_self _)).2 rfl).symm
      subst hrr
      rcases hR.auto u hp hs ha with ⟨X, st', k1, k2⟩ | ⟨_, k2⟩
      · refine hfin (cs.length + g.rules.length + 3 + g.iRule r') X (by rw [k1]; rfl) ?_ k2
        intro fuel _
        unfold Tables.findShift
        rw [if_pos (by omega)]
      · exact ih c fuel0 fuel eh p t ts hc (fun d hd' => by have := hd d hd'; omega) (by omega) (by omega) (k2 δ rfl) hts'

end Verif.Lemon
