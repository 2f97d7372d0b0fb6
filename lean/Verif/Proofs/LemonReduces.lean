import Verif.Lemon.Main
import Verif.Proofs.LemonTypes
import Verif.Proofs.LemonSim
/-
The rules that the generated parser reduces by are among those that occur in the states.
-/
set_option autoImplicit false
namespace Verif.Lemon

variable {g : Gram} {fb : Nat → Option Nat} {compress : Bool} {m : Mach} {F : List TSet} {A : Acts} {cs : List CState} {T : Tables}

/-- the default of a state is a reduction -/
theorem dflt_act (u : Usable g) (h : Prepared g compress m F A cs) {s r : Nat} (hs : s < m.sts.length)
    (hd : dfltReduce g (cs.getD s ⟨[], none⟩) = some r) : ∃ a ∈ (cs.getD s ⟨[], none⟩).acts, a.type = .REDUCE ∧ a.x = r := by
  have k := (h.states u).2 s hs
  rw [dflt_onSym u.wf (fun a ha => (k.sp a ha).elim (fun h => .inr h.2) .inl)] at hd
  obtain ⟨⟨ty, x⟩, h1, rfl⟩ := Option.map_eq_some_iff.mp hd
  have h1 := List.mem_of_getLast? h1
  obtain ⟨a, ha, h2, h3, h4⟩ := mem_onSym.mp h1
  simp only [Prod.mk.injEq] at h4
  refine ⟨a, ha, ?_, h4.2⟩
  have hok := h.analysed.ok u.wf u.items
  obtain ⟨hr, _⟩ := resolved_of_findActions u.wf u.start u.items hok h.small h.actions hs
  have hspec := findActions_spec u.wf u.start u.items (precsyms g) (F := F) hok h.small
  rw [h.actions] at hspec
  have hAl : A.acts.length = m.sts.length := hspec.1
  cases hc : compress with
  | true =>
    obtain ⟨fuel, hf⟩ := h.compressed hc
    obtain ⟨_, k1, _⟩ := compressTables_get hf (s := s) (by rw [hAl]; exact hs)
    obtain ⟨j1, _⟩ := elideAll_spec u.wf k1
    have hsp : ∀ a ∈ (compressState g (A.acts.getD s [])).acts, a.sp = g.nsym → a.type = .REDUCE := by
      intro a ha he
      rcases compressState_spec u.wf hr with ⟨_, e, _⟩ | ⟨r, _, _, _, _, _, _, _, _, e, _, _⟩
      · rw [e] at ha; exact absurd he (hr.ne_nsym u.wf a ha)
      · rcases e a ha with h1 | ⟨b, hb, h1⟩
        · exact h1.2
        · exact absurd (h1.symm.trans he) (hr.ne_nsym u.wf b hb)
    rw [elided_ty j1] at h1
    · obtain ⟨b, hb, _, h6, h7⟩ := mem_onSym.mp h1
      obtain ⟨c, hc, rfl⟩ := List.mem_map.mp hb
      rw [shiftReduce_sp] at h6
      have := hsp c hc h6
      simp only [Prod.mk.injEq] at h7
      rw [h4.1, ← h7.1]
      unfold shiftReduce
      simp [this]
    · intro b hb he
      obtain ⟨c, hc, rfl⟩ := List.mem_map.mp hb
      rw [shiftReduce_sp] at he
      have := hsp c hc he
      unfold shiftReduce
      simp [this]
  | false =>
    have hcs := h.uncompressed hc
    rw [hcs] at ha
    unfold Lemon.uncompressed at ha
    rw [List.getD_eq_getElem?_getD, List.getElem?_map, List.getElem?_eq_getElem (by omega)] at ha
    have := hr.ne_nsym u.wf a (by rw [List.getD_eq_getElem?_getD, List.getElem?_eq_getElem (by omega)]; exact ha)
    exact absurd h3 this

/-- `n` is the number of a rule by which a state with a row in the tables reduces -/
def RedNum (g : Gram) (cs : List CState) (n : Nat) : Prop :=
  ∃ r < g.rules.length, doesReduce cs (resortStates g cs) (nxstate cs (resortStates g cs)) r = true ∧ n = g.iRule r

/-- reductions of a table entry are by rules that occur in the states -/
structure EntryOK (g : Gram) (cs : List CState) (T : Tables) (v : Nat) : Prop where
  low : v < T.nx ∨ T.minShiftReduce ≤ v
  red : T.minReduce ≤ v → RedNum g cs (v - T.minReduce)
  sred : T.minShiftReduce ≤ v → v < T.minShiftReduce + T.nrule → RedNum g cs (v - T.minShiftReduce)

theorem doesReduce_of {i r : Nat} {a : Act} (hi : i < nxstate cs (resortStates g cs)) (ha : a ∈ (stateAt cs (resortStates g cs) i).acts)
    (ht : a.type = .REDUCE ∨ a.type = .SHIFTREDUCE) (hx : a.x = r) : doesReduce cs (resortStates g cs) (nxstate cs (resortStates g cs)) r = true := by
  unfold doesReduce
  rw [List.any_eq_true]
  refine ⟨i, List.mem_range.2 hi, List.any_eq_true.2 ⟨a, ha, ?_⟩⟩
  rcases ht with ht | ht <;> simp [ht, hx]

/-- the arguments of actions are states and rules -/
theorem act_range (u : Usable g) (h : Prepared g compress m F A cs) {s X : Nat} (hs : s < m.sts.length) (hX : X < g.nsym) {e : AType × Nat}
    (he : e ∈ (cs.getD s ⟨[], none⟩).on X) : (e.1 = .SHIFT → e.2 < cs.length ∧ autoAt cs e.2 = none) ∧ (e.1 = .REDUCE ∨ e.1 = .SHIFTREDUCE → e.2 < g.rules.length) := by
  have k := (h.states u).2 s hs
  have hlen := (h.states u).1
  have htr : ∀ {Y q}, m.Trans s Y q → q < m.sts.length := by
    intro Y q ht
    obtain ⟨γ, hγ⟩ := (h.isAuto u).path_to s hs
    exact (h.isAuto u).path_lt (h.isAuto u).pos (.snoc hγ ht)
  by_cases hl : X < g.nterm
  · cases tok_act u h hs hl he with
    | shift ht _ ha => exact ⟨fun _ => ⟨by rw [hlen]; exact htr ht, ha⟩, by simp⟩
    | shred ht _ ha => exact ⟨by simp, fun _ => (item_lt u h (auto_item u h (htr ht) ha).1).2⟩
    | reduce hi _ => exact ⟨by simp, fun _ => (item_lt u h hi).2⟩
    | error => exact ⟨by simp, by simp⟩
  · by_cases hn : g.nlow ≤ X
    · by_cases h0 : A.on s X = []
      · rw [k.comp.none X hX h0] at he; cases he
      · obtain ⟨e', he', hL⟩ := k.comp.goto X hn hX h0
        rw [he', List.mem_singleton] at he
        subst he
        obtain ⟨_, _, _, hL, _⟩ := lands_sound u h hs hL hn hX
        cases hL with
        | accept => exact ⟨by simp, by simp⟩
        | shift ht ha => exact ⟨fun _ => ⟨by rw [hlen]; exact htr ht, ha⟩, by simp⟩
        | reduce ht ha => exact ⟨by simp, fun _ => (item_lt u h (auto_item u h (htr ht) ha).1).2⟩
    · by_cases h0 : A.on s X = []
      · rw [k.comp.none X hX h0] at he; cases he
      · have := (on_sym u.wf u.start u.items h.analysed h.small h.actions hs h0).1
        unfold Gram.plain at this
        omega

theorem entryOK_act (u : Usable g) (h : Generated g fb compress m F A cs T) {i : Nat} (hi : i < nxstate cs (resortStates g cs)) {a : Act}
    (ha : a ∈ (stateAt cs (resortStates g cs) i).acts) (hlive : a.type.live = true) (hX : a.sp < g.nsym) :
    EntryOK g cs T (actNum g cs.length (resortStates g cs) a.sp (a.type, a.x)) := by
  have R := h.reported u
  have hp := h.toPrepared
  have hmin : T.minReduce = cs.length + g.rules.length + 3 := by
    unfold Tables.minReduce Tables.noAction Tables.accAction Tables.errAction
    rw [R.msr, R.nrule]
  have hil : i < cs.length := by have := hp.nx_le u; rw [(hp.states u).1]; omega
  obtain ⟨s, _, h2, h3, _⟩ := order_get (g := g) (cs := cs) hil
  have hm : (a.type, a.x) ∈ (cs.getD s ⟨[], none⟩).on a.sp := by
    refine mem_onSym.mpr ⟨a, ?_, hlive, rfl, rfl⟩
    unfold stateAt at ha
    rw [h2] at ha
    exact ha
  obtain ⟨r1, r2⟩ := act_range u hp (by rw [← (hp.states u).1]; exact h3) hX hm
  have hred : a.type = .REDUCE ∨ a.type = .SHIFTREDUCE → a.x < g.rules.length ∧ RedNum g cs (g.iRule a.x) := fun ht =>
    ⟨r2 ht, a.x, r2 ht, doesReduce_of hi ha ht rfl, rfl⟩
  cases ht : a.type with
  | SHIFT =>
    obtain ⟨h5, h6⟩ := r1 ht
    simp only at h5 h6
    have h7 := (order_idx (g := g) h5).2
    have h8 := nx_of_auto (order := resortStates g cs) ((order_perm g cs).mem_iff.mpr (List.mem_range.mpr h5)) h6
    refine ⟨?_, fun hh => ?_, fun hh _ => ?_⟩
    · rw [R.nxs]; exact .inl h8
    · simp only [actNum] at hh; omega
    · simp only [actNum, R.msr] at hh; omega
  | REDUCE =>
    obtain ⟨h5, h6⟩ := hred (.inl ht)
    refine ⟨.inr (by simp only [actNum, R.msr]; omega), fun hh => ?_, fun hh hh' => ?_⟩
    · simp only [actNum]; rw [hmin, Nat.add_sub_cancel_left]; exact h6
    · simp only [actNum, R.msr, R.nrule] at hh'; omega
  | SHIFTREDUCE =>
    obtain ⟨h5, h6⟩ := hred (.inr ht)
    have hlt := iRule_lt u h5
    refine ⟨.inr (by simp only [actNum, R.msr]; split_ifs <;> omega), fun hh => ?_, fun hh hh' => ?_⟩
    · simp only [actNum] at hh ⊢
      split_ifs at hh ⊢
      · omega
      · rw [hmin, Nat.add_sub_cancel_left]; exact h6
    · simp only [actNum] at hh hh' ⊢
      rw [R.msr, R.nrule] at hh'
      split_ifs at hh hh' ⊢
      · rw [R.msr, Nat.add_sub_cancel_left]; exact h6
      · omega
  | _ => refine ⟨.inr ?_, fun hh => ?_, fun hh hh' => ?_⟩ <;> simp only [actNum, R.msr, R.nrule] at * <;> omega

/-- all entries of the tables -/
theorem entries_ok (u : Usable g) (h : Generated g fb compress m F A cs T) : (∀ v ∈ T.action, EntryOK g cs T v) ∧ ∀ v ∈ T.dflt, EntryOK g cs T v := by
  have R := h.reported u
  have hp := h.toPrepared
  have hok := hp.rowsOK u
  have hmin : T.minReduce = cs.length + g.rules.length + 3 := by
    unfold Tables.minReduce Tables.noAction Tables.accAction Tables.errAction
    rw [R.msr, R.nrule]
  have hnone : ∀ v, cs.length + g.rules.length ≤ v → v < cs.length + g.rules.length + 3 → EntryOK g cs T v := by
    intro v h1 h2
    refine ⟨.inr (by rw [R.msr]; omega), fun hh => ?_, fun hh hh' => ?_⟩
    · omega
    · rw [R.msr, R.nrule] at hh'; omega
  have ht := h.tables
  unfold report at ht
  simp only at ht
  obtain ⟨⟨p, os⟩, h1, h2⟩ := Option.bind_eq_some_iff.mp ht
  simp only at h2
  obtain ⟨n, hn, hT⟩ := Option.map_eq_some_iff.mp h2
  constructor
  · intro v hv
    rw [← hT] at hv
    simp only at hv
    obtain ⟨j, _, rfl⟩ := List.mem_map.mp hv
    cases hs : p.slot j with
    | none =>
      refine hnone _ ?_ ?_
      · show _ ≤ noAction g cs
        unfold noAction accAction errAction minShiftReduce; omega
      · show noAction g cs < _
        unfold noAction accAction errAction minShiftReduce; omega
    | some e =>
      show EntryOK g cs T e.2
      rcases insertAll_mem _ _ _ _ h1 e (slot_mem hs) with ⟨op, h3, h4⟩ | h3
      · obtain ⟨k, hk, rfl⟩ := List.mem_map.mp h3
        have hk' := (mem_axSets.mp hk).1
        have hi : k / 2 < nxstate cs (resortStates g cs) := by omega
        have hrow := hok (k / 2) hi
        unfold axOp at h4
        simp only at h4
        split_ifs at h4 with hpar
        · simp only at h4
          rw [tokenSet_eq u.wf u.err hrow] at h4
          obtain ⟨a, ha, rfl⟩ := List.mem_map.mp h4
          obtain ⟨ha, hl⟩ := List.mem_filter.mp ha
          simp only [Bool.and_eq_true, decide_eq_true_eq] at hl
          refine entryOK_act u h hi ha hl.1 ?_
          have := u.wf.nsym
          unfold Gram.nlow at this
          omega
        · simp only at h4
          rw [ntSet_eq u.wf u.err hrow] at h4
          obtain ⟨a, ha, rfl⟩ := List.mem_map.mp h4
          obtain ⟨ha, hl⟩ := List.mem_filter.mp ha
          simp only [Bool.and_eq_true, decide_eq_true_eq] at hl
          exact entryOK_act u h hi ha hl.1 hl.2.2
      · exact absurd h3 (by simp [Acttab.empty])
  · intro v hv
    rw [← hT] at hv
    simp only at hv
    obtain ⟨j, hj, rfl⟩ := List.mem_map.mp hv
    have hj : j < nxstate cs (resortStates g cs) := List.mem_range.1 hj
    have hil : j < cs.length := by have := hp.nx_le u; rw [(hp.states u).1]; omega
    obtain ⟨s, _, h2, h3, _⟩ := order_get (g := g) (cs := cs) hil
    have hs : s < m.sts.length := by rw [← (hp.states u).1]; exact h3
    have hst : stateAt cs (resortStates g cs) j = cs.getD s ⟨[], none⟩ := by unfold stateAt; rw [h2]
    cases hd : dfltReduce g (stateAt cs (resortStates g cs) j) with
    | none =>
      show EntryOK g cs T (errAction g cs)
      refine hnone _ ?_ ?_ <;> unfold errAction minShiftReduce <;> omega
    | some r =>
      show EntryOK g cs T (minReduce g cs + g.iRule r)
      have hmr : minReduce g cs = cs.length + g.rules.length + 3 := rfl
      rw [hst] at hd
      obtain ⟨a, ha, ht, hx⟩ := dflt_act u hp hs hd
      have hr := (item_lt u hp (dflt_item u hp hs hd).1).2
      refine ⟨.inr (by rw [R.msr, hmr]; omega), fun hh => ?_, fun hh hh' => ?_⟩
      · rw [hmin, hmr, Nat.add_sub_cancel_left]
        exact ⟨r, hr, doesReduce_of hj (by rw [hst]; exact ha) (.inl ht) hx, rfl⟩
      · rw [R.msr, R.nrule] at hh'; omega

/-! ### the parser -/

/-- the states on the stack -/
def StackOK (g : Gram) (cs : List CState) (T : Tables) (st : List (Nat × Nat)) : Prop :=
  ∀ e ∈ st, (e.1 < T.nx ∨ T.minShiftReduce + T.nrule ≤ e.1) ∧ (T.minReduce ≤ e.1 → RedNum g cs (e.1 - T.minReduce))

theorem findShiftLoop_mem {T : Tables} {nd : Bool} {s : Nat} : ∀ {fuel la v : Nat}, T.findShiftLoop nd s fuel la = some v → v ∈ T.action ∨ v ∈ T.dflt := by
  intro fuel
  induction fuel with
  | zero => intro la v h; cases h
  | succ fuel ih =>
    intro la v h
    simp only [Tables.findShiftLoop] at h
    split at h
    · cases h
    split_ifs at h
    split at h
    · cases h
    split_ifs at h
    · exact .inl (List.mem_of_getElem? h)
    split at h
    · cases h
    · split_ifs at h
      exact ih h
    · split at h
      · exact .inr (List.mem_of_getElem? h)
      · split at h
        · cases h
        split_ifs at h
        · exact .inl (List.mem_of_getElem? h)
        · exact .inr (List.mem_of_getElem? h)

theorem findReduce_mem {T : Tables} {s la v : Nat} (h : T.findReduce s la = some v) : v ∈ T.action ∨ v ∈ T.dflt := by
  unfold Tables.findReduce at h
  split at h
  · split at h
    · exact .inr (List.mem_of_getElem? h)
    · simp only at h
      split_ifs at h
      · exact .inr (List.mem_of_getElem? h)
      · exact .inl (List.mem_of_getElem? h)
  · split at h
    · cases h
    · simp only at h
      split_ifs at h
      exact .inl (List.mem_of_getElem? h)

variable {p p' : PState} {c : PConf}

theorem popAll_stack (st : List (Nat × Nat)) : ∀ e ∈ (popAll st).1, e ∈ st := fun e he => List.mem_of_mem_drop he

theorem popAll_red (st : List (Nat × Nat)) (n : Nat) : Ev.reduce n ∉ (popAll st).2 := by
  unfold popAll
  intro h
  obtain ⟨e, _, he⟩ := List.mem_map.mp h
  cases he

theorem track_stack {i : Nat} (h : track c i p = some p') : p'.stack = p.stack := by
  unfold track at h
  split_ifs at h <;> cases h <;> rfl

theorem minReduce_ge (T : Tables) : T.minReduce = T.minShiftReduce + T.nrule + 3 := rfl

theorem yyShift_ok (hnx : T.nx ≤ T.minShiftReduce) (hs : StackOK g cs T p.stack) {v : Nat} (hv : EntryOK g cs T v) (hlt : v < T.minShiftReduce + T.nrule) {M : Nat} {evs : List Ev}
    (h : yyShift T c v M p = some (p', evs)) : StackOK g cs T p'.stack ∧ ∀ n, .reduce n ∉ evs := by
  unfold yyShift at h
  simp only at h
  obtain ⟨p1, h1, h2⟩ := Option.map_eq_some_iff.mp h
  have e1 := track_stack h1
  by_cases h3 : (c.depth.any fun d => decide (p.stack.length > d - 1)) = true
  · rw [if_pos h3] at h2
    cases h2
    refine ⟨fun e he => hs e (by rw [← e1]; exact popAll_stack _ e he), fun n hn => ?_⟩
    rcases List.mem_append.1 hn with hn | hn
    · exact popAll_red _ _ hn
    · simp at hn
  · rw [if_neg h3] at h2
    cases h2
    refine ⟨fun e he => ?_, by simp⟩
    rcases List.mem_cons.1 he with rfl | he
    · have hm := minReduce_ge T
      have hl := hv.low
      simp only
      split_ifs with h4
      · refine ⟨by omega, fun _ => ?_⟩
        rw [show v + (T.minReduce - T.minShiftReduce) - T.minReduce = v - T.minShiftReduce by omega]
        exact hv.sred (by omega) hlt
      · exact ⟨by omega, fun _ => by omega⟩
    · exact hs e (by rw [← e1]; exact he)

theorem yyReduce_ok (ha : ∀ v, v ∈ T.action ∨ v ∈ T.dflt → EntryOK g cs T v) (hs : StackOK g cs T p.stack) {r : Nat} (h : yyReduce T r p = some p') : StackOK g cs T p'.stack := by
  unfold yyReduce at h
  split at h
  · cases h
  simp only at h
  split_ifs at h
  split at h
  · cases h
  split at h
  · cases h
  rename_i act hact
  split_ifs at h with h1
  cases h
  intro e he
  rcases List.mem_cons.1 he with rfl | he
  · refine ⟨?_, (ha _ (findReduce_mem hact)).red⟩
    simp only [Bool.or_eq_true, Bool.and_eq_true, decide_eq_true_eq, not_or, not_and] at h1
    simp only
    omega
  · exact hs e (List.mem_of_mem_drop he)

theorem popToError_ok (ha : ∀ v, v ∈ T.action ∨ v ∈ T.dflt → EntryOK g cs T v) {E : Nat} : ∀ (st : List (Nat × Nat)) (v : Nat) (st' : List (Nat × Nat)) (v' : Nat) (evs : List Ev),
    popToError T E st v = some (st', v', evs) → (∀ e ∈ st', e ∈ st) ∧ (∀ n, .reduce n ∉ evs) ∧ (st'.length ≤ 1 ∨ (EntryOK g cs T v' ∧ v' < T.minShiftReduce + T.nrule)) := by
  intro st
  induction st with
  | nil => intro v st' v' evs h; cases h
  | cons e st ih =>
    intro v st' v' evs h
    cases st with
    | nil =>
      cases h
      exact ⟨fun _ h => h, by simp, .inl (Nat.le_refl _)⟩
    | cons e2 st =>
      simp only [popToError] at h
      split at h
      · cases h
      rename_i act hact
      split_ifs at h with hlt
      · cases h
        exact ⟨fun _ h => h, by simp, .inr ⟨ha _ (findReduce_mem hact), hlt⟩⟩
      · obtain ⟨⟨x1, x2, x3⟩, h1, h2⟩ := Option.map_eq_some_iff.mp h
        cases h2
        obtain ⟨k1, k2, k3⟩ := ih _ _ _ _ h1
        refine ⟨fun e he => List.mem_cons_of_mem _ (k1 e he), fun n hn => ?_, k3⟩
        rcases List.mem_cons.1 hn with hn | hn
        · cases hn
        · exact k2 n hn

theorem onError_ok (hnx : T.nx ≤ T.minShiftReduce) (ha : ∀ v, v ∈ T.action ∨ v ∈ T.dflt → EntryOK g cs T v) (hs : StackOK g cs T p.stack) {M : Nat} {hit b : Bool} {evs : List Ev}
    (h : onError T c M hit p = some (p', evs, b)) : StackOK g cs T p'.stack ∧ ∀ n, .reduce n ∉ evs := by
  unfold onError at h
  split at h
  · rename_i E _
    simp only at h
    have hev : ∀ n, Ev.reduce n ∉ (if p.errcnt < 0 then [Ev.syntaxError M] else []) := by intro n; split_ifs <;> simp
    generalize (if p.errcnt < 0 then [Ev.syntaxError M] else []) = ev at h hev
    split at h
    · cases h
    split_ifs at h with h1
    · cases h
      exact ⟨hs, by simp [hev]⟩
    · split at h
      · cases h
      rename_i st act pops hp
      obtain ⟨k1, k2, k3⟩ := popToError_ok ha _ _ _ _ _ hp
      split_ifs at h with h2
      · cases h
        refine ⟨fun e he => hs e (k1 e (popAll_stack _ e he)), ?_⟩
        intro n
        simp [hev, k2, parseFailed, popAll_red]
      · obtain ⟨⟨q, evs'⟩, h3, h4⟩ := Option.map_eq_some_iff.mp h
        cases h4
        simp only [Bool.or_eq_true, decide_eq_true_eq, not_or] at h2
        rcases k3 with k3 | ⟨k3, k4⟩
        · exact absurd k3 h2.1
        · obtain ⟨j1, j2⟩ := yyShift_ok (p := { p with stack := st }) hnx (fun e he => hs e (k1 e he)) k3 k4 h3
          exact ⟨j1, fun n => by simp [hev, k2, j2]⟩
  · by_cases h1 : c.noRecovery = true
    · rw [if_pos h1] at h
      cases h; exact ⟨hs, by simp⟩
    · rw [if_neg h1] at h
      simp only at h
      have hev : ∀ n, Ev.reduce n ∉ (if p.errcnt ≤ 0 then [Ev.syntaxError M] else []) := by intro n; split_ifs <;> simp
      generalize (if p.errcnt ≤ 0 then [Ev.syntaxError M] else []) = ev at h hev
      split_ifs at h
      · cases h
        exact ⟨fun e he => hs e (popAll_stack _ e he), fun n => by simp [hev, parseFailed, popAll_red]⟩
      · cases h
        exact ⟨hs, fun n => by simp [hev]⟩

theorem parseRound_ok (hnx : T.nx ≤ T.minShiftReduce) (ha : ∀ v, v ∈ T.action ∨ v ∈ T.dflt → EntryOK g cs T v) (hs : StackOK g cs T p.stack) {M fuel : Nat} {hit : Bool} {R : Round}
    (h : parseRound T c M fuel hit p = some R) : StackOK g cs T R.state.stack ∧ ∀ n, .reduce n ∈ R.evs → RedNum g cs n := by
  unfold parseRound at h
  split at h
  · cases h
  rename_i top htop
  split at h
  · cases h
  rename_i act hact
  have hm := minReduce_ge T
  have hact' : (T.minReduce ≤ act → RedNum g cs (act - T.minReduce)) ∧ (act < T.minShiftReduce + T.nrule → EntryOK g cs T act) := by
    unfold Tables.findShift at hact
    split_ifs at hact with h1
    · cases hact
      obtain ⟨k1, k2⟩ := hs top (List.mem_of_head? htop)
      exact ⟨k2, fun _ => by omega⟩
    · have := ha _ (findShiftLoop_mem hact)
      exact ⟨this.red, fun _ => this⟩
  by_cases h1 : T.minReduce ≤ act
  · rw [if_pos h1] at h
    simp only at h
    have hR := hact'.1 h1
    split_ifs at h with h2 h3
    · obtain ⟨p1, h4, h5⟩ := Option.bind_eq_some_iff.mp h
      have e1 := track_stack h4
      have hs1 : StackOK g cs T p1.stack := by rw [e1]; exact hs
      by_cases h6 : (c.depth.any fun d => decide (p1.stack.length - 1 ≥ d - 1)) = true
      · rw [if_pos h6] at h5
        cases h5
        refine ⟨fun e he => hs1 e (popAll_stack _ e he), fun n hn => ?_⟩
        rcases List.mem_append.1 hn with hn | hn
        · exact absurd hn (popAll_red _ _)
        · simp at hn
      · rw [if_neg h6] at h5
        obtain ⟨p2, h7, rfl⟩ := Option.map_eq_some_iff.mp h5
        refine ⟨yyReduce_ok ha hs1 h7, fun n hn => ?_⟩
        simp only [Round.evs, List.mem_singleton, Ev.reduce.injEq] at hn
        rw [hn]; exact hR
    · obtain ⟨p2, h7, rfl⟩ := Option.map_eq_some_iff.mp h
      refine ⟨yyReduce_ok ha hs h7, fun n hn => ?_⟩
      simp only [Round.evs, List.mem_singleton, Ev.reduce.injEq] at hn
      rw [hn]; exact hR
  · rw [if_neg h1] at h
    split_ifs at h with h2 h3 h4
    · obtain ⟨⟨p2, evs⟩, h7, rfl⟩ := Option.map_eq_some_iff.mp h
      obtain ⟨k1, k2⟩ := yyShift_ok hnx hs (hact'.2 h2) h2 h7
      exact ⟨k1, fun n hn => absurd hn (k2 n)⟩
    · split at h
      · rename_i x bottom hst
        cases h
        refine ⟨fun e he => hs e ?_, by simp [Round.evs]⟩
        rw [hst]
        exact List.mem_cons_of_mem _ he
      · cases h
    · obtain ⟨⟨p2, evs, b⟩, h7, h8⟩ := Option.map_eq_some_iff.mp h
      obtain ⟨k1, k2⟩ := onError_ok hnx ha hs h7
      cases b <;> cases h8 <;> exact ⟨k1, fun n hn => absurd hn (k2 n)⟩

theorem parseLoop_ok (hnx : T.nx ≤ T.minShiftReduce) (ha : ∀ v, v ∈ T.action ∨ v ∈ T.dflt → EntryOK g cs T v) {M : Nat} : ∀ (fuel : Nat) (hit : Bool) (p p' : PState) (evs : List Ev),
    StackOK g cs T p.stack → parseLoop T c M fuel hit p = some (p', evs) → StackOK g cs T p'.stack ∧ ∀ n, .reduce n ∈ evs → RedNum g cs n := by
  intro fuel
  induction fuel with
  | zero => intro hit p p' evs _ h; cases h
  | succ fuel ih =>
    intro hit p p' evs hs h
    simp only [parseLoop] at h
    split at h
    · cases h
    · rename_i q es hr
      cases h
      exact parseRound_ok hnx ha hs hr
    · rename_i b q es hr
      obtain ⟨k1, k2⟩ := parseRound_ok hnx ha hs hr
      obtain ⟨⟨q', es'⟩, h1, h2⟩ := Option.map_eq_some_iff.mp h
      cases h2
      obtain ⟨k3, k4⟩ := ih _ _ _ _ k1 h1
      refine ⟨k3, fun n hn => ?_⟩
      rcases List.mem_append.1 hn with hn | hn
      · exact k2 n hn
      · exact k4 n hn

theorem parseTokens_ok (hnx : T.nx ≤ T.minShiftReduce) (ha : ∀ v, v ∈ T.action ∨ v ∈ T.dflt → EntryOK g cs T v) {fuel : Nat} : ∀ (ts : List Nat) (p p' : PState) (evs : List Ev),
    StackOK g cs T p.stack → parseTokens T c fuel ts p = some (p', evs) → StackOK g cs T p'.stack ∧ ∀ n, .reduce n ∈ evs → RedNum g cs n := by
  intro ts
  induction ts with
  | nil => intro p p' evs hs h; cases h; exact ⟨hs, by simp⟩
  | cons t ts ih =>
    intro p p' evs hs h
    simp only [parseTokens] at h
    obtain ⟨⟨q, es⟩, h1, h2⟩ := Option.bind_eq_some_iff.mp h
    obtain ⟨⟨q', es'⟩, h3, h4⟩ := Option.map_eq_some_iff.mp h2
    cases h4
    obtain ⟨k1, k2⟩ := parseLoop_ok hnx ha _ _ _ _ _ hs h1
    obtain ⟨k3, k4⟩ := ih _ _ _ k1 h3
    refine ⟨k3, fun n hn => ?_⟩
    rcases List.mem_append.1 hn with hn | hn
    · exact k2 n hn
    · exact k4 n hn

/-- The generated parser reduces only by rules that occur in states with rows in the tables. -/
theorem reduces_ok (u : Usable g) (h : Generated g fb compress m F A cs T) {fuel : Nat} {ts : List Nat} {evs : List Ev}
    (hp : parseTokens T c fuel ts .init = some (p', evs)) {n : Nat} (hn : .reduce n ∈ evs) : RedNum g cs n := by
  have R := h.reported u
  obtain ⟨ha, hd⟩ := entries_ok u h
  have hnx : T.nx ≤ T.minShiftReduce := by
    have := h.toPrepared.nx_le u
    rw [R.nxs, R.msr, (h.toPrepared.states u).1]; exact this
  refine (parseTokens_ok hnx (fun v hv => hv.elim (ha v) (hd v)) ts _ _ _ ?_ hp).2 n hn
  intro e he
  have he : e = (0, 0) := by simpa [PState.init] using he
  subst he
  have hpos : 0 < T.nx := by
    have := (Sim.head u h.toPrepared (.bottom 0)).2.2
    rw [R.nxs]; omega
  have := minReduce_ge T
  exact ⟨.inl hpos, fun hh => by simp only at hh; omega⟩

end Verif.Lemon
