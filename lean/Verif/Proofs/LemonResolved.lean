import Verif.Proofs.LemonElide
import Verif.Props.C33
/-
The lists of actions after `FindActions`: lemmas.
-/
set_option autoImplicit false
namespace Verif.Lemon
open Verif.Spec

variable {g : Gram} {m : Mach} {F : List TSet}

theorem shiftSyms_nt (wf : g.WF) {X Y : Nat} (hX : g.nlow ≤ X) : X ∈ g.shiftSyms Y ↔ X = Y := by
  have hle : g.nterm ≤ g.nlow := by unfold Gram.nlow; omega
  unfold Gram.shiftSyms
  split
  · rename_i hmt
    unfold Gram.isMT at hmt
    simp only [Bool.and_eq_true, decide_eq_true_eq] at hmt
    constructor
    · intro h
      unfold Gram.subsym at h
      rw [List.getD_eq_getElem?_getD] at h
      cases hx : g.mts[Y - g.nterm]? with
      | none => rw [hx] at h; simp at h
      | some l =>
        rw [hx] at h
        have := wf.mts l (List.mem_of_getElem? hx) _ h
        omega
    · intro h; omega
  · simp

theorem trans_unique (h : MachOK g m) {s X q q' : Nat} (h1 : m.Trans s X q) (h2 : m.Trans s X q') (hn : g.nitems < 2 ^ 30) : q = q' := by
  have auto := h.isAuto hn
  refine auto.inj q q' (auto.lt _ _ _ h1).2 (auto.lt _ _ _ h2).2 ?_
  intro r d
  rw [auto.tgt _ _ _ h1, auto.tgt _ _ _ h2]

theorem shiftTargets_nt (wf : g.WF) (h : MachOK g m) {s X : Nat} (hs : s < m.sts.length) (hX : g.nlow ≤ X) :
    (shiftTargets g m s X).length ≤ 1 := by
  have h1 : (shiftTargets g m s X).length = (((m.shifts.filter fun e => e.1 == s).map fun e => e.2.1).filter fun Y => Y == X).length := by
    unfold shiftTargets
    clear h
    induction m.shifts with
    | nil => rfl
    | cons e l ih =>
      rw [List.flatMap_cons, List.length_append, List.filter_cons, ih]
      by_cases he : e.1 = s
      · rw [if_pos he, if_pos (by simpa using he), List.map_cons, List.filter_cons]
        have : ((g.shiftSyms e.2.1).filter fun Y => Y == X).length = if e.2.1 = X then 1 else 0 := by
          split_ifs with hx
          · have hh : g.shiftSyms e.2.1 = [e.2.1] := by
              unfold Gram.shiftSyms Gram.isMT
              rw [if_neg]
              simp only [Bool.and_eq_true, decide_eq_true_eq, not_and, not_lt]
              intro _; rw [hx]; exact hX
            rw [hh]; simp [hx]
          · rw [List.length_eq_zero_iff, List.filter_eq_nil_iff]
            intro Y hY hh
            simp only [beq_iff_eq] at hh
            rw [hh] at hY
            exact hx ((shiftSyms_nt wf hX).mp hY).symm
        rw [List.length_map, this]
        by_cases hx : e.2.1 = X
        · simp [hx]; omega
        · simp [hx]
      · rw [if_neg he, if_neg (by simpa using he)]
        simp
  rw [h1]
  obtain ⟨st, hst⟩ : ∃ st, m.sts[s]? = some st := ⟨_, List.getElem?_eq_getElem hs⟩
  have h2 := h.full s st hst
  have h3 : ((m.shifts.filter fun e => e.1 == s).map fun e => e.2.1).Nodup := by
    have := (shiftGroups_spec (g := g) st.cfgs).1
    rw [← h2, List.map_reverse, List.nodup_reverse] at this
    exact this
  have h4 := h3.filter fun Y => Y == X
  have h5 : ∀ Y ∈ ((m.shifts.filter fun e => e.1 == s).map fun e => e.2.1).filter (fun Y => Y == X), Y = X := by
    intro Y hY
    simpa using (List.mem_filter.mp hY).2
  generalize (((m.shifts.filter fun e => e.1 == s).map fun e => e.2.1).filter fun Y => Y == X) = L at h4 h5
  match L, h4, h5 with
  | [], _, _ => simp
  | [a], _, _ => simp
  | a :: b :: L, h4, h5 =>
    have e1 := h5 a (by simp)
    have e2 := h5 b (by simp)
    simp [e1, e2] at h4

theorem settle_tie {p : Option Int} {a : Assoc} {rp : Nat → Option Int} : ∀ (cs : List Cand) (c c' e : Cand) (k : Count),
    settle (duel p a rp) c cs = some (.tie c' e, k) → ∃ q r, c' = .shift q ∧ e = .reduce r := by
  intro cs
  induction cs with
  | nil => intro c c' e k h; simp [settle] at h
  | cons d cs ih =>
    intro c c' e k h
    rw [settle_cons] at h
    cases hd : duel p a rp c d with
    | first => rw [hd] at h; exact ih _ _ _ _ h
    | second => rw [hd] at h; exact ih _ _ _ _ h
    | abort => rw [hd] at h; cases h
    | conflict =>
      rw [hd] at h
      simp only [Option.map_eq_some_iff] at h
      obtain ⟨⟨o, k'⟩, h1, h2⟩ := h
      simp only [Prod.mk.injEq] at h2
      rw [h2.1] at h1
      exact ih _ _ _ _ h1
    | neither =>
      rw [hd] at h
      simp only at h
      split_ifs at h
      simp only [Option.some.injEq, Prod.mk.injEq, Outcome.tie.injEq] at h
      obtain ⟨⟨rfl, rfl⟩, _⟩ := h
      cases c <;> cases d <;> simp [duel] at hd
      · exact ⟨_, _, rfl, rfl⟩
      · revert hd
        split
        · split_ifs <;> simp
        · simp

theorem settle_one_mem {d : Cand → Cand → Duel} : ∀ (cs : List Cand) (c c' : Cand) (k : Count),
    settle d c cs = some (.one c', k) → c' ∈ c :: cs := by
  intro cs
  induction cs with
  | nil => intro c c' k h; simp [settle] at h; simp [h.1]
  | cons e cs ih =>
    intro c c' k h
    rw [settle_cons] at h
    cases hd : d c e with
    | first =>
      rw [hd] at h
      rcases List.mem_cons.mp (ih _ _ _ h) with h | h
      · simp [h]
      · simp [h]
    | second =>
      rw [hd] at h
      exact List.mem_cons_of_mem _ (ih _ _ _ h)
    | abort => rw [hd] at h; cases h
    | conflict =>
      rw [hd] at h
      simp only [Option.map_eq_some_iff] at h
      obtain ⟨⟨o, k'⟩, h1, h2⟩ := h
      simp only [Prod.mk.injEq] at h2
      rw [h2.1] at h1
      rcases List.mem_cons.mp (ih _ _ _ h1) with h | h
      · simp [h]
      · simp [h]
    | neither =>
      rw [hd] at h
      simp only at h
      split_ifs at h
      simp at h

theorem cand_types {a : Act} {c : Cand} (h : a.cand = some c) : a.type = .SHIFT ∨ a.type = .REDUCE ∨ a.type = .ACCEPT := by
  obtain ⟨s, ty, x, i⟩ := a
  cases ty <;> simp [Act.cand] at h <;> simp

/-- The lists of actions made by `FindActions`. -/
theorem resolved_of_findActions (wf : g.WF) (hst : StartNT g) (hn : g.nitems < 2 ^ 30) {ps : Nat → Option Nat} (hok : MachOK g m)
    (hlen : (rawActs g m F).length < 2 ^ 30) {A : Acts} (hA : findActions g ps m F = some A) {s : Nat} (hs : s < m.sts.length) :
    Resolved g (A.acts.getD s []) ∧ ∀ X, onSym (A.acts.getD s []) X = A.on s X := by
  have hspec := findActions_spec wf hst hn ps (F := F) hok hlen
  rw [hA] at hspec
  obtain ⟨h1, h2, k, h3, _⟩ := hspec
  have hU := h2 s hs
  obtain ⟨hperm, hsort⟩ := actionSort_spec (g := g) (Nat.lt_of_le_of_lt (stateActs_length (raw := rawActs g m F) (s := s)) hlen)
  have hfr : FreshActs g g.nsymbol (actionSort g (stateActs (rawActs g m F) s)) :=
    fun a ha => fresh_state wf hst hok hn s a (hperm.mem_iff.mp ha)
  have hcomp := fun t => comps_spec (F := F) wf hst hok hn hlen hs t
  have hsett := h3 s hs
  generalize hl' : A.acts.getD s [] = l' at hU ⊢
  generalize hl : actionSort g (stateActs (rawActs g m F) s) = l at hU hfr hcomp hsett
  have hmem : ∀ a ∈ l', ∃ b ∈ l, Upd b a := by
    intro a ha
    obtain ⟨i, hi, rfl⟩ := List.getElem_of_mem ha
    have hi' : i < l.length := by rw [hU.length_eq]; exact hi
    exact ⟨l[i], List.getElem_mem hi', (List.forall₂_iff_get.mp hU).2 i hi' hi⟩
  have hty : ∀ a ∈ l', a.type = .SHIFT ∨ a.type = .ACCEPT ∨ a.type = .REDUCE ∨ a.type = .ERROR ∨ a.type.settled = true := by
    intro a ha
    obtain ⟨b, hb, hu⟩ := hmem a ha
    obtain ⟨_, _, _, hu⟩ := hu
    rcases hu with hu | hu | ⟨_, hu⟩
    · obtain ⟨_, _, c, hc, _⟩ := hfr b hb
      rw [hu]
      rcases cand_types hc with h | h | h <;> simp [h]
    · simp [hu]
    · simp [hu]
  have hsp : ∀ a ∈ l', g.plain a.sp ∧ g.index a.sp < g.nsymbol := by
    intro a ha
    obtain ⟨b, hb, hu, _⟩ := hmem a ha
    rw [hu]
    exact ⟨(hfr b hb).1, (hfr b hb).2.1⟩
  have hon : ∀ X, onSym l' X = A.on s X := by
    intro X
    unfold Acts.on remains onSym
    rw [hl', List.filter_filter]
    congr 1
    apply List.filter_congr
    intro a ha
    congr 1
    unfold Act.live
    rcases hty a ha with h | h | h | h | h
    · rw [h]; rfl
    · rw [h]; rfl
    · rw [h]; rfl
    · rw [h]; rfl
    · rw [h]
      revert h
      cases a.type <;> simp [AType.settled, AType.live]
  have hX : ∀ X, onSym l' X ≠ [] → ∃ i, i < g.nsymbol ∧ X = g.sym i := by
    intro X hne
    obtain ⟨e, he⟩ := List.exists_mem_of_ne_nil _ hne
    obtain ⟨a, ha, _, h5, _⟩ := mem_onSym.mp he
    refine ⟨g.index a.sp, (hsp a ha).2, ?_⟩
    rw [sym_index (hsp a ha).1, h5]
  refine ⟨⟨hsp, hty, ?_, ?_, ?_⟩, hon⟩
  · intro X
    by_cases hne : onSym l' X = []
    · exact .inl hne
    · obtain ⟨i, hi, rfl⟩ := hX X hne
      right
      have h4 := hsett i hi
      have hc := hcomp (g.sym i)
      rw [hon] at hne ⊢
      generalize comps (g.sym i) l = cs at hc h4
      cases cs with
      | nil =>
        simp only [settleAll, Option.some.injEq, Prod.mk.injEq] at h4
        exact absurd h4.1.symm hne
      | cons c cs =>
        simp only [settleAll, Option.map_eq_some_iff, Prod.mk.injEq] at h4
        obtain ⟨⟨o, k'⟩, e1, e2, _⟩ := h4
        rw [← e2]
        cases o with
        | one c' =>
          cases c' with
          | shift q => exact .inl ⟨q, rfl⟩
          | reduce r => exact .inr (.inl ⟨r, rfl⟩)
          | accept => exact .inr (.inr (.inl rfl))
        | tie c' e =>
          obtain ⟨q, r, rfl, rfl⟩ := settle_tie cs c c' e k' e1
          exact .inr (.inr (.inr ⟨q, r, rfl⟩))
  · intro X hnt
    have hc := hcomp X
    have hlen1 : (comps X l).length ≤ 1 := by
      obtain ⟨qs, rs, e1, e2, e3, e4⟩ := hc
      have hrs : rs = [] := by
        cases rs with
        | nil => rfl
        | cons r _ =>
          have := ((e4 r).mp List.mem_cons_self).2.1
          unfold Gram.nlow at hnt
          omega
      have hq : qs.length ≤ 1 := by rw [e2.length_eq]; exact shiftTargets_nt wf hok hs hnt
      by_cases hacc : s = 0 ∧ X = g.start
      · -- both would abort
        rw [e1, hrs, if_pos hacc]
        match qs, hq with
        | [], _ => simp
        | [q], _ =>
          exfalso
          have hidx : g.index X < g.nsymbol := by
            have := hst.2
            unfold Gram.index Gram.nsymbol
            unfold Gram.nlow at hnt
            rw [hacc.2] at hnt ⊢
            split_ifs <;> omega
          have h4 := hsett (g.index X) hidx
          rw [sym_index (.inr hnt), e1, hrs, if_pos hacc] at h4
          simp [settleAll, settle, gduel, duel] at h4
      · rw [e1, hrs, if_neg hacc]
        simpa using hq
    have hfil : List.Forall₂ Upd (l.filter fun a => a.sp == X) (l'.filter fun a => a.sp == X) := by
      clear hsett hcomp hc hlen1 hmem hty hsp hon hX h1 h2 h3 hperm hsort hfr hl hl'
      induction hU with
      | nil => exact .nil
      | @cons a b l l' hab _ ih =>
        rw [List.filter_cons, List.filter_cons, hab.1]
        split_ifs
        · exact .cons hab ih
        · exact ih
    have hcl : (comps X l).length = (l.filter fun a => a.sp == X).length := by
      unfold comps cands
      have : ∀ L : List Act, (∀ a ∈ L, ∃ c, a.cand = some c) → (L.filterMap Act.cand).length = L.length := by
        intro L
        induction L with
        | nil => intro _; rfl
        | cons a L ih =>
          intro hL
          obtain ⟨c, hc⟩ := hL a (by simp)
          rw [List.filterMap_cons_some hc, List.length_cons, List.length_cons, ih fun b hb => hL b (by simp [hb])]
      apply this
      intro a ha
      obtain ⟨_, _, c, hc, _⟩ := hfr a (List.mem_filter.mp ha).1
      exact ⟨c, hc⟩
    have hl1 : (l'.filter fun a => a.sp == X).length ≤ 1 := by rw [← hfil.length_eq, ← hcl]; exact hlen1
    have hl2 : (comps X l).length = (l'.filter fun a => a.sp == X).length := by rw [hcl, hfil.length_eq]
    rcases Nat.eq_zero_or_pos (l'.filter fun a => a.sp == X).length with hz | hz
    · exact .inl (List.length_eq_zero_iff.mp hz)
    · obtain ⟨a, hL⟩ : ∃ a, (l'.filter fun a => a.sp == X) = [a] := List.length_eq_one_iff.mp (by omega)
      right
      refine ⟨a, hL, ?_⟩
      rw [hL] at hl2
      have ham : a ∈ l' ∧ a.sp = X := by
        have : a ∈ l'.filter fun a => a.sp == X := by rw [hL]; simp
        simpa using List.mem_filter.mp this
      have hplain : X = g.sym (g.index X) := (sym_index (.inr hnt)).symm
      have hidx : g.index X < g.nsymbol := by rw [← ham.2]; exact (hsp a ham.1).2
      have h4 := hsett (g.index X) hidx
      rw [← hplain] at h4
      have hcs : ∃ c, comps X l = [c] := List.length_eq_one_iff.mp (by rw [hl2]; rfl)
      obtain ⟨c, hcs⟩ := hcs
      rw [hcs] at h4
      simp only [settleAll, settle, Option.map_some, Option.some.injEq, Prod.mk.injEq, Outcome.acts] at h4
      have hcand := hcomp X
      rw [hcs] at hcand
      obtain ⟨qs, rs, e1, e2, e3, e4⟩ := hcand
      have hon' : A.on s X = [c.act] := h4.1.symm
      unfold Acts.on remains at hon'
      rw [hl', hL] at hon'
      have hca : (a.type, a.x) = c.act := by
        rw [List.filter_cons] at hon'
        split_ifs at hon' with hlv
        · simpa using hon'
        · simp at hon'
      have hcr : ∀ r, c ≠ .reduce r := by
        intro r hr
        have hr2 : r ∈ rs := by
          have : Cand.reduce r ∈ qs.map Cand.shift ++ (if s = 0 ∧ X = g.start then [Cand.accept] else []) ++ rs.map Cand.reduce := by
            rw [← e1, hr]; simp
          simp only [List.mem_append, List.mem_map] at this
          rcases this with (⟨q, _, hq⟩ | h) | ⟨r', h, h'⟩
          · cases hq
          · split_ifs at h
            · simp at h
            · cases h
          · cases h'; exact h
        have := ((e4 r).mp hr2).2.1
        unfold Gram.nlow at hnt
        omega
      cases c with
      | shift q => simp only [Cand.act, Prod.mk.injEq] at hca; exact .inl hca.1
      | reduce r => exact absurd rfl (hcr r)
      | accept => simp only [Cand.act, Prod.mk.injEq] at hca; exact .inr hca
  · rw [← hU.length_eq, ← hl, hperm.length_eq]
    exact Nat.lt_of_le_of_lt stateActs_length hlen

end Verif.Lemon
