import Verif.Proofs.LemonGetState
/-
The result of `FindStates` as an LR(0) automaton.
-/
set_option autoImplicit false
namespace Verif.Lemon
open Verif.Spec

variable {g : Gram} {fs : FirstSets}

theorem foldlM_mono {α σ : Type} {f f' : σ → α → Option σ} (h : ∀ s a s', f s a = some s' → f' s a = some s') :
    ∀ (l : List α) (s s' : σ), l.foldlM f s = some s' → l.foldlM f' s = some s' := by
  intro l
  induction l with
  | nil => intro s s' hs; exact hs
  | cons a l ih =>
    intro s s' hs
    rw [List.foldlM_cons] at hs ⊢
    rcases hf : f s a with _ | t
    · rw [hf] at hs; simp at hs
    · rw [hf] at hs
      rw [h s a t hf]
      exact ih t s' hs

/-- more depth does not change the result of `getState` -/
theorem getState_mono : ∀ (n k : Nat) (m : Mach) (b : List Config) (bl : List (Item × Ref)) (r : Mach × Nat),
    n ≤ k → getState g fs n m b bl = some r → getState g fs k m b bl = some r := by
  intro n
  induction n with
  | zero => intro k m b bl r _ h; simp [getState] at h
  | succ n ih =>
    intro k m b bl r hk h
    obtain ⟨k, rfl⟩ : ∃ k', k = k' + 1 := ⟨k - 1, by omega⟩
    unfold getState at h ⊢
    simp only at h ⊢
    cases hfind : m.sts.findIdx? (fun st => st.basis == msort configcmp (b.map Config.item)) with
    | some t => rw [hfind] at h; exact h
    | none =>
      rw [hfind] at h
      simp only at h ⊢
      rcases hcs : closure g fs b with _ | cs
      · rw [hcs] at h; simp at h
      · rw [hcs] at h
        simp only [Option.bind_some] at h ⊢
        obtain ⟨m2, h1, h2⟩ := Option.map_eq_some_iff.mp h
        refine Option.map_eq_some_iff.mpr ⟨m2, ?_, h2⟩
        refine foldlM_mono ?_ _ _ _ h1
        intro s a s' hs
        obtain ⟨r', h3, h4⟩ := Option.map_eq_some_iff.mp hs
        exact Option.map_eq_some_iff.mpr ⟨r', ih k _ _ _ _ (by omega) h3, h4⟩

theorem statesWith_mono {n k : Nat} (h : n ≤ k) {m : Mach} (hm : statesWith g fs n = some m) :
    statesWith g fs k = some m := by
  unfold statesWith at hm ⊢
  obtain ⟨r, h1, h2⟩ := Option.map_eq_some_iff.mp hm
  exact Option.map_eq_some_iff.mpr ⟨r, getState_mono n k _ _ _ _ h h1, h2⟩

/-- what is true of the machine after `FindStates` -/
structure MachOK (g : Gram) (m : Mach) : Prop where
  pos : 0 < m.sts.length
  st : ∀ s st, m.sts[s]? = some st → StOK g (s = 0) st
  nodup : (m.sts.map St.basis).Nodup
  ok : ∀ e ∈ m.shifts, ShiftOK g m e
  full : ∀ s st, m.sts[s]? = some st →
    ((m.shifts.filter fun e => e.1 == s).reverse.map fun e => e.2.1) = (shiftGroups g st.cfgs).map Prod.fst
  back : ∀ l, l ∈ m.back ↔ ∃ e ∈ m.shifts, BackOf g m e l
  reach : ∀ u, u < m.sts.length → u = 0 ∨ ∃ s X, s < u ∧ (s, X, u) ∈ m.shifts

theorem rulesOf_nodup (A : Nat) : (g.rulesOf A).Nodup := by
  unfold Gram.rulesOf
  exact List.nodup_reverse.mpr (List.nodup_range.filter _)

theorem pre_start (wf : g.WF) : Pre g ⟨[], [], []⟩ (startConfigs g) := by
  have hk : 0 < g.setSize := by unfold Gram.setSize; omega
  refine ⟨?_, ?_, ?_, ?_, ?_, ?_, ?_⟩
  · unfold startConfigs
    rw [List.map_map]
    refine (rulesOf_nodup g.start).map ?_
    intro a b h
    simpa [Function.comp] using h
  · intro c hc
    obtain ⟨r, hr, rfl⟩ := List.mem_map.mp hc
    exact ⟨_, _, ext_rule.mpr ⟨(mem_rulesOf.mp hr).1, rfl, rfl⟩, by simp⟩
  · intro c hc
    obtain ⟨r, hr, rfl⟩ := List.mem_map.mp hc
    simp [setAdd, setNew]
  · intro c hc
    obtain ⟨r, hr, rfl⟩ := List.mem_map.mp hc
    rfl
  · intro c hc t
    obtain ⟨r, hr, rfl⟩ := List.mem_map.mp hc
    simp only
    rw [setFind_add (by simpa [setNew] using hk)]
    simp [setFind_setNew]
  · intro _ it
    unfold startConfigs
    rw [List.map_map]
    simp only [List.mem_map, Function.comp]
    constructor
    · rintro ⟨r, hr, rfl⟩; exact ⟨rfl, hr⟩
    · rintro ⟨h1, h2⟩; exact ⟨it.1, h2, by rw [← h1]⟩
  · intro h; exact absurd rfl h

theorem states_ok (wf : g.WF) (ok : FsOK g fs) (hsmall : g.nitems < 2 ^ 30) :
    ∃ m, findStates g fs = some m ∧ MachOK g m := by
  obtain ⟨m, t, ns, nb, h1, h2⟩ := getState_spec wf ok hsmall (2 ^ g.nitems + 1) ⟨[], [], []⟩ (startConfigs g) []
    ⟨by simp, by simp⟩ (pre_start wf) (by simp)
  refine ⟨m, by unfold findStates statesWith; rw [h1]; rfl, ?_⟩
  obtain ⟨stt, ht, _⟩ := h2.tgt
  have hpos : 0 < m.sts.length := Nat.lt_of_le_of_lt (Nat.zero_le _) (List.getElem?_eq_some_iff.mp ht).1
  have hsh : m.shifts = ns := by rw [h2.grown.shifts]; simp
  have hbk : m.back = nb := by rw [h2.grown.back]; simp
  have ht0 : t = 0 := by
    rcases h2.reach 0 (by simp) hpos with h | ⟨s, X, h, _⟩
    · exact h.symm
    · omega
  refine ⟨hpos, h2.grown.good.st, h2.grown.good.nodup, by rw [hsh]; exact h2.grown.ok, ?_, ?_, ?_⟩
  · intro s st hs
    rw [hsh]; exact h2.grown.full s st (by simp) hs
  · intro l
    rw [hsh, hbk, h2.back]; simp
  · intro u hu
    rw [hsh, ← ht0]
    exact h2.reach u (by simp) hu

theorem states_ok_of_some (wf : g.WF) (ok : FsOK g fs) (hsmall : g.nitems < 2 ^ 30) {n : Nat} {m : Mach}
    (h : statesWith g fs n = some m) : findStates g fs = some m ∧ MachOK g m := by
  obtain ⟨m', h1, h2⟩ := states_ok wf ok hsmall
  have e1 := statesWith_mono (Nat.le_max_left n (2 ^ g.nitems + 1)) h
  have e2 := statesWith_mono (Nat.le_max_right n (2 ^ g.nitems + 1)) h1
  rw [e1] at e2
  simp only [Option.some.injEq] at e2
  subst e2
  exact ⟨h1, h2⟩

/-- `(r,d)` is a configuration of state `s` -/
def Mach.Item (m : Mach) (s r d : Nat) : Prop := ∃ st, m.sts[s]? = some st ∧ (r, d) ∈ st.items

/-- state `t` is the successor of `s` on `X` -/
def Mach.Trans (m : Mach) (s X t : Nat) : Prop := (s, X, t) ∈ m.shifts

theorem succBasis_nodup {first : Prop} {st : St} (h : StOK g first st) (X : Nat) : (succBasis g st X).Nodup := by
  refine ((h.sorted.nodup).filter _).map ?_
  rintro ⟨a, b⟩ ⟨c, d⟩ h
  simp only [adv, Prod.mk.injEq] at h ⊢
  omega

theorem mem_succBasis {st : St} {X r d : Nat} : (r, d) ∈ succBasis g st X ↔
    ∃ d', d = d' + 1 ∧ (r, d') ∈ st.items ∧ g.next (r, d') = some X := by
  unfold succBasis adv
  simp only [List.mem_map, List.mem_filter, beq_iff_eq, Prod.mk.injEq]
  constructor
  · rintro ⟨⟨r', d'⟩, ⟨h1, h2⟩, rfl, rfl⟩; exact ⟨d', rfl, h1, h2⟩
  · rintro ⟨d', rfl, h1, h2⟩; exact ⟨(r, d'), ⟨h1, h2⟩, rfl, rfl⟩

theorem succBasis_valid {st : St} {X : Nat} : ∀ it ∈ succBasis g st X, IsItem g.ext it.1 it.2 := by
  rintro ⟨r, d⟩ h
  obtain ⟨d', rfl, _, hnx⟩ := mem_succBasis.mp h
  exact ⟨_, _, ext_rule.mpr ⟨rule_lt (g := g) (r := r) (d := d') hnx, rfl, rfl⟩, (List.getElem?_eq_some_iff.mp hnx).1⟩

theorem MachOK.mem_target (hsmall : g.nitems < 2 ^ 30) {m : Mach} (h : MachOK g m) {s X t : Nat} (he : (s, X, t) ∈ m.shifts)
    {st st' : St} (hs : m.sts[s]? = some st) (ht : m.sts[t]? = some st') (it : Verif.Lemon.Item) :
    it ∈ st'.basis ↔ it ∈ succBasis g st X := by
  obtain ⟨st1, st1', h1, h2, _, h4⟩ := h.ok _ he
  simp only at h1 h2 h4
  rw [hs] at h1; rw [ht] at h2
  simp only [Option.some.injEq] at h1 h2
  subst h1; subst h2
  rw [h4]
  have hst := h.st s st hs
  exact (msort_items (Nat.lt_of_le_of_lt (items_bound (succBasis_nodup hst X) succBasis_valid) hsmall)
    (succBasis_nodup hst X)).1.mem_iff

theorem MachOK.isAuto (hsmall : g.nitems < 2 ^ 30) {m : Mach} (h : MachOK g m) :
    IsAuto g.ext (lemonInit g) (fun _ => True) m.sts.length m.Item m.Trans where
  pos := h.pos
  item0 := by
    intro r d
    have hp := h.pos
    have hget : m.sts[0]? = some (m.sts[0]'hp) := List.getElem?_eq_getElem hp
    have hst := h.st 0 _ hget
    unfold Mach.Item
    rw [hget]
    simp only [Option.some.injEq, exists_eq_left']
    rw [hst.mem]
    apply closed_congr
    intro r d
    rw [hst.dots.1 rfl, mem_rulesOf]
    rfl
  ex := by
    intro s X hs
    have hget : m.sts[s]? = some m.sts[s] := List.getElem?_eq_getElem hs
    constructor
    · rintro ⟨t, ht⟩
      refine ⟨trivial, ?_⟩
      obtain ⟨st, _, h1, _, ⟨it, h3, h4⟩, _⟩ := h.ok _ ht
      exact ⟨it.1, it.2, ⟨st, h1, h3⟩, dotBefore_iff.mpr h4⟩
    · rintro ⟨_, r, d, ⟨st, h1, h2⟩, h3⟩
      have hX := ((shiftGroups_spec (g := g) st.cfgs).2.1 X).mpr ⟨(r, d), h2, dotBefore_iff.mp h3⟩
      rw [← h.full s st h1] at hX
      obtain ⟨⟨s', X', t⟩, he, rfl⟩ := List.mem_map.mp hX
      obtain ⟨he1, he2⟩ := List.mem_filter.mp (List.mem_reverse.mp he)
      simp only [beq_iff_eq] at he2
      subst he2
      exact ⟨t, he1⟩
  lt := by
    intro s X t ht
    obtain ⟨st, st', h1, h2, _⟩ := h.ok _ ht
    exact ⟨(List.getElem?_eq_some_iff.mp h1).1, (List.getElem?_eq_some_iff.mp h2).1⟩
  tgt := by
    intro s X t ht r d
    obtain ⟨st, st', h1, h2, _⟩ := h.ok _ ht
    simp only at h1 h2
    have hst' := h.st t st' h2
    unfold Mach.Item
    rw [h1, h2]
    simp only [Option.some.injEq, exists_eq_left']
    rw [hst'.mem]
    apply closed_congr
    intro r d
    rw [h.mem_target hsmall ht h1 h2, mem_succBasis]
    simp only [dotBefore_iff]
  inj := by
    intro s t hs ht hst
    have hgs : m.sts[s]? = some m.sts[s] := List.getElem?_eq_getElem hs
    have hgt : m.sts[t]? = some m.sts[t] := List.getElem?_eq_getElem ht
    have os := h.st s _ hgs
    have ot := h.st t _ hgt
    have hitems : ∀ it, it ∈ m.sts[s].items ↔ it ∈ m.sts[t].items := by
      intro it
      have := hst it.1 it.2
      unfold Mach.Item at this
      rw [hgs, hgt] at this
      simpa using this
    -- basis items with the dot inside
    have hk : ∀ {first : Prop} {st : St}, StOK g first st → ∀ it, 1 ≤ it.2 → (it ∈ st.items ↔ it ∈ st.basis) := by
      intro first st o it h1
      have := o.mem it.1 it.2
      constructor
      · intro hi
        have hc := this.mp hi
        generalize e : it.2 = d at hc h1
        cases hc with
        | kern hk => rw [← e] at hk; exact hk
        | step _ _ _ => omega
      · intro hb; exact this.mpr (.kern hb)
    have h0 : ∀ {st : St}, StOK g True st → ∀ it ∈ st.items, it.2 = 0 := by
      intro st o it hi
      have hc := (o.mem it.1 it.2).mp hi
      generalize e : it.2 = d at hc
      cases hc with
      | kern hk => exact ((o.dots.1 trivial _).mp hk).1
      | step _ _ _ => rfl
    have hnz : ∀ {st st' : St}, StOK g True st → StOK g False st' → (∀ it, it ∈ st.items ↔ it ∈ st'.items) → False := by
      intro st st' o o' hi
      obtain ⟨hne, hd⟩ := o'.dots.2 (by simp)
      obtain ⟨it, hit⟩ := List.exists_mem_of_ne_nil _ hne
      have h1 := hd it hit
      have := h0 o it ((hi it).mpr ((hk o' it h1).mpr hit))
      omega
    by_cases hs0 : s = 0
    · by_cases ht0 : t = 0
      · omega
      · exfalso
        refine hnz (st := m.sts[s]) (st' := m.sts[t]) (by simpa [hs0] using os) (by simpa [ht0] using ot) hitems
    · by_cases ht0 : t = 0
      · exfalso
        refine hnz (st := m.sts[t]) (st' := m.sts[s]) (by simpa [ht0] using ot) (by simpa [hs0] using os)
          fun it => (hitems it).symm
      · have hb : m.sts[s].basis = m.sts[t].basis := by
          refine os.basis.ext ot.basis fun it => ?_
          constructor
          · intro hi
            have h1 := (os.dots.2 hs0).2 it hi
            exact (hk ot it h1).mp ((hitems it).mp ((hk os it h1).mpr hi))
          · intro hi
            have h1 := (ot.dots.2 ht0).2 it hi
            exact (hk os it h1).mp ((hitems it).mpr ((hk ot it h1).mpr hi))
        have hnd := h.nodup
        have := (List.Nodup.getElem_inj_iff hnd (i := s) (hi := by simpa using hs) (j := t) (hj := by simpa using ht)).mp
          (by simpa using hb)
        exact this
  reach := by
    intro t ht h0
    rcases h.reach t ht with h1 | ⟨s, X, h1, h2⟩
    · exact absurd h1 h0
    · exact ⟨s, X, h1, h2⟩

end Verif.Lemon
