import Verif.Proofs.LemonResolved
/-
The actions after `FindActions` in terms of the automaton: lemmas.
-/
set_option autoImplicit false
namespace Verif.Lemon
open Verif.Spec

variable {g : Gram} {m : Mach} {F : List TSet}

/-- the competitors in an outcome -/
def Outcome.parts : Outcome → List Cand
  | .one c => [c]
  | .tie c d => [c, d]

theorem settle_outcome_mem {d : Cand → Cand → Duel} : ∀ (cs : List Cand) (c : Cand) (o : Outcome) (k : Count),
    settle d c cs = some (o, k) → ∀ x ∈ o.parts, x ∈ c :: cs := by
  intro cs
  induction cs with
  | nil => intro c o k h; simp [settle] at h; rw [← h.1]; simp [Outcome.parts]
  | cons e cs ih =>
    intro c o k h
    rw [settle_cons] at h
    have hsub1 : ∀ x, x ∈ c :: cs → x ∈ c :: e :: cs := by intro x hx; simp at hx ⊢; rcases hx with h | h <;> simp [h]
    have hsub2 : ∀ x, x ∈ e :: cs → x ∈ c :: e :: cs := by intro x hx; exact List.mem_cons_of_mem _ hx
    cases hd : d c e with
    | first => rw [hd] at h; exact fun x hx => hsub1 x (ih _ _ _ h x hx)
    | second => rw [hd] at h; exact fun x hx => hsub2 x (ih _ _ _ h x hx)
    | abort => rw [hd] at h; cases h
    | conflict =>
      rw [hd] at h
      simp only [Option.map_eq_some_iff] at h
      obtain ⟨⟨o', k'⟩, h1, h2⟩ := h
      simp only [Prod.mk.injEq] at h2
      rw [h2.1] at h1
      exact fun x hx => hsub1 x (ih _ _ _ h1 x hx)
    | neither =>
      rw [hd] at h
      simp only at h
      split_ifs at h
      simp only [Option.some.injEq, Prod.mk.injEq] at h
      rw [← h.1]
      simp [Outcome.parts]

/-- what an action after `FindActions` means -/
def Meaning (g : Gram) (m : Mach) (F : List TSet) (s X : Nat) (e : AType × Nat) : Prop :=
  (∃ q Y, (e = (.SHIFT, q) ∨ e = (.ERROR, q)) ∧ m.Trans s Y q ∧ X ∈ g.shiftSyms Y) ∨
  (∃ r, e = (.REDUCE, r) ∧ m.Item s r (g.rule r).rhs.length ∧ X < g.nterm ∧ setFind (m.fws F s (r, (g.rule r).rhs.length)) X = true) ∨
  (e = (.ACCEPT, 0) ∧ s = 0 ∧ X = g.start)

theorem competitor_mem {s X : Nat} {cs : List Cand} (h : Competitors g m F s X cs) {c : Cand} (hc : c ∈ cs) :
    (∃ q Y, c = .shift q ∧ m.Trans s Y q ∧ X ∈ g.shiftSyms Y) ∨
    (∃ r, c = .reduce r ∧ m.Item s r (g.rule r).rhs.length ∧ X < g.nterm ∧ setFind (m.fws F s (r, (g.rule r).rhs.length)) X = true) ∨
    (c = .accept ∧ s = 0 ∧ X = g.start) := by
  obtain ⟨qs, rs, e1, e2, e3, e4⟩ := h
  rw [e1, List.mem_append, List.mem_append] at hc
  rcases hc with (hc | hc) | hc
  · obtain ⟨q, hq, rfl⟩ := List.mem_map.mp hc
    obtain ⟨Y, h1, h2⟩ := mem_shiftTargets.mp (e2.mem_iff.mp hq)
    exact .inl ⟨q, Y, rfl, h1, h2⟩
  · split_ifs at hc with ha
    · simp only [List.mem_singleton] at hc
      exact .inr (.inr ⟨hc, ha⟩)
    · cases hc
  · obtain ⟨r, hr, rfl⟩ := List.mem_map.mp hc
    exact .inr (.inl ⟨r, rfl, (e4 r).mp hr⟩)

theorem on_sym (wf : g.WF) (hst : StartNT g) (hn : g.nitems < 2 ^ 30) {ps : Nat → Option Nat} (hm : Analysed g m F)
    (hlen : (rawActs g m F).length < 2 ^ 30) {A : Acts} (hA : findActions g ps m F = some A) {s : Nat} (hs : s < m.sts.length) {X : Nat}
    (hne : A.on s X ≠ []) : g.plain X ∧ g.index X < g.nsymbol := by
  obtain ⟨hr, hon⟩ := resolved_of_findActions wf hst hn (hm.ok wf hn) hlen hA hs
  rw [← hon] at hne
  obtain ⟨e, he⟩ := List.exists_mem_of_ne_nil _ hne
  obtain ⟨a, ha, _, h5, _⟩ := mem_onSym.mp he
  rw [← h5]; exact hr.sp a ha

theorem on_sound (wf : g.WF) (hst : StartNT g) (hn : g.nitems < 2 ^ 30) {ps : Nat → Option Nat} (hm : Analysed g m F)
    (hlen : (rawActs g m F).length < 2 ^ 30) {A : Acts} (hA : findActions g ps m F = some A) {s : Nat} (hs : s < m.sts.length) {X : Nat}
    {e : AType × Nat} (he : e ∈ A.on s X) : Meaning g m F s X e := by
  obtain ⟨hp, hi⟩ := on_sym wf hst hn hm hlen hA hs (List.ne_nil_of_mem he)
  obtain ⟨_, k, h1, _⟩ := C33_resolution g wf hst hn ps m F hm hlen A hA
  have h2 := h1 s hs (g.index X) hi
  rw [sym_index hp] at h2
  rcases h2 with ⟨_, h2, _⟩ | ⟨c, cs, o, h2, h3, h4⟩
  · rw [h2] at he; cases he
  · rw [h4] at he
    have h5 := settle_outcome_mem cs c o _ h3
    cases o with
    | one c' =>
      rcases competitor_mem h2 (h5 c' (by simp [Outcome.parts])) with ⟨q, Y, rfl, h⟩ | ⟨r, rfl, h⟩ | ⟨rfl, h⟩
      · simp [Outcome.acts, Cand.act] at he
        exact .inl ⟨q, Y, .inl he, h⟩
      · simp [Outcome.acts, Cand.act] at he
        exact .inr (.inl ⟨r, he, h⟩)
      · simp [Outcome.acts, Cand.act] at he
        exact .inr (.inr ⟨he, h⟩)
    | tie c' d =>
      obtain ⟨q, r, rfl, rfl⟩ := settle_tie cs c c' d _ h3
      simp [Outcome.acts] at he
      rcases he with he | he
      · rcases competitor_mem h2 (h5 (.shift q) (by simp [Outcome.parts])) with ⟨q', Y, hq, h⟩ | ⟨r, hq, h⟩ | ⟨hq, h⟩
        · cases hq; exact .inl ⟨q, Y, .inr he, h⟩
        · cases hq
        · cases hq
      · rcases competitor_mem h2 (h5 (.reduce r) (by simp [Outcome.parts])) with ⟨q', Y, hq, h⟩ | ⟨r', hq, h⟩ | ⟨hq, h⟩
        · cases hq
        · cases hq; exact .inr (.inl ⟨r, he, h⟩)
        · cases hq

/-- on nonterminals the actions are the transitions, and acceptance -/
theorem on_nt (wf : g.WF) (hst : StartNT g) (hn : g.nitems < 2 ^ 30) {ps : Nat → Option Nat} (hm : Analysed g m F)
    (hlen : (rawActs g m F).length < 2 ^ 30) {A : Acts} (hA : findActions g ps m F = some A) {s : Nat} (hs : s < m.sts.length) {X : Nat}
    (hX : g.nlow ≤ X) (hX' : X < g.nsym) : (∀ q, m.Trans s X q ↔ A.on s X = [(.SHIFT, q)]) ∧
      ((s = 0 ∧ X = g.start) ↔ A.on s X = [(.ACCEPT, 0)]) := by
  have hok := hm.ok wf hn
  have hi : g.index X < g.nsymbol := by
    unfold Gram.index Gram.nsymbol
    unfold Gram.nlow at hX
    split_ifs <;> omega
  obtain ⟨_, k, h1, _⟩ := C33_resolution g wf hst hn ps m F hm hlen A hA
  have h2 := h1 s hs (g.index X) hi
  rw [sym_index (.inr hX)] at h2
  -- the competitors
  have hcs : ∀ cs, Competitors g m F s X cs → ∃ qs : List Nat, qs.length ≤ 1 ∧ (∀ q, q ∈ qs ↔ m.Trans s X q) ∧
      cs = qs.map .shift ++ (if s = 0 ∧ X = g.start then [.accept] else []) := by
    rintro cs ⟨qs, rs, e1, e2, e3, e4⟩
    have hrs : rs = [] := by
      cases rs with
      | nil => rfl
      | cons r _ =>
        have := ((e4 r).mp List.mem_cons_self).2.1
        unfold Gram.nlow at hX
        omega
    refine ⟨qs, by rw [e2.length_eq]; exact shiftTargets_nt wf hok hs hX, ?_, by rw [e1, hrs]; simp⟩
    intro q
    rw [e2.mem_iff, mem_shiftTargets]
    constructor
    · rintro ⟨Y, k1, k2⟩
      rw [(shiftSyms_nt wf hX).mp k2]; exact k1
    · intro k1
      exact ⟨X, k1, (shiftSyms_nt wf hX).mpr rfl⟩
  rcases h2 with ⟨h2, h3, _⟩ | ⟨c, cs, o, h2, h3, h4⟩
  · obtain ⟨qs, _, k1, k2⟩ := hcs _ h2
    rw [h3]
    have k3 := k2.symm
    rw [List.append_eq_nil_iff, List.map_eq_nil_iff] at k3
    refine ⟨fun q => ⟨fun h => ?_, fun h => by cases h⟩, fun h => ?_, fun h => by cases h⟩
    · have := (k1 q).mpr h; rw [k3.1] at this; cases this
    · rw [if_pos h] at k3; cases k3.2
  · obtain ⟨qs, k0, k1, k2⟩ := hcs _ h2
    rcases qs with _ | ⟨q0, _ | ⟨q1, qs⟩⟩
    · -- acceptance only
      simp only [List.map_nil, List.nil_append] at k2
      by_cases ha : s = 0 ∧ X = g.start
      · rw [if_pos ha] at k2
        simp only [List.cons.injEq] at k2
        obtain ⟨rfl, rfl⟩ := k2
        simp only [settle, Option.some.injEq, Prod.mk.injEq] at h3
        rw [h4, ← h3.1]
        refine ⟨fun q => ⟨fun h => ?_, fun h => by simp [Outcome.acts, Cand.act] at h⟩, fun _ => rfl, fun _ => ha⟩
        have := (k1 q).mpr h; cases this
      · rw [if_neg ha] at k2; cases k2
    · by_cases ha : s = 0 ∧ X = g.start
      · rw [if_pos ha] at k2
        simp only [List.map_cons, List.map_nil, List.cons_append, List.nil_append, List.cons.injEq] at k2
        obtain ⟨rfl, rfl⟩ := k2
        simp [settle, duel] at h3
      · rw [if_neg ha] at k2
        simp only [List.map_cons, List.map_nil, List.append_nil, List.cons.injEq] at k2
        obtain ⟨rfl, rfl⟩ := k2
        simp only [settle, Option.some.injEq, Prod.mk.injEq] at h3
        rw [h4, ← h3.1]
        refine ⟨fun q => ⟨fun h => ?_, fun h => ?_⟩, fun h => absurd h ha, fun h => by simp [Outcome.acts, Cand.act] at h⟩
        · have := (k1 q).mpr h
          simp only [List.mem_singleton] at this
          rw [this]; rfl
        · simp [Outcome.acts, Cand.act] at h
          exact (k1 q).mp (by simp [h])
    · simp at k0

end Verif.Lemon
