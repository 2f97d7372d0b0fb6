import Verif.Proofs.LemonCompressed
import Verif.Proofs.LemonMeaning
import Verif.Proofs.LemonElideEnds
/-
`CompressTables`: when it ends.
-/
set_option autoImplicit false
namespace Verif.Lemon
open Verif.Spec

variable {g : Gram}

theorem mapM_isSome {α β : Type} {f : α → Option β} : ∀ {l : List α}, (∀ x ∈ l, ∃ y, f x = some y) → ∃ l', l.mapM f = some l'
  | [], _ => ⟨[], rfl⟩
  | x :: l, h => by
    obtain ⟨y, hy⟩ := h x List.mem_cons_self
    obtain ⟨l', hl'⟩ := mapM_isSome (l := l) fun x hx => h x (List.mem_cons_of_mem _ hx)
    exact ⟨y :: l', by rw [List.mapM_cons, hy, hl']; rfl⟩

theorem unit_closed (wf : g.WF) (hst : StartNT g) (hn : g.nitems < 2 ^ 30) {ps : Nat → Option Nat} {m : Mach}
    {F : List TSet} (hm : Analysed g m F) (hlen : (rawActs g m F).length < 2 ^ 30) {A : Acts}
    (hA : findActions g ps m F = some A) {s : Nat} (hs : s < m.sts.length) {X q r : Nat} (hX : g.nlow ≤ X) (hX' : X < g.nsym)
    (h1 : A.on s X = [(.SHIFT, q)]) (h2 : autoOf (A.acts.map (compressState g)) q = some r) (h3 : g.unitRule r) :
    (g.rule r).rhs = [X] ∧ A.on s (g.rule r).lhs ≠ [] ∧ r < g.rules.length := by
  have hok := hm.ok wf hn
  have auto := hok.isAuto hn
  have hAl : A.acts.length = m.sts.length := (C33_resolution g wf hst hn ps m F hm hlen A hA).1
  have htr : m.Trans s X q := ((on_nt wf hst hn hm hlen hA hs hX hX').1 q).mpr h1
  have hq := (auto.lt _ _ _ htr).2
  rw [autoOf_map _ _ (by rw [hAl]; exact hq)] at h2
  obtain ⟨hr, hon⟩ := resolved_of_findActions wf hst hn hok hlen hA hq
  -- `q` has the complete item
  have hit : m.Item q r (g.rule r).rhs.length ∧ (g.rule r).lhs ≠ g.start := by
    rcases compressState_spec wf hr with ⟨_, e, _⟩ | ⟨r', _, e1, ⟨a, ha, e2, e3⟩, _, _, _, _, _, _, _, e4, _⟩
    · rw [e] at h2; cases h2
    · rcases e4 with e4 | e4
      · rw [e4] at h2; cases h2
      · rw [e4] at h2; cases h2
        refine ⟨?_, by unfold Gram.lhsStart at e1; simpa using e1⟩
        have : (AType.REDUCE, r) ∈ A.on q a.sp := by
          rw [← hon]
          exact mem_onSym.mpr ⟨a, ha, by rw [e2]; rfl, rfl, by rw [e2, e3]⟩
        rcases on_sound wf hst hn hm hlen hA hq this with ⟨q', Y, h, _⟩ | ⟨r', h, h', _⟩ | ⟨h, _⟩
        · rcases h with h | h <;> cases h
        · cases h; exact h'
        · cases h
  rw [h3.1] at hit
  obtain ⟨hit, hns⟩ := hit
  have hk : m.Item s r 0 ∧ DotBefore g.ext r 0 X := by
    have := (auto.tgt _ _ _ htr r 1).mp hit
    cases this with
    | kern h =>
      obtain ⟨d', hd, h⟩ := h
      obtain rfl : d' = 0 := by omega
      exact h
  have hnx := dotBefore_iff.mp hk.2
  have hrl := rule_lt hnx
  refine ⟨?_, ?_, hrl⟩
  · unfold Gram.next at hnx
    obtain ⟨Y, hY⟩ := List.length_eq_one_iff.mp h3.1
    rw [hY] at hnx ⊢
    simpa using hnx
  · -- the item comes from the closure
    have hcl : ∃ r' d', m.Item s r' d' ∧ DotBefore g.ext r' d' (g.rule r).lhs := by
      rcases Nat.eq_zero_or_pos s with h0 | h0
      · subst h0
        have := (auto.item0 r 0).mp hk.1
        cases this with
        | kern h => exact absurd h.2.2 hns
        | step h hB hr' =>
          obtain ⟨_, e2, _⟩ := ext_rule.mp hr'
          exact ⟨_, _, (auto.item0 _ _).mpr h, by rw [e2]; exact hB⟩
      · obtain ⟨s', Y, _, ht⟩ := auto.reach s hs (by omega)
        have := (auto.tgt _ _ _ ht r 0).mp hk.1
        cases this with
        | kern h => obtain ⟨d', hd, _⟩ := h; omega
        | step h hB hr' =>
          obtain ⟨_, e2, _⟩ := ext_rule.mp hr'
          exact ⟨_, _, (auto.tgt _ _ _ ht _ _).mpr h, by rw [e2]; exact hB⟩
    obtain ⟨t, ht⟩ := (auto.ex s _ hs).mpr ⟨trivial, hcl⟩
    have hl : g.nlow ≤ (g.rule r).lhs ∧ (g.rule r).lhs < g.nsym := by
      unfold Gram.rule
      rw [List.getD_eq_getElem?_getD, List.getElem?_eq_getElem hrl]
      exact wf.lhs _ (List.getElem_mem hrl)
    rw [((on_nt wf hst hn hm hlen hA hs hl.1 hl.2).1 t).mp ht]
    simp

theorem compressTables_mono {fuel : Nat} {acts : List (List Act)} {cs : List CState} (h : compressTables g fuel acts = some cs)
    {fuel' : Nat} (hf : fuel ≤ fuel') : compressTables g fuel' acts = some cs := by
  unfold compressTables at h ⊢
  simp only at h ⊢
  generalize acts.map (compressState g) = S at h ⊢
  have : ∀ (L : List CState) (cs : List CState),
      L.mapM (fun c => (elideAll g fuel (c.acts.map (shiftReduce S))).map fun l => (⟨l, c.auto⟩ : CState)) = some cs →
      L.mapM (fun c => (elideAll g fuel' (c.acts.map (shiftReduce S))).map fun l => (⟨l, c.auto⟩ : CState)) = some cs := by
    intro L
    induction L with
    | nil => intro cs h; exact h
    | cons c L ih =>
      intro cs h
      rw [List.mapM_cons] at h ⊢
      obtain ⟨b, h1, h2⟩ := Option.bind_eq_some_iff.mp h
      obtain ⟨m, h3, h4⟩ := Option.bind_eq_some_iff.mp h2
      obtain ⟨l, h5, h6⟩ := Option.map_eq_some_iff.mp h1
      rw [elideAll_mono h5 hf, ih m h3, ← h4, ← h6]
      rfl
  exact this S cs h

/-- Compression ends if and only if in each state the chain of rules `A → B` to skip ends, for each
nonterminal. -/
theorem compressTables_ends_iff (wf : g.WF) (hst : StartNT g) (hn : g.nitems < 2 ^ 30) {ps : Nat → Option Nat} {m : Mach}
    {F : List TSet} (hm : Analysed g m F) (hlen : (rawActs g m F).length < 2 ^ 30) {A : Acts}
    (hA : findActions g ps m F = some A) :
    (∃ fuel cs, compressTables g fuel A.acts = some cs) ↔ ∀ s < m.sts.length, ∀ X, g.nlow ≤ X → X < g.nsym → A.on s X ≠ [] →
      ∃ e, Lands g (A.on s) (autoOf (A.acts.map (compressState g))) X e := by
  have hok := hm.ok wf hn
  have hAl : A.acts.length = m.sts.length := (C33_resolution g wf hst hn ps m F hm hlen A hA).1
  constructor
  · rintro ⟨fuel, cs, hcs⟩ s hs X hX hX' hne
    obtain ⟨hr, hon⟩ := resolved_of_findActions wf hst hn hok hlen hA hs
    obtain ⟨_, k1, k2⟩ := compressTables_get hcs (s := s) (by rw [hAl]; exact hs)
    obtain ⟨h1, h2⟩ := compressed_of wf hr k1
    rw [funext hon] at h1
    obtain ⟨e, _, h⟩ := h1.goto X hX hX' hne
    exact ⟨e, h⟩
  · intro h
    generalize hS : A.acts.map (compressState g) = S at h
    have hends : ∀ c ∈ S, ∃ N l', elideAll g N (c.acts.map (shiftReduce S)) = some l' := by
      intro c hc
      rw [← hS] at hc
      obtain ⟨l, hl, rfl⟩ := List.mem_map.mp hc
      obtain ⟨s, hs, rfl⟩ := List.getElem_of_mem hl
      have hs' : s < m.sts.length := by rw [← hAl]; exact hs
      obtain ⟨hr, hon⟩ := resolved_of_findActions wf hst hn hok hlen hA hs'
      have hgd : A.acts.getD s [] = A.acts[s] := by rw [List.getD_eq_getElem?_getD, List.getElem?_eq_getElem hs]; rfl
      rw [hgd] at hr hon
      have hpre := preElide_of wf hr S
      rw [funext hon] at hpre
      have hshape := compressState_spec wf hr
      have hsp : ∀ a ∈ (compressState g A.acts[s]).acts, (a.sp = g.nsym ∧ a.type = .REDUCE) ∨ ∃ b ∈ A.acts[s], a.sp = b.sp := by
        rcases hshape with ⟨_, e, _⟩ | ⟨r, _, _, _, _, _, _, _, _, e, _, _⟩
        · intro a ha; rw [e] at ha; exact .inr ⟨a, ha, rfl⟩
        · exact e
      -- symbols of the entries
      have hsym : ∀ a ∈ (compressState g A.acts[s]).acts.map (shiftReduce S),
          (a.sp = g.nsym ∧ a.type = .REDUCE) ∨ (g.plain a.sp ∧ a.sp < g.nsym) := by
        intro a ha
        obtain ⟨b, hb, rfl⟩ := List.mem_map.mp ha
        rw [shiftReduce_sp]
        rcases hsp b hb with ⟨h1, h2⟩ | ⟨c, hc, h1⟩
        · refine .inl ⟨h1, ?_⟩
          unfold shiftReduce
          simp [h2]
        · right
          rw [h1]
          refine ⟨(hr.sp c hc).1, ?_⟩
          rcases (hr.sp c hc).1 with h2 | h2
          · have := wf.nsym
            unfold Gram.nlow at this
            omega
          · exact plain_of_index h2 (hr.sp c hc).2
      have hmem_on : ∀ a ∈ (compressState g A.acts[s]).acts.map (shiftReduce S), g.nlow ≤ a.sp → a.sp < g.nsym → A.on s a.sp ≠ [] := by
        intro a ha h1 h2
        rcases hpre a.sp h1 (by omega) with ⟨e, _⟩ | ⟨a0, e, e'⟩
        · have : a ∈ ((compressState g A.acts[s]).acts.map (shiftReduce S)).filter fun b => b.sp == a.sp :=
            List.mem_filter.mpr ⟨ha, by simp⟩
          rw [e] at this; cases this
        · rcases e' with ⟨e1, _⟩ | ⟨q, e1, _⟩ <;> rw [e1] <;> simp
      have hlow : ∀ a ∈ (compressState g A.acts[s]).acts.map (shiftReduce S), g.elidable a = true → g.nlow ≤ a.sp ∧ a.sp < g.nsym := by
        intro a ha he
        rcases hsym a ha with ⟨_, h1⟩ | ⟨h1, h2⟩
        · rw [elidable_type he] at h1; cases h1
        · refine ⟨?_, h2⟩
          rcases h1 with h1 | h1
          · have := elidable_index he
            unfold Gram.index at this
            rw [if_pos h1] at this
            have : a.sp < g.nterm := h1
            omega
          · exact h1
      refine elideAll_ends wf _ ?_ ?_ (fun a ha he => (hlow a ha he).1)
      · rintro X Y hX ⟨a, ha, rfl, he, rfl⟩
        obtain ⟨h1, h2⟩ := hlow a ha he
        -- the action on the nonterminal
        obtain ⟨q, r, e1, e2, e3, e4⟩ : ∃ q r, A.on s a.sp = [(.SHIFT, q)] ∧ autoOf S q = some r ∧ g.unitRule r ∧ a.x = r := by
          have ham : a ∈ ((compressState g A.acts[s]).acts.map (shiftReduce S)).filter fun b => b.sp == a.sp :=
            List.mem_filter.mpr ⟨ha, by simp⟩
          rcases hpre a.sp h1 (by omega) with ⟨e, _⟩ | ⟨a0, e, e'⟩
          · rw [e] at ham; cases ham
          · rw [e, List.mem_singleton] at ham
            subst ham
            have hty := elidable_type he
            rcases e' with ⟨e1, e2⟩ | ⟨q, e1, e2⟩
            · simp only [Prod.mk.injEq] at e2; rw [e2.1] at hty; cases hty
            · cases hq : autoOf S q with
              | none =>
                have : srPair (autoOf S) (.SHIFT, q) = (.SHIFT, q) := by simp [srPair, hq]
                rw [this] at e2
                simp only [Prod.mk.injEq] at e2; rw [e2.1] at hty; cases hty
              | some r =>
                have : srPair (autoOf S) (.SHIFT, q) = (.SHIFTREDUCE, r) := by simp [srPair, hq]
                rw [this] at e2
                have hu := (unitRule_elidable e2 (index_nt h1)).mp he
                have hx : a.x = r := by simp only [Prod.mk.injEq] at e2; exact e2.2
                exact ⟨q, r, e1, hq, hu, hx⟩
        obtain ⟨_, hne, hrl⟩ := unit_closed wf hst hn hm hlen hA hs' h1 h2 e1 (by rw [hS]; exact e2) e3
        rw [e4]
        have hl : g.nlow ≤ (g.rule r).lhs ∧ (g.rule r).lhs < g.nsym := by
          unfold Gram.rule
          rw [List.getD_eq_getElem?_getD, List.getElem?_eq_getElem hrl]
          exact wf.lhs _ (List.getElem_mem hrl)
        rcases hpre _ hl.1 (by omega) with ⟨_, e⟩ | ⟨a0, e, _⟩
        · exact absurd e hne
        · have : a0 ∈ ((compressState g A.acts[s]).acts.map (shiftReduce S)).filter fun b => b.sp == (g.rule r).lhs := by rw [e]; simp
          obtain ⟨k1, k2⟩ := List.mem_filter.mp this
          exact ⟨a0, k1, by simpa using k2⟩
      · intro a ha h1
        rcases hsym a ha with ⟨h2, h3⟩ | ⟨_, h2⟩
        · refine ⟨_, fun Z hZ => ?_⟩
          obtain ⟨Y, ⟨b, hb, e1, e2, _⟩, _⟩ := Relation.TransGen.head'_iff.mp hZ
          have := (hlow b hb e2).2
          omega
        · obtain ⟨e, he⟩ := h s hs' a.sp h1 h2 (hmem_on a ha h1 h2)
          exact lands_acc wf hpre he h1 h2
    have hall : ∃ N, ∀ c ∈ S, ∃ l', elideAll g N (c.acts.map (shiftReduce S)) = some l' := by
      have : ∀ L : List CState, (∀ c ∈ L, c ∈ S) → ∃ N, ∀ c ∈ L, ∃ l', elideAll g N (c.acts.map (shiftReduce S)) = some l' := by
        intro L
        induction L with
        | nil => intro _; exact ⟨0, by simp⟩
        | cons c L ih =>
          intro hL
          obtain ⟨N, hN⟩ := ih fun c hc => hL c (List.mem_cons_of_mem _ hc)
          obtain ⟨N', l', h'⟩ := hends c (hL c List.mem_cons_self)
          refine ⟨max N N', fun d hd => ?_⟩
          rcases List.mem_cons.mp hd with rfl | hd
          · exact ⟨l', elideAll_mono h' (by omega)⟩
          · obtain ⟨l'', h''⟩ := hN d hd
            exact ⟨l'', elideAll_mono h'' (by omega)⟩
      exact this S fun _ h => h
    obtain ⟨N, hN⟩ := hall
    refine ⟨N, ?_⟩
    unfold compressTables
    simp only
    rw [hS]
    refine mapM_isSome ?_
    intro c hc
    obtain ⟨l', h'⟩ := hN c hc
    exact ⟨⟨l', c.auto⟩, by rw [h']; rfl⟩

end Verif.Lemon
