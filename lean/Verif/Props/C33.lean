import Verif.Proofs.LemonComp
import Verif.Props.C32
/-
C33: lemon's conflict resolution table.  C34: lemon and its assertions.  C53: both generators count
the same conflicts when precedence is ignored.
-/
set_option autoImplicit false
namespace Verif.Lemon
open Verif.Spec

/-- states and follow sets of a grammar -/
def Analysed (g : Gram) (m : Mach) (F : List TSet) : Prop :=
  ∃ fs, findFirstSets g = some fs ∧ findStates g fs = some m ∧ followSets m = some F

theorem Analysed.ok {g : Gram} {m : Mach} {F : List TSet} (h : Analysed g m F) (wf : g.WF) (hn : g.nitems < 2 ^ 30) :
    MachOK g m := by
  obtain ⟨fs, h1, h2, h3⟩ := h
  have hr : g.rules.length < 2 ^ 32 := by have := rules_le_nitems g; omega
  exact (states_ok_of_some wf (fsOK_of_some wf hr h1) hn h2).2

theorem analysed_of_analyse {g : Gram} (wf : g.WF) (hn : g.nitems < 2 ^ 30) {n : Nat} {m : Mach} {F : List TSet}
    (h : analyse g n = some (m, F)) : Analysed g m F := by
  unfold analyse at h
  obtain ⟨fs, h1, h2⟩ := Option.bind_eq_some_iff.mp h
  obtain ⟨m', h3, h4⟩ := Option.bind_eq_some_iff.mp h2
  obtain ⟨F', h5, h6⟩ := Option.map_eq_some_iff.mp h4
  simp only [Prod.mk.injEq] at h6
  obtain ⟨rfl, rfl⟩ := h6
  exact ⟨fs, C32_fuel g wf hn h1 h3 h5⟩

/-- the start symbol is a nonterminal -/
def StartNT (g : Gram) : Prop := g.nlow ≤ g.start ∧ g.start < g.nsym

/-- The actions of state `s` on symbol `t` that are not discarded, as type and argument -/
def Acts.on (A : Acts) (s t : Nat) : List (AType × Nat) := remains ((A.acts.getD s []).filter fun a => a.sp == t)

theorem foldr_err (l : List Count) : (l.foldr Count.add .zero).err = (l.map Count.err).sum ∧
    (l.foldr Count.add .zero).sr = (l.map Count.sr).sum ∧ (l.foldr Count.add .zero).rr = (l.map Count.rr).sum := by
  induction l with
  | nil => exact ⟨rfl, rfl, rfl⟩
  | cons a l ih => simp [Count.add, ih]

theorem foldl_err (l : List Count) (a : Count) : (l.foldl Count.add a).err = a.err + (l.map Count.err).sum ∧
    (l.foldl Count.add a).sr = a.sr + (l.map Count.sr).sum ∧ (l.foldl Count.add a).rr = a.rr + (l.map Count.rr).sum := by
  induction l generalizing a with
  | nil => simp
  | cons b l ih =>
    obtain ⟨h1, h2, h3⟩ := ih (a.add b)
    rw [List.foldl_cons, h1, h2, h3]
    simp only [Count.add, List.map_cons, List.sum_cons]
    omega

/-- Sum over all states and symbols -/
def sumOver (g : Gram) (n : Nat) (f : Nat → Nat → Nat) : Nat :=
  ((List.range n).map fun s => ((List.range g.nsymbol).map fun i => f s (g.sym i)).sum).sum

theorem findActions_spec {g : Gram} (wf : g.WF) (hst : StartNT g) (hn : g.nitems < 2 ^ 30) (ps : Nat → Option Nat) {m : Mach}
    {F : List TSet} (hm : MachOK g m) (hlen : (rawActs g m F).length < 2 ^ 30) :
    match findActions g ps m F with
    | none => ∃ s i, s < m.sts.length ∧ i < g.nsymbol ∧
        settleAll (gduel g ps (g.sym i)) (comps (g.sym i) (actionSort g (stateActs (rawActs g m F) s))) = none
    | some A => A.acts.length = m.sts.length ∧
        (∀ s < m.sts.length, List.Forall₂ Upd (actionSort g (stateActs (rawActs g m F) s)) (A.acts.getD s [])) ∧
        ∃ k : Nat → Nat → Count,
        (∀ s < m.sts.length, ∀ i < g.nsymbol,
          settleAll (gduel g ps (g.sym i)) (comps (g.sym i) (actionSort g (stateActs (rawActs g m F) s))) =
            some (A.on s (g.sym i), k s (g.sym i))) ∧
        A.count.err = sumOver g m.sts.length (fun s t => (k s t).err) ∧
        A.count.sr = sumOver g m.sts.length (fun s t => (k s t).sr) ∧
        A.count.rr = sumOver g m.sts.length (fun s t => (k s t).rr) := by
  have hsort : ∀ s, FreshActs g g.nsymbol (actionSort g (stateActs (rawActs g m F) s)) ∧
      (actionSort g (stateActs (rawActs g m F) s)).Pairwise (fun x y => actioncmp g x y ≤ 0) := by
    intro s
    obtain ⟨h1, h2⟩ := actionSort_spec (g := g) (Nat.lt_of_le_of_lt (stateActs_length (raw := rawActs g m F) (s := s)) hlen)
    exact ⟨fun a ha => fresh_state wf hst hm hn s a (h1.mem_iff.mp ha), h2⟩
  have hspec := fun s => state_spec (g := g) (ps := ps) (hsort s).1 (hsort s).2
  unfold findActions
  simp only []
  cases hr : (List.range m.sts.length).mapM (fun s => resolveAll g ps (actionSort g (stateActs (rawActs g m F) s)).length
      (actionSort g (stateActs (rawActs g m F) s))) with
  | none =>
    obtain ⟨s, hs, hs'⟩ := mapM_eq_none.mp hr
    have := hspec s
    rw [hs'] at this
    obtain ⟨i, h1, h2⟩ := this
    exact ⟨s, i, List.mem_range.mp hs, h1, h2⟩
  | some rs =>
    simp only [Option.map_some]
    obtain ⟨h1, h2⟩ := mapM_eq_some ([], Count.zero) hr
    generalize hR : (fun s => (resolveAll g ps (actionSort g (stateActs (rawActs g m F) s)).length
      (actionSort g (stateActs (rawActs g m F) s))).getD ([], .zero)) = R at h1 h2
    have h2' : ∀ s < m.sts.length, resolveAll g ps (actionSort g (stateActs (rawActs g m F) s)).length
        (actionSort g (stateActs (rawActs g m F) s)) = some (R s) := by
      intro s hs
      rw [← hR]; exact h2 s (List.mem_range.mpr hs)
    have hget : ∀ s < m.sts.length, (rs.map Prod.fst).getD s [] = (R s).1 := by
      intro s hs
      rw [h1, List.map_map, List.getD_eq_getElem?_getD, List.getElem?_map, List.getElem?_range hs]
      rfl
    have hsp : ∀ s < m.sts.length, _ := fun s hs => by
      have := hspec s
      rw [h2' s hs] at this
      exact this
    refine ⟨by rw [h1]; simp, ?_, ?_⟩
    · intro s hs
      show List.Forall₂ Upd _ ((rs.map Prod.fst).getD s [])
      rw [hget s hs]
      exact (hsp s hs).1
    · have hk : ∃ k : Nat → Nat → Count, ∀ s, s < m.sts.length →
          (∀ i < g.nsymbol, settleAll (gduel g ps (g.sym i)) (comps (g.sym i) (actionSort g (stateActs (rawActs g m F) s))) =
            some (remains ((R s).1.filter fun a => a.sp == g.sym i), k s i)) ∧
          (R s).2 = ((List.range g.nsymbol).map (k s)).foldr Count.add .zero := by
        have : ∀ s, ∃ k : Nat → Count, s < m.sts.length →
          (∀ i < g.nsymbol, settleAll (gduel g ps (g.sym i)) (comps (g.sym i) (actionSort g (stateActs (rawActs g m F) s))) =
            some (remains ((R s).1.filter fun a => a.sp == g.sym i), k i)) ∧
          (R s).2 = ((List.range g.nsymbol).map k).foldr Count.add .zero := by
          intro s
          by_cases hs : s < m.sts.length
          · obtain ⟨_, k, hk⟩ := hsp s hs
            exact ⟨k, fun _ => hk⟩
          · exact ⟨fun _ => .zero, fun h => absurd h hs⟩
        exact ⟨fun s => (this s).choose, fun s => (this s).choose_spec⟩
      obtain ⟨k, hk⟩ := hk
      refine ⟨fun s t => k s (g.index t), ?_, ?_⟩
      · intro s hs i hi
        unfold Acts.on
        show _ = some (_, k s (g.index (g.sym i)))
        rw [hget s hs, (hk s hs).1 i hi, index_sym]
      · have hsum : ∀ f : Count → Nat, (∀ l : List Count, f (l.foldr Count.add .zero) = (l.map f).sum) →
            ((rs.map Prod.snd).map f).sum = sumOver g m.sts.length fun s t => f (k s (g.index t)) := by
          intro f hf
          unfold sumOver
          rw [h1, List.map_map, List.map_map]
          congr 1
          apply List.map_congr_left
          intro s hs
          show f (R s).2 = _
          rw [(hk s (List.mem_range.mp hs)).2, hf, List.map_map]
          congr 1
          apply List.map_congr_left
          intro i _
          simp [index_sym]
        obtain ⟨e1, e2, e3⟩ := foldl_err (rs.map Prod.snd) .zero
        refine ⟨?_, ?_, ?_⟩
        · rw [e1, hsum Count.err fun l => (foldr_err l).1]; simp [Count.zero]
        · rw [e2, hsum Count.sr fun l => (foldr_err l).2.1]; simp [Count.zero]
        · rw [e3, hsum Count.rr fun l => (foldr_err l).2.2]; simp [Count.zero]

/-- C33.  When conflict processing ends normally, then for each state and each terminal or
nonterminal the actions that remain are those left by settling the competitors from left to right
by the precedence table: none if there are no competitors; one; or, after a tie on a
non-associative token, an error and one reduction.  The numbers of conflicts are those found while
settling. -/
theorem C33_resolution (g : Gram) (wf : g.WF) (hst : StartNT g) (hn : g.nitems < 2 ^ 30) (ps : Nat → Option Nat) (m : Mach)
    (F : List TSet) (hm : Analysed g m F) (hlen : (rawActs g m F).length < 2 ^ 30) (A : Acts)
    (hA : findActions g ps m F = some A) :
    A.acts.length = m.sts.length ∧ ∃ k : Nat → Nat → Count,
      (∀ s < m.sts.length, ∀ i < g.nsymbol,
        (Competitors g m F s (g.sym i) [] ∧ A.on s (g.sym i) = [] ∧ k s (g.sym i) = .zero) ∨
        ∃ c cs o, Competitors g m F s (g.sym i) (c :: cs) ∧
          settle (duel (g.precOf (g.sym i)) (g.assoc (g.sym i)) (rulePrecs g ps)) c cs = some (o, k s (g.sym i)) ∧
          A.on s (g.sym i) = o.acts) ∧
      A.count.err = sumOver g m.sts.length (fun s t => (k s t).err) ∧
      A.count.sr = sumOver g m.sts.length (fun s t => (k s t).sr) ∧
      A.count.rr = sumOver g m.sts.length (fun s t => (k s t).rr) := by
  have hok := hm.ok wf hn
  have := findActions_spec wf hst hn ps (F := F) hok hlen
  rw [hA] at this
  obtain ⟨h1, _, k, h2, h3⟩ := this
  refine ⟨h1, k, ?_, h3⟩
  intro s hs i hi
  have hc := comps_spec (F := F) wf hst hok hn hlen hs (g.sym i)
  have h := h2 s hs i hi
  generalize comps (g.sym i) (actionSort g (stateActs (rawActs g m F) s)) = cs at hc h
  cases cs with
  | nil =>
    simp only [settleAll, Option.some.injEq, Prod.mk.injEq] at h
    exact .inl ⟨hc, h.1.symm, h.2.symm⟩
  | cons c cs =>
    simp only [settleAll, Option.map_eq_some_iff, Prod.mk.injEq] at h
    obtain ⟨⟨o, k'⟩, e1, e2, e3⟩ := h
    refine .inr ⟨c, cs, o, hc, ?_, e2.symm⟩
    rw [← e3]; exact e1

/-! ### C34 -/

/-- a competitor without the target of shifts -/
def Cand.kind : Cand → Cand
  | .shift _ => .shift 0
  | c => c

theorem settle_kind {p : Option Int} {a : Assoc} {rp : Nat → Option Int} : ∀ (cs : List Cand) (c : Cand),
    settle (duel p a rp) c cs = none ↔ settle (duel p a rp) c.kind (cs.map Cand.kind) = none := by
  intro cs
  have hd : ∀ c e : Cand, duel p a rp c.kind e.kind = duel p a rp c e := by
    intro c e
    cases c <;> cases e <;> rfl
  induction cs with
  | nil => intro c; simp [settle]
  | cons e es ih =>
    intro c
    rw [List.map_cons, settle_cons, settle_cons, hd]
    cases duel p a rp c e with
    | first => exact ih c
    | second => exact ih e
    | conflict => simp only [Option.map_eq_none_iff]; exact ih c
    | neither =>
      by_cases he : es = []
      · simp [he]
      · simp [he]
    | abort => simp

theorem competitors_kind {g : Gram} {m : Mach} {F : List TSet} {s t : Nat} {cs cs' : List Cand} (h : Competitors g m F s t cs)
    (h' : Competitors g m F s t cs') : cs.map Cand.kind = cs'.map Cand.kind := by
  obtain ⟨qs, rs, h1, h2, h3, h4⟩ := h
  obtain ⟨qs', rs', h1', h2', h3', h4'⟩ := h'
  have hrs : rs = rs' := by
    have hp : rs.Perm rs' := by
      rw [List.perm_ext_iff_of_nodup (h3.imp Nat.ne_of_lt) (h3'.imp Nat.ne_of_lt)]
      intro r; rw [h4, h4']
    exact hp.eq_of_pairwise (le := (· < ·)) (fun a b _ _ h1 h2 => by omega) h3 h3'
  have hq : qs.length = qs'.length := (h2.trans h2'.symm).length_eq
  have hm : ∀ l : List Nat, (l.map Cand.shift).map Cand.kind = List.replicate l.length (.shift 0) := by
    intro l
    induction l with
    | nil => rfl
    | cons a l ih => simp only [List.map_cons, ih, List.length_cons, List.replicate_succ]; rfl
  rw [h1, h1', List.map_append, List.map_append, List.map_append, List.map_append, hm, hm, hq, hrs]

/-- C34, exactly when.  Conflict processing fails with an assertion exactly if in some state the
competitors for some symbol cannot be settled. -/
theorem C34_abort_iff (g : Gram) (wf : g.WF) (hst : StartNT g) (hn : g.nitems < 2 ^ 30) (ps : Nat → Option Nat) (m : Mach)
    (F : List TSet) (hm : Analysed g m F) (hlen : (rawActs g m F).length < 2 ^ 30) :
    findActions g ps m F = none ↔ ∃ s i, s < m.sts.length ∧ i < g.nsymbol ∧ ∃ c cs, Competitors g m F s (g.sym i) (c :: cs) ∧
      settle (duel (g.precOf (g.sym i)) (g.assoc (g.sym i)) (rulePrecs g ps)) c cs = none := by
  have hok := hm.ok wf hn
  have hspec := findActions_spec wf hst hn ps (F := F) hok hlen
  constructor
  · intro h
    rw [h] at hspec
    obtain ⟨s, i, hs, hi, he⟩ := hspec
    have hc := comps_spec (F := F) wf hst hok hn hlen hs (g.sym i)
    generalize comps (g.sym i) (actionSort g (stateActs (rawActs g m F) s)) = cs at hc he
    cases cs with
    | nil => cases he
    | cons c cs => exact ⟨s, i, hs, hi, c, cs, hc, Option.map_eq_none_iff.mp he⟩
  · rintro ⟨s, i, hs, hi, c, cs, hc, he⟩
    cases hA : findActions g ps m F with
    | none => rfl
    | some A =>
      rw [hA] at hspec
      obtain ⟨_, _, k, h2, _⟩ := hspec
      have h := h2 s hs i hi
      have hc' := comps_spec (F := F) wf hst hok hn hlen hs (g.sym i)
      generalize comps (g.sym i) (actionSort g (stateActs (rawActs g m F) s)) = cs' at hc' h
      have hk := competitors_kind hc hc'
      cases cs' with
      | nil => simp at hk
      | cons c' cs' =>
        simp only [List.map_cons, List.cons.injEq] at hk
        have := (settle_kind cs c).mp he
        rw [hk.1, hk.2] at this
        have := (settle_kind cs' c').mpr this
        simp only [settleAll, gduel] at h
        rw [this] at h
        cases h

theorem settle_good {d : Cand → Cand → Duel} : ∀ (cs : List Cand) (c : Cand),
    (c :: cs).Pairwise (fun a b => d a b ≠ .neither ∧ d a b ≠ .abort) → settle d c cs ≠ none := by
  intro cs
  induction cs with
  | nil => intro c _; simp [settle]
  | cons e es ih =>
    intro c h
    obtain ⟨h1, h2⟩ := List.pairwise_cons.mp h
    obtain ⟨h3, h4⟩ := List.pairwise_cons.mp h2
    have hce : (c :: es).Pairwise (fun a b => d a b ≠ .neither ∧ d a b ≠ .abort) :=
      List.pairwise_cons.mpr ⟨fun x hx => h1 x (List.mem_cons_of_mem _ hx), h4⟩
    obtain ⟨k1, k2⟩ := h1 e List.mem_cons_self
    rw [settle_cons]
    cases hd : d c e with
    | first => exact ih c hce
    | second => exact ih e h2
    | conflict => simpa using ih c hce
    | neither => exact absurd hd k1
    | abort => exact absurd hd k2

theorem settle_last {p : Option Int} {a : Assoc} {rp : Nat → Option Int} (ha : p ≠ none → a ≠ .UNK) : ∀ (qs : List Nat) (q r : Nat),
    settle (duel p a rp) (.shift q) (qs.map .shift ++ [.reduce r]) ≠ none := by
  intro qs
  induction qs with
  | nil =>
    intro q r
    simp only [List.map_nil, List.nil_append, settle, duel]
    cases p with
    | none => simp
    | some p =>
      cases rp r with
      | none => simp
      | some q' =>
        simp only
        split_ifs
        · simp
        · simp
        · have := ha (by simp)
          cases a <;> simp_all
  | cons q' qs ih =>
    intro q r
    rw [List.map_cons, List.cons_append, settle_cons]
    simp only [duel]
    simpa using ih q r

/-- C34.  Partial (the claim as stated is refuted by `C34_violated`): conflict processing ends
normally if the start symbol is on no right-hand side (`hS`), and no token of a non-associative
level has two competing reductions in one state (`hna`).  `hunk` says what the grammar reader
ensures: a token with a precedence has an associativity. -/
theorem C34_no_abort_partial (g : Gram) (wf : g.WF) (hst : StartNT g) (hn : g.nitems < 2 ^ 30) (ps : Nat → Option Nat) (m : Mach)
    (F : List TSet) (hm : Analysed g m F) (hlen : (rawActs g m F).length < 2 ^ 30)
    (hS : ∀ r ∈ g.rules, g.start ∉ r.rhs) (hunk : ∀ t, 0 ≤ g.prec t → g.assoc t ≠ .UNK)
    (hna : ∀ t, 0 ≤ g.prec t → (g.assoc t = .NONE ∨ g.assoc t = .PRECEDENCE) → ∀ s r r',
      m.Item s r (g.rule r).rhs.length → setFind (m.fws F s (r, (g.rule r).rhs.length)) t = true →
      m.Item s r' (g.rule r').rhs.length → setFind (m.fws F s (r', (g.rule r').rhs.length)) t = true → r = r') :
    ∃ A, findActions g ps m F = some A := by
  cases hA : findActions g ps m F with
  | some A => exact ⟨A, rfl⟩
  | none =>
    exfalso
    obtain ⟨s, i, hs, hi, c, cs, hc, he⟩ := (C34_abort_iff g wf hst hn ps m F hm hlen).mp hA
    obtain ⟨qs, rs, h1, h2, h3, h4⟩ := hc
    have hok := hm.ok wf hn
    have auto := hok.isAuto hn
    have hacc : (if s = 0 ∧ g.sym i = g.start then [Cand.accept] else []) = [] ∨ (qs = [] ∧ rs = []) := by
      by_cases hc : s = 0 ∧ g.sym i = g.start
      · right
        have hnt : ¬ g.sym i < g.nterm := by
          have := hst.1
          unfold Gram.nlow at this
          rw [hc.2]; omega
        constructor
        · have : ∀ q, q ∉ qs := by
            intro q hq
            obtain ⟨X, hX, ht⟩ := mem_shiftTargets.mp (h2.mem_iff.mp hq)
            unfold Gram.shiftSyms at ht
            split at ht
            · unfold Gram.subsym at ht
              rw [List.getD_eq_getElem?_getD] at ht
              cases hx : g.mts[X - g.nterm]? with
              | none => rw [hx] at ht; simp at ht
              | some l =>
                rw [hx] at ht
                exact hnt (wf.mts l (List.mem_of_getElem? hx) _ ht)
            · simp only [List.mem_singleton] at ht
              obtain ⟨_, r, d, _, hd⟩ := (auto.ex s X (auto.lt s X q hX).1).mp ⟨q, hX⟩
              have hnx := dotBefore_iff.mp hd
              have hr := rule_lt (g := g) (r := r) (d := d) hnx
              refine hS (g.rule r) ?_ ?_
              · unfold Gram.rule
                rw [List.getD_eq_getElem?_getD, List.getElem?_eq_getElem hr]
                exact List.getElem_mem hr
              · rw [← hc.2, ht]
                exact List.mem_of_getElem? hnx
          cases qs with
          | nil => rfl
          | cons q _ => exact absurd List.mem_cons_self (this q)
        · cases rs with
          | nil => rfl
          | cons r _ => exact absurd ((h4 r).mp List.mem_cons_self).2.1 hnt
      · left; rw [if_neg hc]
    rcases hacc with hacc | ⟨rfl, rfl⟩
    · rw [hacc, List.append_nil] at h1
      by_cases hp : 0 ≤ g.prec (g.sym i) ∧ (g.assoc (g.sym i) = .NONE ∨ g.assoc (g.sym i) = .PRECEDENCE)
      · have hone := hna _ hp.1 hp.2 s
        have hu : g.precOf (g.sym i) ≠ none → g.assoc (g.sym i) ≠ .UNK := fun _ => hunk _ hp.1
        cases rs with
        | nil =>
          have hgood : (c :: cs).Pairwise (fun a b => duel (g.precOf (g.sym i)) (g.assoc (g.sym i)) (rulePrecs g ps) a b ≠ .neither ∧
              duel (g.precOf (g.sym i)) (g.assoc (g.sym i)) (rulePrecs g ps) a b ≠ .abort) := by
            rw [h1, List.map_nil, List.append_nil, List.pairwise_map]
            exact List.pairwise_of_forall fun a b => by simp [duel]
          exact settle_good cs c hgood he
        | cons r rs =>
          have hrs : rs = [] := by
            cases rs with
            | nil => rfl
            | cons r' rs =>
              have k1 := (h4 r).mp List.mem_cons_self
              have k2 := (h4 r').mp (List.mem_cons_of_mem _ List.mem_cons_self)
              have := hone r r' k1.1 k1.2.2 k2.1 k2.2.2
              have := (List.pairwise_cons.mp h3).1 r' List.mem_cons_self
              omega
          subst hrs
          cases qs with
          | nil =>
            simp only [List.map_nil, List.nil_append, List.map_cons, List.cons.injEq] at h1
            rw [h1.2] at he
            simp [settle] at he
          | cons q qs =>
            simp only [List.map_cons, List.map_nil, List.cons_append, List.cons.injEq] at h1
            rw [h1.1, h1.2] at he
            exact settle_last hu qs q r he
      · have hgood : (c :: cs).Pairwise (fun a b => duel (g.precOf (g.sym i)) (g.assoc (g.sym i)) (rulePrecs g ps) a b ≠ .neither ∧
              duel (g.precOf (g.sym i)) (g.assoc (g.sym i)) (rulePrecs g ps) a b ≠ .abort) := by
          rw [h1, List.pairwise_append]
          refine ⟨?_, ?_, ?_⟩
          · rw [List.pairwise_map]
            exact List.pairwise_of_forall fun a b => by simp [duel]
          · rw [List.pairwise_map]
            refine List.pairwise_of_forall fun a b => ?_
            simp only [duel]
            cases rulePrecs g ps a <;> cases rulePrecs g ps b <;> simp
            split_ifs <;> simp
          · intro a ha b hb
            obtain ⟨q, _, rfl⟩ := List.mem_map.mp ha
            obtain ⟨r, _, rfl⟩ := List.mem_map.mp hb
            simp only [duel]
            cases hpt : g.precOf (g.sym i) with
            | none => simp
            | some p =>
              cases rulePrecs g ps r with
              | none => simp
              | some p' =>
                have hpos : 0 ≤ g.prec (g.sym i) := by
                  unfold Gram.precOf at hpt
                  split at hpt
                  · cases hpt
                  · omega
                have hu := hunk _ hpos
                have hq : g.assoc (g.sym i) ≠ .NONE ∧ g.assoc (g.sym i) ≠ .PRECEDENCE :=
                  ⟨fun h => hp ⟨hpos, .inl h⟩, fun h => hp ⟨hpos, .inr h⟩⟩
                simp only
                split_ifs
                · simp
                · simp
                · cases hass : g.assoc (g.sym i) <;> simp_all
        exact settle_good cs c hgood he
    · simp only [List.map_nil, List.nil_append, List.append_nil] at h1
      split at h1
      · simp only [List.cons.injEq] at h1
        rw [h1.2] at he
        simp [settle] at he
      · cases h1

/-- Precedence symbols of the rules, `FindRulePrecedences`.  With option `-u` no token and no rule has a precedence
from the file, and then it makes no difference that `ignorePrec` is false here. -/
def precsyms (g : Gram) (r : Nat) : Option Nat := findRulePrec g false g.yaccPrec (g.rule r)

/-- Expressions: `s ::= e. e ::= e PLUS e. e ::= e TIMES e. e ::= ID.`, both operators left
associative, `TIMES` binding tighter.  `$ PLUS TIMES ID` are 0…3, `s e` are 4 5. -/
def exExpr : Gram where
  nterm := 4
  mts := []
  nsym := 6
  rules := [⟨4, [5], none, true⟩, ⟨5, [5, 1, 5], none, true⟩, ⟨5, [5, 2, 5], none, true⟩, ⟨5, [3], none, true⟩]
  start := 4
  errsym := none
  wildcard := none
  prec := fun t => if t = 1 then 1 else if t = 2 then 2 else -1
  assoc := fun t => if t = 1 || t = 2 then .LEFT else .UNK

example : exExpr.WF ∧ StartNT exExpr := ⟨⟨by decide, by decide, by decide, by decide, by decide⟩, by decide, by decide⟩

/-- After `e PLUS e`: reduce on `$` and `PLUS`, shift on `TIMES`; no conflicts. -/
example : (analyse exExpr 20).bind (fun x => (findActions exExpr (precsyms exExpr) x.1 x.2).map fun A =>
      (A.count, (List.range 7).filter (fun s => ((x.1.sts.getD s ⟨[], []⟩).basis) == [(1, 1), (1, 3), (2, 1)]) |>.map fun s =>
        [A.on s 0, A.on s 1, A.on s 2, A.on s 3].map fun l => l.map Prod.fst)) =
    some (⟨0, 0, 0⟩, [[[.REDUCE], [.REDUCE], [.SHIFT], []]]) := by decide +kernel

/-- The same without precedences: four shift/reduce conflicts -/
example : (analyse exExpr 20).bind (fun x => (findActions exExpr (fun _ => none) x.1 x.2).map fun A => A.count) =
    some ⟨4, 4, 0⟩ := by decide +kernel

/-- `s ::= p T. s ::= q T. s ::= A T. p ::= A. [T] q ::= A. [T]` with `T` non-associative.
`$ A T` are 0 1 2, `s p q` are 3 4 5. -/
def exAbort : Gram where
  nterm := 3
  mts := []
  nsym := 6
  rules := [⟨3, [4, 2], none, true⟩, ⟨3, [5, 2], none, true⟩, ⟨3, [1, 2], none, true⟩, ⟨4, [1], some 2, true⟩, ⟨5, [1], some 2, true⟩]
  start := 3
  errsym := none
  wildcard := none
  prec := fun t => if t = 2 then 1 else -1
  assoc := fun t => if t = 2 then .NONE else .UNK

/-- `s ::= s A. s ::= A.`: the start symbol on a right-hand side.  `$ A` are 0 1, `s` is 2. -/
def exStartRhs : Gram where
  nterm := 2
  mts := []
  nsym := 3
  rules := [⟨2, [2, 1], none, true⟩, ⟨2, [1], none, true⟩]
  start := 2
  errsym := none
  wildcard := none
  prec := fun _ => -1
  assoc := fun _ => .UNK

theorem aborts {g : Gram} (wf : g.WF) (hn : g.nitems < 2 ^ 30) (n : Nat)
    (h : (analyse g n).map (fun x => findActions g (precsyms g) x.1 x.2) = some none) :
    ∃ m F, Analysed g m F ∧ findActions g (precsyms g) m F = none := by
  obtain ⟨⟨m, F⟩, h1, h2⟩ := Option.map_eq_some_iff.mp h
  exact ⟨m, F, analysed_of_analyse wf hn h1, h2⟩

/-- C34 fails: lemon aborts for a grammar in which a shift of a non-associative token ties with
one reduction while there is a second one (although no error was reported), and for a grammar
whose start symbol is on a right-hand side (after reporting that error). -/
theorem C34_violated :
    (exAbort.WF ∧ StartNT exAbort ∧ (∀ r ∈ exAbort.rules, exAbort.start ∉ r.rhs) ∧
      ∃ m F, Analysed exAbort m F ∧ findActions exAbort (precsyms exAbort) m F = none) ∧
    (exStartRhs.WF ∧ StartNT exStartRhs ∧
      ∃ m F, Analysed exStartRhs m F ∧ findActions exStartRhs (precsyms exStartRhs) m F = none) := by
  have w1 : exAbort.WF := ⟨by decide, by decide, by decide, by decide, by decide⟩
  have w2 : exStartRhs.WF := ⟨by decide, by decide, by decide, by decide, by decide⟩
  exact ⟨⟨w1, ⟨by decide, by decide⟩, by decide, aborts w1 (by decide) 20 (by decide +kernel)⟩,
    ⟨w2, ⟨by decide, by decide⟩, aborts w2 (by decide) 20 (by decide +kernel)⟩⟩

/-- `C34_no_abort_partial` applies to the expression grammar. -/
example : ∃ m F A, Analysed exExpr m F ∧ findActions exExpr (precsyms exExpr) m F = some A := by
  have wf : exExpr.WF := ⟨by decide, by decide, by decide, by decide, by decide⟩
  obtain ⟨fs, m, F, h1, h2, h3, _⟩ := C32_lookaheads exExpr wf (by decide)
  have hm : Analysed exExpr m F := ⟨fs, h1, h2, h3⟩
  have hlen : (analyse exExpr 20).map (fun x => decide ((rawActs exExpr x.1 x.2).length < 2 ^ 30)) = some true := by decide +kernel
  obtain ⟨⟨m', F'⟩, e1, e2⟩ := Option.map_eq_some_iff.mp hlen
  obtain ⟨fs', k1, k2, k3⟩ := analysed_of_analyse wf (by decide) e1
  rw [h1] at k1; cases k1
  rw [h2] at k2; cases k2
  rw [h3] at k3; cases k3
  obtain ⟨A, hA⟩ := C34_no_abort_partial exExpr wf ⟨by decide, by decide⟩ (by decide) (precsyms exExpr) m F hm (by simpa using e2)
    (by decide) (by intro t; simp only [exExpr]; split_ifs <;> simp_all) (by
      intro t _ h
      simp only [exExpr] at h
      split_ifs at h <;> simp at h)
  exact ⟨m, F, A, hm, hA⟩

/-! ### C53 -/

theorem settle_ignored {p : Option Int} {a : Assoc} : ∀ (cs : List Cand) (c : Cand),
    (c :: cs).Pairwise (fun a b => a.rank ≤ b.rank) → (∀ x ∈ c :: cs, x ≠ .accept) →
    ∃ k : Count, settle (duel p a (fun _ => none)) c cs = some (.one c, k) ∧ k.err = cs.length := by
  intro cs
  induction cs with
  | nil => intro c _ _; exact ⟨.zero, rfl, rfl⟩
  | cons e es ih =>
    intro c h hna
    obtain ⟨h1, h2⟩ := List.pairwise_cons.mp h
    obtain ⟨k, e1, e2⟩ := ih c (List.pairwise_cons.mpr ⟨fun x hx => h1 x (List.mem_cons_of_mem _ hx), (List.pairwise_cons.mp h2).2⟩)
      (fun x hx => hna x (by rcases List.mem_cons.mp hx with rfl | hx; · exact List.mem_cons_self
                             · exact List.mem_cons_of_mem _ (List.mem_cons_of_mem _ hx)))
    have hd : duel p a (fun _ => none) c e = .conflict ∧ (conflictCount c e).err = 1 := by
      have hr := h1 e List.mem_cons_self
      have n1 := hna c List.mem_cons_self
      have n2 := hna e (List.mem_cons_of_mem _ List.mem_cons_self)
      cases c <;> cases e <;> simp [Cand.rank] at hr n1 n2 <;> simp [duel, conflictCount]
    refine ⟨(conflictCount c e).add k, ?_, ?_⟩
    · rw [settle_cons, hd.1, e1]; rfl
    · simp [Count.add, hd.2, e2]; omega

/-- C53 for lemon.  With precedences ignored, conflict processing counts for each state and token
one less than the number of competing actions, and keeps the first competitor (a shift before
reductions, a reduction before those of later rules). -/
theorem C53_lemon (g : Gram) (wf : g.WF) (hst : StartNT g) (hn : g.nitems < 2 ^ 30) (m : Mach)
    (F : List TSet) (hm : Analysed g m F) (hlen : (rawActs g m F).length < 2 ^ 30) (A : Acts)
    (hA : findActions g (fun _ => none) m F = some A) :
    ∃ k : Nat → Nat → Count, A.count.err = sumOver g m.sts.length (fun s t => (k s t).err) ∧
      ∀ s < m.sts.length, ∀ t < g.nterm, ∃ cs, Competitors g m F s t cs ∧ (k s t).err = cs.length - 1 ∧
        A.on s t = (cs.head?.map Cand.act).toList := by
  obtain ⟨_, k, h1, h2, _⟩ := C33_resolution g wf hst hn _ m F hm hlen A hA
  refine ⟨k, h2, ?_⟩
  intro s hs t ht
  have hi : t < g.nsymbol := by
    have := wf.nsym
    unfold Gram.nlow at this
    unfold Gram.nsymbol
    omega
  have hsym : g.sym t = t := by unfold Gram.sym; rw [if_pos ht]
  have hstart : ¬ (s = 0 ∧ t = g.start) := by
    have := hst.1
    unfold Gram.nlow at this
    omega
  have := h1 s hs t hi
  rw [hsym] at this
  rcases this with ⟨h3, h4, h5⟩ | ⟨c, cs, o, h3, h4, h5⟩
  · exact ⟨[], h3, by rw [h5]; rfl, by rw [h4]; rfl⟩
  · refine ⟨c :: cs, h3, ?_⟩
    have hrp : rulePrecs g (fun _ => none) = fun _ => none := rfl
    rw [hrp] at h4
    obtain ⟨qs, rs, e1, _⟩ := h3
    rw [if_neg hstart, List.append_nil] at e1
    obtain ⟨k', e2, e3⟩ := settle_ignored (p := g.precOf t) (a := g.assoc t) cs c (by
        rw [e1, List.pairwise_append]
        refine ⟨?_, ?_, ?_⟩
        · rw [List.pairwise_map]; exact List.pairwise_of_forall fun a b => by simp [Cand.rank]
        · rw [List.pairwise_map]; exact List.pairwise_of_forall fun a b => by simp [Cand.rank]
        · intro a ha b hb
          obtain ⟨q, _, rfl⟩ := List.mem_map.mp ha
          obtain ⟨r, _, rfl⟩ := List.mem_map.mp hb
          simp [Cand.rank])
      (by
        rw [e1]
        intro x hx
        rcases List.mem_append.mp hx with hx | hx <;> obtain ⟨q, _, rfl⟩ := List.mem_map.mp hx <;> simp)
    rw [h4] at e2
    simp only [Option.some.injEq, Prod.mk.injEq] at e2
    obtain ⟨rfl, rfl⟩ := e2
    exact ⟨by simpa using e3, by rw [h5]; rfl⟩

end Verif.Lemon
