import Verif.Proofs.LemonConflict
import Verif.Proofs.LemonFollow
/-
The actions competing in a state.
-/
set_option autoImplicit false
namespace Verif.Lemon

variable {g : Gram} {m : Mach} {F : List TSet}

def Cand.rank : Cand → Nat
  | .shift _ => 0 | .accept => 1 | .reduce _ => 2

def Cand.shift? : Cand → Option Nat
  | .shift q => some q | _ => none

def Cand.reduce? : Cand → Option Nat
  | .reduce r => some r | _ => none

def Cand.accept? : Cand → Option Unit
  | .accept => some () | _ => none

theorem rank_split (cs : List Cand) (h : cs.Pairwise fun a b => a.rank ≤ b.rank) :
    cs = (cs.filterMap Cand.shift?).map .shift ++ (cs.filterMap Cand.accept?).map (fun _ => .accept) ++
      (cs.filterMap Cand.reduce?).map .reduce := by
  have h0 : ∀ cs : List Cand, (cs.filter fun a => a.rank == 0) = (cs.filterMap Cand.shift?).map .shift := by
    intro cs
    induction cs with
    | nil => rfl
    | cons a l ih => cases a <;> simp [Cand.rank, Cand.shift?, List.filter_cons, List.filterMap_cons] <;> exact ih
  have h1 : ∀ cs : List Cand, (cs.filter fun a => a.rank == 1) = (cs.filterMap Cand.accept?).map fun _ => .accept := by
    intro cs
    induction cs with
    | nil => rfl
    | cons a l ih => cases a <;> first | exact ih | exact congrArg (Cand.accept :: ·) ih
  have h2 : ∀ cs : List Cand, (cs.filter fun a => a.rank == 2) = (cs.filterMap Cand.reduce?).map .reduce := by
    intro cs
    induction cs with
    | nil => rfl
    | cons a l ih => cases a <;> simp [Cand.rank, Cand.reduce?, List.filter_cons, List.filterMap_cons] <;> exact ih
  have e := sorted_blocks Cand.rank 3 cs h (fun a _ => by cases a <;> simp [Cand.rank])
  conv_lhs => rw [e]
  simp only [show List.range 3 = [0, 1, 2] by decide, List.flatMap_cons, List.flatMap_nil, h0, h1, h2, List.append_nil, List.append_assoc]

/-- the competitor made by a call of `Action_add` -/
def rawCand (s t : Nat) (e : Nat × Nat × AType × Nat) : Option Cand :=
  if e.1 = s ∧ e.2.1 = t then (⟨e.2.1, e.2.2.1, e.2.2.2, 0⟩ : Act).cand else none

theorem comps_raw (raw : List (Nat × Nat × AType × Nat)) (s t : Nat) :
    (comps t (stateActs raw s)).Perm (raw.filterMap (rawCand s t)) := by
  unfold comps stateActs cands
  have h1 : ((raw.zipIdx.filter fun e => e.1.1 == s).map fun e => (⟨e.1.2.1, e.1.2.2.1, e.1.2.2.2, e.2⟩ : Act)).reverse.Perm
      ((raw.zipIdx.filter fun e => e.1.1 == s).map fun e => (⟨e.1.2.1, e.1.2.2.1, e.1.2.2.2, e.2⟩ : Act)) := List.reverse_perm _
  refine ((h1.filter _).filterMap _).trans ?_
  have : ∀ (raw : List (Nat × Nat × AType × Nat)) (k : Nat), List.filterMap Act.cand
      (List.filter (fun a => a.sp == t)
        (List.map (fun e => (⟨e.1.2.1, e.1.2.2.1, e.1.2.2.2, e.2⟩ : Act)) (List.filter (fun e => e.1.1 == s) (raw.zipIdx k)))) =
      raw.filterMap (rawCand s t) := by
    intro raw
    induction raw with
    | nil => intro k; rfl
    | cons e raw ih =>
      intro k
      rw [List.zipIdx_cons, List.filterMap_cons, List.filter_cons]
      have hc : ∀ (ty : AType) (a b i j : Nat), (⟨a, ty, b, i⟩ : Act).cand = (⟨a, ty, b, j⟩ : Act).cand := fun ty _ _ _ _ => by
        cases ty <;> rfl
      by_cases h1 : e.1 = s
      · by_cases h2 : e.2.1 = t
        · simp only [h1, beq_self_eq_true, if_true, List.map_cons, List.filter_cons, h2, List.filterMap_cons, rawCand, and_self]
          rw [hc _ _ _ _ 0, ih]
        · simp only [h1, beq_self_eq_true, if_true, List.map_cons, List.filter_cons, h2, beq_iff_eq, if_false, rawCand, and_false]
          exact ih _
      · simp only [h1, beq_iff_eq, if_false, rawCand, false_and]
        exact ih _
  rw [this]

/-- Where transitions of state `s` on symbol `t` lead (more than one only with multi-terminals) -/
def shiftTargets (g : Gram) (m : Mach) (s t : Nat) : List Nat :=
  m.shifts.flatMap fun e => if e.1 = s then ((g.shiftSyms e.2.1).filter fun X => X == t).map fun _ => e.2.2 else []

theorem mem_shiftTargets {s t q : Nat} : q ∈ shiftTargets g m s t ↔ ∃ X, m.Trans s X q ∧ t ∈ g.shiftSyms X := by
  unfold shiftTargets Mach.Trans
  simp only [List.mem_flatMap, Prod.exists]
  constructor
  · rintro ⟨a, X, b, h1, h2⟩
    split at h2
    · rename_i h
      subst h
      simp only [List.mem_map, List.mem_filter, beq_iff_eq] at h2
      obtain ⟨y, ⟨h3, rfl⟩, rfl⟩ := h2
      exact ⟨X, h1, h3⟩
    · simp at h2
  · rintro ⟨X, h1, h2⟩
    refine ⟨s, X, q, h1, ?_⟩
    simp only [if_true, List.mem_map, List.mem_filter, beq_iff_eq]
    exact ⟨t, ⟨h2, by simp⟩, by simp⟩

/-- The rules reduced in state `s` on `t` -/
def reduceRules (g : Gram) (m : Mach) (F : List TSet) (s t : Nat) : List Nat :=
  ((m.sts.getD s ⟨[], []⟩).cfgs.filter fun c => (g.rule c.item.1).rhs.length == c.item.2 && decide (t < g.nterm) &&
    setFind (m.fws F s c.item) t).map fun c => c.item.1

theorem raw_shift (s t : Nat) : (((rawActs g m F).filterMap (rawCand s t)).filterMap Cand.shift?).Perm (shiftTargets g m s t) := by
  have hA : ∀ l : List (Nat × Nat × Nat), ((l.flatMap fun e => (g.shiftSyms e.2.1).map fun sp => (e.1, sp, AType.SHIFT, e.2.2)).filterMap
      (rawCand s t)).filterMap Cand.shift? =
      l.flatMap fun e => if e.1 = s then ((g.shiftSyms e.2.1).filter fun X => X == t).map fun _ => e.2.2 else [] := by
    intro l
    induction l with
    | nil => rfl
    | cons e l ih =>
      rw [List.flatMap_cons, List.filterMap_append, List.filterMap_append, ih, List.flatMap_cons]
      congr 1
      induction g.shiftSyms e.2.1 with
      | nil => simp
      | cons X Xs ihX =>
        rw [List.map_cons, List.filterMap_cons]
        by_cases h1 : e.1 = s
        · by_cases h2 : X = t
          · simp_all [rawCand, Act.cand, Cand.shift?, List.filter_cons]
          · simp_all [rawCand, List.filter_cons]
        · simp_all [rawCand]
  unfold rawActs
  rw [List.filterMap_append, List.filterMap_append, List.filterMap_append, List.filterMap_append, hA]
  have hB : ((((List.range m.sts.length).flatMap fun s => (m.sts.getD s ⟨[], []⟩).cfgs.flatMap fun c =>
    if (g.rule c.item.1).rhs.length == c.item.2 then
      ((List.range g.nterm).filter fun j => setFind (m.fws F s c.item) j).map fun j => (s, j, AType.REDUCE, c.item.1)
    else []).filterMap (rawCand s t)).filterMap Cand.shift?) = [] := by
    rw [List.filterMap_filterMap, List.filterMap_eq_nil_iff]
    intro e he
    simp only [List.mem_flatMap] at he
    obtain ⟨s', _, c, _, he⟩ := he
    split at he
    · obtain ⟨j, _, rfl⟩ := List.mem_map.mp he
      unfold rawCand
      split <;> rfl
    · simp at he
  have hC : (([(0, g.start, AType.ACCEPT, 0)].filterMap (rawCand s t)).filterMap Cand.shift?) = [] := by
    rw [List.filterMap_filterMap, List.filterMap_eq_nil_iff]
    intro e he
    simp only [List.mem_singleton] at he
    subst he
    unfold rawCand
    split <;> rfl
  rw [hB, hC, List.append_nil, List.append_nil]
  exact (List.reverse_perm _).flatMap_right _

theorem raw_accept (s t : Nat) : ((rawActs g m F).filterMap (rawCand s t)).filterMap Cand.accept? =
    if s = 0 ∧ t = g.start then [()] else [] := by
  unfold rawActs
  rw [List.filterMap_append, List.filterMap_append, List.filterMap_append, List.filterMap_append]
  have hA : (((m.shifts.reverse.flatMap fun e => (g.shiftSyms e.2.1).map fun sp => (e.1, sp, AType.SHIFT, e.2.2)).filterMap
      (rawCand s t)).filterMap Cand.accept?) = [] := by
    rw [List.filterMap_filterMap, List.filterMap_eq_nil_iff]
    intro e he
    simp only [List.mem_flatMap, List.mem_map] at he
    obtain ⟨a, _, X, _, rfl⟩ := he
    unfold rawCand
    split <;> rfl
  have hB : ((((List.range m.sts.length).flatMap fun s => (m.sts.getD s ⟨[], []⟩).cfgs.flatMap fun c =>
    if (g.rule c.item.1).rhs.length == c.item.2 then
      ((List.range g.nterm).filter fun j => setFind (m.fws F s c.item) j).map fun j => (s, j, AType.REDUCE, c.item.1)
    else []).filterMap (rawCand s t)).filterMap Cand.accept?) = [] := by
    rw [List.filterMap_filterMap, List.filterMap_eq_nil_iff]
    intro e he
    simp only [List.mem_flatMap] at he
    obtain ⟨s', _, c, _, he⟩ := he
    split at he
    · obtain ⟨j, _, rfl⟩ := List.mem_map.mp he
      unfold rawCand
      split <;> rfl
    · simp at he
  rw [hA, hB, List.nil_append, List.nil_append]
  by_cases h : s = 0 ∧ t = g.start
  · obtain ⟨rfl, rfl⟩ := h
    simp [rawCand, Act.cand, Cand.accept?]
  · have : rawCand s t (0, g.start, AType.ACCEPT, 0) = none := by
      unfold rawCand
      rw [if_neg]
      rintro ⟨h1, h2⟩
      exact h ⟨h1.symm, h2.symm⟩
    simp [List.filterMap_cons, this, h]

theorem raw_reduce (s t : Nat) : ((rawActs g m F).filterMap (rawCand s t)).filterMap Cand.reduce? =
    if s < m.sts.length then reduceRules g m F s t else [] := by
  unfold rawActs
  rw [List.filterMap_append, List.filterMap_append, List.filterMap_append, List.filterMap_append]
  have hA : (((m.shifts.reverse.flatMap fun e => (g.shiftSyms e.2.1).map fun sp => (e.1, sp, AType.SHIFT, e.2.2)).filterMap
      (rawCand s t)).filterMap Cand.reduce?) = [] := by
    rw [List.filterMap_filterMap, List.filterMap_eq_nil_iff]
    intro e he
    simp only [List.mem_flatMap, List.mem_map] at he
    obtain ⟨a, _, X, _, rfl⟩ := he
    unfold rawCand
    split <;> rfl
  have hC : (([(0, g.start, AType.ACCEPT, 0)].filterMap (rawCand s t)).filterMap Cand.reduce?) = [] := by
    rw [List.filterMap_filterMap, List.filterMap_eq_nil_iff]
    intro e he
    simp only [List.mem_singleton] at he
    subst he
    unfold rawCand
    split <;> rfl
  rw [hA, hC, List.nil_append, List.append_nil, List.filterMap_flatMap, List.filterMap_flatMap, ← flatMap_one _ m.sts.length]
  apply List.flatMap_congr
  intro s' _
  by_cases hs : s' = s
  · subst hs
    rw [if_pos rfl, List.filterMap_flatMap, List.filterMap_flatMap]
    unfold reduceRules
    induction (m.sts.getD s' ⟨[], []⟩).cfgs with
    | nil => rfl
    | cons c cs ih =>
      rw [List.flatMap_cons, ih, List.filter_cons]
      by_cases h1 : (g.rule c.item.1).rhs.length = c.item.2
      · simp only [h1, beq_self_eq_true, if_true, Bool.true_and]
        have key : ∀ l : List Nat, l.Nodup → List.filterMap Cand.reduce? (List.filterMap (rawCand s' t)
            (List.map (fun j => (s', j, AType.REDUCE, c.item.1)) l)) = if t ∈ l then [c.item.1] else [] := by
          intro l
          induction l with
          | nil => intro _; rfl
          | cons j l ihl =>
            intro hnd
            obtain ⟨hn1, hn2⟩ := List.nodup_cons.mp hnd
            have ihl' := ihl hn2
            rw [List.map_cons, List.filterMap_cons]
            by_cases hj : j = t
            · subst hj
              simp_all [rawCand, Act.cand, Cand.reduce?, List.filterMap_cons]
            · have hj' : ¬ t = j := fun h => hj h.symm
              simp_all [rawCand, List.filterMap_cons]
        rw [key _ (List.Nodup.sublist List.filter_sublist List.nodup_range)]
        by_cases h2 : t < g.nterm ∧ setFind (m.fws F s' c.item) t = true
        · simp [List.mem_filter, h2]
        · have : (decide (t < g.nterm) && setFind (m.fws F s' c.item) t) = false := by
            simpa using h2
          simp only [this, Bool.false_eq_true, if_false, List.mem_filter, List.mem_range, h2, List.nil_append]
      · simp [h1]
  · rw [if_neg hs, List.filterMap_filterMap, List.filterMap_eq_nil_iff]
    intro e he
    simp only [List.mem_flatMap] at he
    obtain ⟨c, _, he⟩ := he
    split at he
    · obtain ⟨j, _, rfl⟩ := List.mem_map.mp he
      unfold rawCand
      simp [hs]
    · simp at he


/-- The actions competing for symbol `t` in state `s`, in the order in which they are compared: the
shifts (one for each transition, more than one only with multi-terminals), acceptance, and the
reductions by increasing rule number. -/
def Competitors (g : Gram) (m : Mach) (F : List TSet) (s t : Nat) (cs : List Cand) : Prop :=
  ∃ qs rs : List Nat, cs = qs.map .shift ++ (if s = 0 ∧ t = g.start then [.accept] else []) ++ rs.map .reduce ∧
    qs.Perm (shiftTargets g m s t) ∧ rs.Pairwise (· < ·) ∧
    ∀ r, r ∈ rs ↔ m.Item s r (g.rule r).rhs.length ∧ t < g.nterm ∧ setFind (m.fws F s (r, (g.rule r).rhs.length)) t = true

theorem mem_reduceRules {s t r : Nat} (hs : s < m.sts.length) : r ∈ reduceRules g m F s t ↔
    m.Item s r (g.rule r).rhs.length ∧ t < g.nterm ∧ setFind (m.fws F s (r, (g.rule r).rhs.length)) t = true := by
  unfold reduceRules Mach.Item
  rw [List.getD_eq_getElem?_getD, List.getElem?_eq_getElem hs]
  simp only [Option.getD_some, List.mem_map, List.mem_filter, Bool.and_eq_true, beq_iff_eq, decide_eq_true_eq,
    Option.some.injEq, exists_eq_left']
  constructor
  · rintro ⟨c, ⟨h1, ⟨h2, h3⟩, h4⟩, rfl⟩
    have e : c.item = (c.item.1, (g.rule c.item.1).rhs.length) := by rw [h2]
    exact ⟨by rw [← e]; exact List.mem_map.mpr ⟨c, h1, rfl⟩, h3, by rw [← e]; exact h4⟩
  · rintro ⟨h1, h2, h3⟩
    obtain ⟨c, hc, e⟩ := List.mem_map.mp h1
    have e1 : c.item.1 = r := by rw [e]
    refine ⟨c, ⟨hc, ⟨?_, h2⟩, ?_⟩, e1⟩
    · rw [e]
    · rw [e]; exact h3

theorem reduceRules_nodup (h : MachOK g m) {s t : Nat} (hs : s < m.sts.length) : (reduceRules g m F s t).Nodup := by
  unfold reduceRules
  rw [List.getD_eq_getElem?_getD, List.getElem?_eq_getElem hs, Option.getD_some]
  have hn := (h.st s _ (List.getElem?_eq_getElem hs)).sorted.nodup
  unfold St.items at hn
  have hn' : ((m.sts[s].cfgs.filter fun c => (g.rule c.item.1).rhs.length == c.item.2 && decide (t < g.nterm) &&
      setFind (m.fws F s c.item) t).map Config.item).Nodup := hn.sublist (List.filter_sublist.map _)
  rw [show (fun c : Config => c.item.1) = Prod.fst ∘ Config.item from rfl, ← List.map_map]
  refine hn'.map_on ?_
  intro a ha b hb hab
  obtain ⟨c, hc, rfl⟩ := List.mem_map.mp ha
  obtain ⟨d, hd, rfl⟩ := List.mem_map.mp hb
  have h1 := (List.mem_filter.mp hc).2
  have h2 := (List.mem_filter.mp hd).2
  simp only [Bool.and_eq_true, beq_iff_eq] at h1 h2
  exact Prod.ext hab (by rw [← h1.1.1, ← h2.1.1, hab])

theorem rawActs_index (wf : g.WF) (hst : g.nlow ≤ g.start ∧ g.start < g.nsym) (h : MachOK g m) (hsmall : g.nitems < 2 ^ 30) :
    ∀ e ∈ rawActs g m F, g.plain e.2.1 ∧ g.index e.2.1 < g.nsymbol ∧
      ((e.2.2.1 = .SHIFT) ∨ (e.2.2.1 = .REDUCE) ∨ (e.2.2.1 = .ACCEPT ∧ e.2.2.2 = 0)) := by
  have hterm : ∀ t, t < g.nterm → g.plain t ∧ g.index t < g.nsymbol := by
    intro t ht
    refine ⟨.inl ht, ?_⟩
    have := wf.nsym
    unfold Gram.nlow at this
    unfold Gram.index Gram.nsymbol
    rw [if_pos ht]; omega
  have hnt : ∀ A, g.nlow ≤ A → A < g.nsym → g.plain A ∧ g.index A < g.nsymbol := by
    intro A h1 h2
    refine ⟨.inr h1, ?_⟩
    unfold Gram.nlow at h1
    unfold Gram.index Gram.nsymbol
    split <;> omega
  intro e he
  unfold rawActs at he
  rw [List.mem_append, List.mem_append] at he
  rcases he with (he | he) | he
  · simp only [List.mem_flatMap, List.mem_map, List.mem_reverse] at he
    obtain ⟨⟨s, X, q⟩, hq, t, ht, rfl⟩ := he
    have hX : X < g.nsym := by
      have hq' : m.Trans s X q := hq
      have auto := h.isAuto hsmall
      obtain ⟨_, r, d, _, hd⟩ := (auto.ex s X (auto.lt s X q hq').1).mp ⟨q, hq'⟩
      have hnx := dotBefore_iff.mp hd
      have hr := rule_lt (g := g) (r := r) (d := d) hnx
      refine wf.rhs (g.rule r) ?_ X (List.mem_of_getElem? hnx)
      unfold Gram.rule
      rw [List.getD_eq_getElem?_getD, List.getElem?_eq_getElem hr]
      exact List.getElem_mem hr
    unfold Gram.shiftSyms at ht
    split at ht
    · rename_i hmt
      unfold Gram.subsym at ht
      have hm : g.mts.getD (X - g.nterm) [] ∈ g.mts := by
        rw [List.getD_eq_getElem?_getD] at ht ⊢
        cases hx : g.mts[X - g.nterm]? with
        | none => rw [hx] at ht; simp at ht
        | some l => simpa using List.mem_of_getElem? hx
      obtain ⟨p1, p2⟩ := hterm t (wf.mts _ hm t ht)
      exact ⟨p1, p2, .inl rfl⟩
    · rename_i hmt
      simp only [List.mem_singleton] at ht
      subst ht
      by_cases h1 : t < g.nterm
      · exact ⟨(hterm t h1).1, (hterm t h1).2, .inl rfl⟩
      · have h2 : g.nlow ≤ t := by
          unfold Gram.isMT at hmt
          simp at hmt
          omega
        exact ⟨(hnt t h2 hX).1, (hnt t h2 hX).2, .inl rfl⟩
  · simp only [List.mem_flatMap] at he
    obtain ⟨s, _, c, _, he⟩ := he
    split at he
    · obtain ⟨j, hj, rfl⟩ := List.mem_map.mp he
      have := List.mem_range.mp (List.mem_filter.mp hj).1
      exact ⟨(hterm j this).1, (hterm j this).2, .inr (.inl rfl)⟩
    · simp at he
  · simp only [List.mem_singleton] at he
    subst he
    exact ⟨(hnt _ hst.1 hst.2).1, (hnt _ hst.1 hst.2).2, .inr (.inr ⟨rfl, rfl⟩)⟩

theorem mem_stateActs {raw : List (Nat × Nat × AType × Nat)} {s : Nat} {a : Act} (h : a ∈ stateActs raw s) :
    (s, a.sp, a.type, a.x) ∈ raw := by
  unfold stateActs at h
  rw [List.mem_reverse, List.mem_map] at h
  obtain ⟨e, he, rfl⟩ := h
  obtain ⟨h1, h2⟩ := List.mem_filter.mp he
  simp only [beq_iff_eq] at h2
  have := List.mem_of_getElem? (List.mk_mem_zipIdx_iff_getElem?.mp h1)
  rw [← h2]
  exact this

theorem stateActs_length {raw : List (Nat × Nat × AType × Nat)} {s : Nat} : (stateActs raw s).length ≤ raw.length := by
  unfold stateActs
  rw [List.length_reverse, List.length_map]
  refine Nat.le_trans (List.length_filter_le _ _) ?_
  simp

theorem fresh_state (wf : g.WF) (hst : g.nlow ≤ g.start ∧ g.start < g.nsym) (h : MachOK g m) (hsmall : g.nitems < 2 ^ 30) (s : Nat) :
    FreshActs g g.nsymbol (stateActs (rawActs g m F) s) := by
  intro a ha
  obtain ⟨h1, h2, h3⟩ := rawActs_index wf hst h hsmall _ (mem_stateActs ha)
  refine ⟨h1, h2, ?_⟩
  simp only at h3
  rcases h3 with h3 | h3 | ⟨h3, h4⟩
  · exact ⟨.shift a.x, by simp [Act.cand, h3], by simp [Cand.act, h3]⟩
  · exact ⟨.reduce a.x, by simp [Act.cand, h3], by simp [Cand.act, h3]⟩
  · exact ⟨.accept, by simp [Act.cand, h3], by simp [Cand.act, h3, h4]⟩

theorem cand_rank {a : Act} {c : Cand} (h : a.cand = some c) : c.rank = a.type.code := by
  obtain ⟨s, ty, x, i⟩ := a
  cases ty <;> simp [Act.cand] at h <;> subst h <;> rfl

/-- the competitors in the sorted list of a state -/
theorem comps_spec (wf : g.WF) (hst : g.nlow ≤ g.start ∧ g.start < g.nsym) (h : MachOK g m) (hsmall : g.nitems < 2 ^ 30)
    (hlen : (rawActs g m F).length < 2 ^ 30) {s : Nat} (hs : s < m.sts.length) (t : Nat) :
    Competitors g m F s t (comps t (actionSort g (stateActs (rawActs g m F) s))) := by
  obtain ⟨hp, hsort⟩ := actionSort_spec (g := g) (Nat.lt_of_le_of_lt (stateActs_length (raw := rawActs g m F) (s := s)) hlen)
  have hfresh := fresh_state (F := F) wf hst h hsmall s
  generalize hl : actionSort g (stateActs (rawActs g m F) s) = l at hp hsort
  have hperm : (comps t l).Perm ((rawActs g m F).filterMap (rawCand s t)) := by
    refine List.Perm.trans ?_ (comps_raw (rawActs g m F) s t)
    exact (hp.filter _).filterMap _
  have hgrp : ∀ a ∈ l.filter (fun a => a.sp == t), a.sp = t ∧ ∃ c, a.cand = some c ∧ c.act = (a.type, a.x) := by
    intro a ha
    obtain ⟨h1, h2⟩ := List.mem_filter.mp ha
    exact ⟨by simpa using h2, (hfresh a (hp.mem_iff.mp h1)).2.2⟩
  have hpair : (comps t l).Pairwise fun a b => a.rank ≤ b.rank ∧ (∀ r r', a = .reduce r → b = .reduce r' → r ≤ r') := by
    unfold comps cands
    rw [List.pairwise_filterMap]
    have hs2 := hsort.sublist (List.filter_sublist (p := fun a => a.sp == t))
    refine (List.Pairwise.and_mem.mp hs2).imp ?_
    rintro a b ⟨ha, hb, hab⟩ ca hca cb hcb
    have h1 := (hgrp a ha).1
    have h2 := (hgrp b hb).1
    rw [actioncmp_le, h1, h2] at hab
    have e1 := cand_rank hca
    have e2 := cand_rank hcb
    constructor
    · rcases hab with hab | ⟨_, hab | ⟨hab, _⟩⟩
      · omega
      · omega
      · rw [e1, e2, hab]
    · rintro r r' rfl rfl
      have hta : a.type = .REDUCE ∧ a.x = r := by
        obtain ⟨s, ty, x, i⟩ := a
        cases ty <;> simp [Act.cand] at hca
        exact ⟨rfl, hca⟩
      have htb : b.type = .REDUCE ∧ b.x = r' := by
        obtain ⟨s, ty, x, i⟩ := b
        cases ty <;> simp [Act.cand] at hcb
        exact ⟨rfl, hcb⟩
      rw [hta.1, htb.1, hta.2, htb.2] at hab
      simp only [Nat.lt_irrefl, true_or, true_and, forall_const, false_or] at hab
      omega
  refine ⟨(comps t l).filterMap Cand.shift?, (comps t l).filterMap Cand.reduce?, ?_, ?_, ?_, ?_⟩
  · conv_lhs => rw [rank_split _ (hpair.imp fun h => h.1)]
    congr 2
    have hacc : ((comps t l).filterMap Cand.accept?).Perm (if s = 0 ∧ t = g.start then [()] else []) := by
      rw [← raw_accept (g := g) (m := m) (F := F) s t]
      exact hperm.filterMap _
    split at hacc
    · rename_i hc
      rw [List.perm_singleton.mp hacc, if_pos hc]
      rfl
    · rename_i hc
      rw [List.perm_nil.mp hacc, if_neg hc]
      rfl
  · exact (hperm.filterMap _).trans (raw_shift s t)
  · have hp2 : ((comps t l).filterMap Cand.reduce?).Perm (reduceRules g m F s t) := by
      have := raw_reduce (g := g) (m := m) (F := F) s t
      rw [if_pos hs] at this
      rw [← this]
      exact hperm.filterMap _
    have hnd := (hp2.nodup_iff).mpr (reduceRules_nodup (F := F) (t := t) h hs)
    have hle : ((comps t l).filterMap Cand.reduce?).Pairwise (· ≤ ·) := by
      rw [List.pairwise_filterMap]
      refine hpair.imp ?_
      rintro a b ⟨_, h2⟩ r hr r' hr'
      have ea : a = .reduce r := by cases a <;> simp [Cand.reduce?] at hr; rw [hr]
      have eb : b = .reduce r' := by cases b <;> simp [Cand.reduce?] at hr'; rw [hr']
      exact h2 r r' ea eb
    exact (hle.and hnd).imp fun {a b} ⟨h1, h2⟩ => Nat.lt_of_le_of_ne h1 h2
  · intro r
    have hp2 : ((comps t l).filterMap Cand.reduce?).Perm (reduceRules g m F s t) := by
      have := raw_reduce (g := g) (m := m) (F := F) s t
      rw [if_pos hs] at this
      rw [← this]
      exact hperm.filterMap _
    rw [hp2.mem_iff, mem_reduceRules hs]

end Verif.Lemon
