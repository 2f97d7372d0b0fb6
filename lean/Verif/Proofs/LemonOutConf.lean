import Verif.Proofs.LemonOutFile
/-
The report of lemon: the conflicts.
-/
set_option autoImplicit false
namespace Verif.Lemon
open OutSpec Verif.Spec

/-- types of actions that lost in a conflict that is counted -/
def AType.conflict : AType → Bool
  | .SSCONFLICT | .SRCONFLICT | .RRCONFLICT => true
  | _ => false

/-- numbers of conflicts in a list of actions -/
def confs (l : List Act) : Nat := l.countP fun a => a.type.conflict

theorem confs_cons (a : Act) (l : List Act) : confs (a :: l) = confs [a] + confs l := by
  unfold confs
  rw [List.countP_cons, List.countP_cons]
  simp [Nat.add_comm]

theorem confs_one (a : Act) : confs [a] = if a.type.conflict then 1 else 0 := by
  unfold confs
  simp [List.countP_cons]

variable {g : Gram}

theorem resolveConflict_confs {ps : Nat → Option Nat} {x y x' y' : Act} {c : Count} (h : resolveConflict g ps x y = some (x', y', c)) :
    confs [x'] + confs [y'] = confs [x] + confs [y] + c.err := by
  obtain ⟨xs, xt, xx, xi⟩ := x
  obtain ⟨ys, yt, yx, yi⟩ := y
  simp only [confs_one]
  unfold resolveConflict at h
  simp only at h
  split_ifs at h with h1 h2 h3 h4 h5 h6 h7 h8 h9 h10 h11 h12
  all_goals
    simp only [Option.some.injEq, Prod.mk.injEq] at h
    obtain ⟨rfl, rfl, rfl⟩ := h
    simp only [Bool.and_eq_true, beq_iff_eq] at *
    simp_all [AType.conflict, Count.zero]

theorem resolveRow_confs {ps : Nat → Option Nat} : ∀ {l : List Act} {x x' : Act} {l' : List Act} {c : Count}, resolveRow g ps x l = some (x', l', c) →
    confs [x'] + confs l' = confs [x] + confs l + c.err := by
  intro l
  induction l with
  | nil =>
    intro x x' l' c h
    unfold resolveRow at h
    simp only [Option.some.injEq, Prod.mk.injEq] at h
    obtain ⟨rfl, rfl, rfl⟩ := h
    rfl
  | cons y l ih =>
    intro x x' l' c h
    unfold resolveRow at h
    split_ifs at h
    · obtain ⟨⟨x1, y1, c1⟩, h1, h2⟩ := Option.bind_eq_some_iff.mp h
      obtain ⟨⟨x2, l2, c2⟩, h3, h4⟩ := Option.map_eq_some_iff.mp h2
      simp only [Prod.mk.injEq] at h4
      obtain ⟨rfl, rfl, rfl⟩ := h4
      have k1 := resolveConflict_confs h1
      have k2 := ih h3
      rw [confs_cons y1, confs_cons y]
      simp only [Count.add] at k1 k2 ⊢
      omega
    · simp only [Option.some.injEq, Prod.mk.injEq] at h
      obtain ⟨rfl, rfl, rfl⟩ := h
      rfl

theorem resolveAll_confs {ps : Nat → Option Nat} : ∀ {n : Nat} {l l' : List Act} {c : Count}, resolveAll g ps n l = some (l', c) →
    confs l' = confs l + c.err := by
  intro n
  induction n with
  | zero =>
    intro l l' c h
    unfold resolveAll at h
    simp only [Option.some.injEq, Prod.mk.injEq] at h
    obtain ⟨rfl, rfl⟩ := h
    rfl
  | succ n ih =>
    intro l l' c h
    cases l with
    | nil =>
      unfold resolveAll at h
      simp only [Option.some.injEq, Prod.mk.injEq] at h
      obtain ⟨rfl, rfl⟩ := h
      rfl
    | cons x l =>
      unfold resolveAll at h
      obtain ⟨⟨x1, l1, c1⟩, h1, h2⟩ := Option.bind_eq_some_iff.mp h
      obtain ⟨⟨l2, c2⟩, h3, h4⟩ := Option.map_eq_some_iff.mp h2
      simp only [Prod.mk.injEq] at h4
      obtain ⟨rfl, rfl⟩ := h4
      have k1 := resolveRow_confs h1
      have k2 := ih h3
      rw [confs_cons x1, confs_cons x]
      simp only [Count.add] at k1 k2 ⊢
      omega

theorem rawActs_type {m : Mach} {F : List TSet} {e : Nat × Nat × AType × Nat} (h : e ∈ rawActs g m F) : e.2.2.1.conflict = false := by
  unfold rawActs at h
  simp only [List.mem_append, List.mem_flatMap, List.mem_map, List.mem_singleton] at h
  rcases h with (⟨_, _, _, _, rfl⟩ | ⟨_, _, c, _, h⟩) | rfl
  · rfl
  · split_ifs at h
    · obtain ⟨_, _, rfl⟩ := List.mem_map.mp h
      rfl
    · cases h
  · rfl

theorem stateActs_confs {m : Mach} {F : List TSet} (s : Nat) : confs (stateActs (rawActs g m F) s) = 0 := by
  unfold confs
  rw [List.countP_eq_zero]
  intro a ha
  unfold stateActs at ha
  rw [List.mem_reverse] at ha
  obtain ⟨e, he, rfl⟩ := List.mem_map.mp ha
  have := (List.mem_filter.mp he).1
  simp only
  rw [rawActs_type (List.fst_mem_of_mem_zipIdx this)]
  simp

/-- what is counted is the number of actions that lost -/
theorem count_confs {ps : Nat → Option Nat} {m : Mach} {F : List TSet} {A : Acts} (hlen : (rawActs g m F).length < 2 ^ 30) (h : findActions g ps m F = some A) :
    A.count.err = (A.acts.map confs).sum := by
  unfold findActions at h
  obtain ⟨rs, h1, rfl⟩ := Option.map_eq_some_iff.mp h
  simp only
  rw [(foldl_err _ _).1]
  simp only [Count.zero, Nat.zero_add, List.map_map]
  congr 1
  apply List.map_congr_left
  intro r hr
  obtain ⟨e1, e2⟩ := mapM_eq_some ([], Count.zero) h1
  rw [e1] at hr
  obtain ⟨s, hs, rfl⟩ := List.mem_map.mp hr
  have k := resolveAll_confs (e2 s hs)
  obtain ⟨hp, _⟩ := actionSort_spec (g := g) (Nat.lt_of_le_of_lt (stateActs_length (raw := rawActs g m F) (s := s)) hlen)
  have k0 : confs (actionSort g (stateActs (rawActs g m F) s)) = 0 := by
    rw [← stateActs_confs (g := g) (m := m) (F := F) s]
    exact hp.countP_eq _
  rw [k0, Nat.zero_add] at k
  exact k.symm

theorem makeDefault_confs (r : Nat) (l : List Act) : confs (makeDefault g r l) = confs l := by
  have hm : ∀ l : List Act, confs (l.map fun b => if b.reduces r then { b with type := .NOT_USED } else b) = confs l := by
    intro l
    unfold confs
    rw [List.countP_map]
    congr 1
    funext b
    simp only [Function.comp]
    split_ifs with h
    · unfold Act.reduces at h
      simp only [Bool.and_eq_true, beq_iff_eq] at h
      rw [h.1]
      rfl
    · rfl
  induction l with
  | nil => rfl
  | cons a l ih =>
    rw [makeDefault]
    split_ifs with h
    · rw [confs_cons, confs_cons a l, hm]
      rfl
    · rw [confs_cons a, confs_cons a l, ih]

theorem compressState_confs {l : List Act} (hl : l.length < 2 ^ 30) : confs (compressState g l).acts = confs l := by
  unfold compressState
  generalize bestScan g l (0, none, false) = b
  obtain ⟨nb, rb, w⟩ := b
  cases rb with
  | none => rfl
  | some r =>
    simp only
    split
    · rfl
    · simp only
      rw [show confs (actionSort g (makeDefault g r l)) = confs (makeDefault g r l) from
        (actionSort_spec (g := g) (by rw [makeDefault_length]; exact hl)).1.countP_eq _, makeDefault_confs]

theorem compressState_mem {l : List Act} (hl : l.length < 2 ^ 30) {c : Act} (hc : c ∈ (compressState g l).acts) (hcc : c.type.conflict = true) : c ∈ l := by
  have hm : ∀ r, ∀ l : List Act, c ∈ makeDefault g r l → c ∈ l := by
    intro r l
    induction l with
    | nil => exact id
    | cons a l ih =>
      intro h
      rw [makeDefault] at h
      split_ifs at h with ha
      · rcases List.mem_cons.mp h with rfl | h
        · unfold Act.reduces at ha
          simp only [Bool.and_eq_true, beq_iff_eq] at ha
          simp only [ha.1] at hcc
          cases hcc
        · obtain ⟨b, hb, hbc⟩ := List.mem_map.mp h
          split_ifs at hbc
          · rw [← hbc] at hcc
            cases hcc
          · rw [← hbc]
            exact List.mem_cons_of_mem _ hb
      · rcases List.mem_cons.mp h with rfl | h
        · exact List.mem_cons_self
        · exact List.mem_cons_of_mem _ (ih h)
  unfold compressState at hc
  generalize bestScan g l (0, none, false) = b at hc
  obtain ⟨nb, rb, w⟩ := b
  cases rb with
  | none => exact hc
  | some r =>
    simp only at hc
    split at hc
    · exact hc
    · exact hm r l ((actionSort_spec (g := g) (by rw [makeDefault_length]; exact hl)).1.mem_iff.mp hc)

theorem shiftReduce_confs (sts : List CState) (l : List Act) : confs (l.map (shiftReduce sts)) = confs l := by
  unfold confs
  rw [List.countP_map]
  congr 1
  funext a
  simp only [Function.comp]
  unfold shiftReduce
  split_ifs with h
  · rw [beq_iff_eq] at h
    split
    · rw [h]; rfl
    · rfl
  · rfl

theorem elided_confs (wf : g.WF) {l0 : List Act} (hnt : ∀ b ∈ l0, g.nlow ≤ b.sp → b.type.conflict = false) {k l : List Act}
    (h : List.Forall₂ (Elided g l0) k l) : confs l = confs k := by
  induction h with
  | nil => rfl
  | @cons a0 a k l h _ ih =>
    rw [confs_cons, confs_cons a0, ih, confs_one, confs_one]
    obtain ⟨_, h | ⟨h1, b, hb, h2, h3⟩⟩ := h
    · simp only [Prod.mk.injEq] at h
      rw [h.1]
    · simp only [Prod.mk.injEq] at h3
      rw [h3.1, hnt b hb (unitReach_nt wf h2 (elidable_lhs wf h1))]
      unfold Gram.elidable at h1
      simp only [Bool.and_eq_true, beq_iff_eq] at h1
      rw [h1.1.1.1]
      rfl

/-- compression keeps the actions that lost -/
theorem cstate_confs {m : Mach} {cs : List CState} {compress : Bool} {F : List TSet} {A : Acts} (u : Usable g) (h : Prepared g compress m F A cs) {s : Nat}
    (hs : s < m.sts.length) : confs (cs.getD s ⟨[], none⟩).acts = confs (A.acts.getD s []) := by
  have hok := h.analysed.ok u.wf u.items
  obtain ⟨hr, _⟩ := resolved_of_findActions u.wf u.start u.items hok h.small h.actions hs
  have hspec := findActions_spec u.wf u.start u.items (precsyms g) (F := F) hok h.small
  rw [h.actions] at hspec
  have hAl : A.acts.length = m.sts.length := hspec.1
  cases hc : compress with
  | true =>
    obtain ⟨fuel, hf⟩ := h.compressed hc
    obtain ⟨_, k1, _⟩ := compressTables_get hf (s := s) (by rw [hAl]; exact hs)
    obtain ⟨j1, _⟩ := elideAll_spec u.wf k1
    rw [elided_confs u.wf ?_ j1, shiftReduce_confs, compressState_confs hr.len]
    intro b hb hn
    by_contra hcon
    have hcon : b.type.conflict = true := by simpa using hcon
    -- an action on a nonterminal that lost was there before
    have h1 : 0 < ((A.acts.getD s []).filter fun a => a.sp == b.sp).countP fun a => a.type.conflict := by
      obtain ⟨c, hc, rfl⟩ := List.mem_map.mp hb
      rw [shiftReduce_sp] at hn ⊢
      have hcc : c.type.conflict = true := by
        unfold shiftReduce at hcon
        split_ifs at hcon with hh
        · rw [beq_iff_eq] at hh
          split at hcon
          · simp [AType.conflict] at hcon
          · exact hcon
        · exact hcon
      rw [List.countP_pos_iff]
      rcases compressState_mem hr.len hc hcc with k
      exact ⟨c, List.mem_filter.mpr ⟨k, by simp⟩, hcc⟩
    rcases hr.nt b.sp hn with e | ⟨a, e, ea⟩
    · rw [e] at h1; simp at h1
    · rw [e] at h1
      rcases ea with ea | ea
      · simp [ea, AType.conflict] at h1
      · simp [ea.1, AType.conflict] at h1
  | false =>
    have hcs := h.uncompressed hc
    rw [hcs]
    unfold Lemon.uncompressed
    rw [List.getD_eq_getElem?_getD, List.getElem?_map, List.getElem?_eq_getElem (by omega), List.getD_eq_getElem?_getD, List.getElem?_eq_getElem (by omega)]
    rfl

end Verif.Lemon
