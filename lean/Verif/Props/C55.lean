import Verif.Props.C08
/-
C55 — work buffers of the lookahead computation (byacc/lalr.c).
-/
set_option autoImplicit false
namespace Verif.Byacc
open Spec

/-! ### maxrhs -/

theorem maxrhs_blocks (rules : List (Nat × List Nat)) : ∀ (k mx : Nat), 1 ≤ k →
    (blocks k rules).foldl (fun (st : Nat × Nat) (x : Int) =>
      if x ≥ 0 then (st.1 + 1, st.2) else (0, if st.1 > st.2 then st.1 else st.2)) (0, mx) =
    (0, rules.foldl (fun mx r => max mx r.2.length) mx) := by
  have hal : ∀ (α : List Nat) (l mx : Nat), (α.map (fun x : Nat => (x : Int))).foldl (fun (st : Nat × Nat) (x : Int) =>
      if x ≥ 0 then (st.1 + 1, st.2) else (0, if st.1 > st.2 then st.1 else st.2)) (l, mx) = (l + α.length, mx) := by
    intro α
    induction α with
    | nil => intro l mx; rfl
    | cons x α ih =>
      intro l mx
      rw [List.map_cons, List.foldl_cons, if_pos (by omega), ih]
      simp; omega
  induction rules with
  | nil => intro k mx _; rfl
  | cons r rules ih =>
    intro k mx hk
    obtain ⟨A, α⟩ := r
    simp only [blocks, List.foldl_append, hal, List.foldl_cons]
    rw [if_neg (by omega), ih _ _ (by omega)]
    congr 2
    simp only [Nat.zero_add, Nat.max_def]
    split <;> split <;> omega

theorem foldl_max_le (rules : List (Nat × List Nat)) : ∀ mx, mx ≤ rules.foldl (fun mx r => max mx r.2.length) mx ∧
    ∀ r ∈ rules, r.2.length ≤ rules.foldl (fun mx r => max mx r.2.length) mx := by
  induction rules with
  | nil => intro mx; simp
  | cons r rules ih =>
    intro mx
    obtain ⟨h1, h2⟩ := ih (max mx r.2.length)
    simp only [List.foldl_cons]
    refine ⟨by omega, fun r' hr' => ?_⟩
    rcases List.mem_cons.mp hr' with rfl | h
    · omega
    · exact h2 r' h

/-- C55 (part): the `states` buffer of `maxrhs + 1` entries holds the states passed while
following any rule from any goto: the walk over a right side stores one state per symbol. -/
theorem C55_states_partial (lp : Bool) (ntokens nsyms : Nat) (rs : List SrcRule)
    (h : UserRules ntokens nsyms (rs.map SrcRule.rule)) (g : Gram)
    (hg : g = packGrammar lp ntokens nsyms (rs.map SrcRule.p) (encPitem rs)) :
    ∃ a, generateStates g = some a ∧ ∀ i, i < (setGotoMap g a).ngotos → ∀ s t, (setGotoMap g a).from_[i]? = some s →
      (setGotoMap g a).to_[i]? = some t → ∀ rule ∈ derives g (a.acc t),
        (s :: walkRhs a (g.ritem.drop (g.rhs rule)) s).length ≤ setMaxrhs g + 1 := by
  obtain ⟨a, N, ha, -, -, C⟩ := pipeline lp ntokens nsyms rs h g hg
  have hp := C.packs
  have hwf := C.wf
  refine ⟨a, ha, ?_⟩
  intro i hi s t hs ht rule hrule
  obtain ⟨hst, hv⟩ := C.nd_trans hi
  have e1 : (nd a (setGotoMap g a) i).1 = s := by simp [nd, List.getD_eq_getElem?_getD, hs]
  have e2 : (nd a (setGotoMap g a) i).2 = a.acc t := by simp [nd, List.getD_eq_getElem?_getD, ht]
  rw [e2] at hv
  have hnt := hwf.ntok
  rw [hp.ntok] at hv
  obtain ⟨r, α, rfl, hr⟩ := (mem_derives hp (by omega)).mp hrule
  rw [← e2] at hr
  rw [e1] at hst
  have hpl := (C.A.lt _ _ _ hst).1
  have hlen : (walkRhs a (g.ritem.drop
      (g.rhs (r+2))) s).length ≤ α.length := by
    -- the walk stops at the end of the rule
    have gen : ∀ (k : Nat) (l : List Int) (s : Nat), l.getD k 0 < 0 → (walkRhs a l s).length ≤ k := by
      intro k
      induction k with
      | zero =>
        intro l s hl
        cases l with
        | nil => simp at hl
        | cons x rest =>
          simp only [List.getD_cons_zero] at hl
          unfold walkRhs
          rw [if_neg (by omega)]; simp
      | succ k ih =>
        intro l s hl
        cases l with
        | nil => simp at hl
        | cons x rest =>
          simp only [List.getD_cons_succ] at hl
          unfold walkRhs
          split
          · simp only [List.length_cons]
            have := ih rest (findShift a s x.toNat) hl
            omega
          · simp
    apply gen
    have := hp.term r _ α hr
    unfold Gram.item at this
    rw [List.getD_eq_getElem?_getD, List.getElem?_drop, ← List.getD_eq_getElem?_getD, this]
    omega
  have hmax : α.length ≤ setMaxrhs g := by
    unfold setMaxrhs
    rw [hp.flat, List.foldl_cons, if_neg (by omega)]
    simp only [Nat.lt_irrefl, gt_iff_lt, if_false]
    rw [maxrhs_blocks _ _ _ (by omega)]
    exact (foldl_max_le _ 0).2 _ (List.mem_of_getElem? hr)
  simp only [List.length_cons]
  omega

/-- C55 (part): the `edge` buffer of `ngotos + 1` entries used for the `reads` relation is
never overrun: the edges of a goto are distinct gotos. -/
theorem C55_reads_partial (lp : Bool) (ntokens nsyms : Nat) (rs : List SrcRule)
    (h : UserRules ntokens nsyms (rs.map SrcRule.rule)) (g : Gram)
    (hg : g = packGrammar lp ntokens nsyms (rs.map SrcRule.p) (encPitem rs)) :
    ∃ a N F reads, generateStates g = some a ∧ setNullable g = some N ∧
      initF g a (setGotoMap g a) N = some (F, reads) ∧
      ∀ es ∈ reads, es.Nodup ∧ es.length ≤ (setGotoMap g a).ngotos := by
  obtain ⟨a, N, ha, hN, hnul, C⟩ := pipeline lp ntokens nsyms rs h g hg
  obtain ⟨F, reads, e, -, hrl, hlt, -, hmem⟩ := C.initF hnul
  refine ⟨a, N, F, reads, ha, hN, e, ?_⟩
  -- each list of edges is the image of distinct symbols
  have hnd : ∀ es ∈ reads, es.Nodup := by
    have hr : ((setGotoMap g a).to_.map (initRow g a (setGotoMap g a) N)).mapM (fun r => r.2) = some reads := by
      unfold initF at e
      simp only at e
      split at e
      · simp at e
      · next hx => simp only [Option.some.injEq, Prod.mk.injEq] at e; rw [hx, e.2]
    intro es hes
    have hsrc : ∃ q, (initRow g a (setGotoMap g a) N q).2 = some es := by
      have gen : ∀ (l : List (List Word × Option (List Nat))) (out : List (List Nat)), l.mapM (fun r => r.2) = some out →
          ∀ x ∈ out, ∃ r ∈ l, r.2 = some x := by
        intro l
        induction l with
        | nil => intro out ho x hx; simp at ho; subst ho; simp at hx
        | cons r l ih =>
          intro out ho x hx
          rw [List.mapM_cons] at ho
          cases hr2 : r.2 with
          | none => rw [hr2] at ho; simp at ho
          | some y =>
            cases hm : l.mapM (fun r => r.2) with
            | none => rw [hr2, hm] at ho; simp at ho
            | some ys =>
              rw [hr2, hm] at ho
              simp at ho
              subst ho
              rcases List.mem_cons.mp hx with rfl | hx
              · exact ⟨r, List.mem_cons_self, hr2⟩
              · obtain ⟨r', h1, h2⟩ := ih ys hm x hx
                exact ⟨r', List.mem_cons_of_mem _ h1, h2⟩
      obtain ⟨r, h1, h2⟩ := gen _ _ hr es hes
      obtain ⟨q, -, rfl⟩ := List.mem_map.mp h1
      exact ⟨q, h2⟩
    obtain ⟨q, hq⟩ := hsrc
    unfold initRow at hq
    simp only at hq
    have gen : ∀ (l : List Nat) (out : List Nat), l.Nodup →
        l.mapM (fun X => (mapGoto g (setGotoMap g a) q X).toOption) = some out →
        (∀ X ∈ l, ∃ i, i < (setGotoMap g a).ngotos ∧ mapGoto g (setGotoMap g a) q X = .found i ∧ nd a (setGotoMap g a) i = (q, X)) →
        out.Nodup ∧ ∀ j ∈ out, (nd a (setGotoMap g a) j).2 ∈ l := by
      intro l
      induction l with
      | nil => intro out _ ho _; simp at ho; subst ho; simp
      | cons X l ih =>
        intro out hnd ho hf
        obtain ⟨i, h1, h2, h3⟩ := hf X List.mem_cons_self
        rw [List.mapM_cons, h2] at ho
        cases hm : l.mapM (fun X => (mapGoto g (setGotoMap g a) q X).toOption) with
        | none => rw [hm] at ho; simp [MapRes.toOption] at ho
        | some ys =>
          rw [hm] at ho
          simp [MapRes.toOption] at ho
          subst ho
          rw [List.nodup_cons] at hnd
          obtain ⟨g1, g2⟩ := ih ys hnd.2 hm (fun Y hY => hf Y (List.mem_cons_of_mem _ hY))
          constructor
          · rw [List.nodup_cons]
            refine ⟨fun hi => hnd.1 ?_, g1⟩
            have := g2 i hi
            rw [h3] at this
            exact this
          · intro j hj
            rcases List.mem_cons.mp hj with rfl | hj
            · rw [h3]; exact List.mem_cons_self
            · exact List.mem_cons_of_mem _ (g2 j hj)
    obtain ⟨hs, hm⟩ := C.syms q
    have hsub : (((a.shiftsOf q).map a.acc).dropWhile (fun X : Nat => !g.isVar (X : Int))).filter (fun X => nul N X)
        |>.Sublist ((a.shiftsOf q).map a.acc) :=
      List.filter_sublist.trans (List.dropWhile_sublist _)
    refine (gen _ es ((hs.sublist hsub).imp (fun h => Nat.ne_of_lt h)) hq ?_).1
    intro X hX
    have hfun : (fun X : Nat => !g.isVar (X : Int)) = (fun X => decide (X < g.ntokens)) := by
      funext X
      rw [Bool.eq_iff_iff, Bool.not_eq_true', decide_eq_true_eq, ← Bool.not_eq_true, isVar_iff]
      omega
    rw [hfun] at hX
    obtain ⟨h3, h4⟩ := ((sorted_split hs).2 X).mp (List.mem_filter.mp hX).1
    obtain ⟨u, hu⟩ := (hm X).mp h3
    exact C.find hu h4
  intro es hes
  refine ⟨hnd es hes, ?_⟩
  obtain ⟨i, hi⟩ := List.mem_iff_getElem?.mp hes
  have hsub : es.Subperm (List.range (setGotoMap g a).ngotos) := by
    apply (hnd es hes).subperm
    intro j hj
    rw [List.mem_range]
    apply hlt i
    rw [List.getD_eq_getElem?_getD, hi]; exact hj
  simpa using hsub.length_le

/-- `s: B C C C C | B C C C | B C C | B C | B ;  B: '2' ;  C: | '3'` (s = 5, B = 6, C = 7) -/
def c55B (i : Nat) : Bucket := ⟨i, decide (i < 4), 0, .TOKEN⟩
def c55Rules : List SrcRule :=
  [⟨c55B 5, [c55B 6, c55B 7, c55B 7, c55B 7, c55B 7], UNDEFINED, .TOKEN⟩,
   ⟨c55B 5, [c55B 6, c55B 7, c55B 7, c55B 7], UNDEFINED, .TOKEN⟩,
   ⟨c55B 5, [c55B 6, c55B 7, c55B 7], UNDEFINED, .TOKEN⟩,
   ⟨c55B 5, [c55B 6, c55B 7], UNDEFINED, .TOKEN⟩,
   ⟨c55B 5, [c55B 6], UNDEFINED, .TOKEN⟩,
   ⟨c55B 6, [c55B 2], UNDEFINED, .TOKEN⟩, ⟨c55B 7, [], UNDEFINED, .TOKEN⟩, ⟨c55B 7, [c55B 3], UNDEFINED, .TOKEN⟩]
def c55G : Gram := packGrammar false 4 8 (c55Rules.map SrcRule.p) (encPitem c55Rules)
def c55N : List Bool := (setNullable c55G).getD []
def c55A : LR0 := (genLoop c55G (setFirstDerives c55G) 20 (initialLR0 c55G)).getD ⟨[], [], []⟩

/-- The `includes` edges of one goto are not bounded by the number of gotos: here goto 0 has 15
edges while the buffer `edge` that `build_relations` fills has `ngotos + 1 = 7` entries. -/
theorem C55_includes_violated :
    UserRules 4 8 (c55Rules.map SrcRule.rule) ∧ generateStates c55G = some c55A ∧
    ∃ N lb inc es, setNullable c55G = some N ∧ relations c55G c55A (setGotoMap c55G c55A) N = some (lb, inc) ∧
      inc[0]? = some es ∧ (setGotoMap c55G c55A).ngotos + 1 < es.length := by
  refine ⟨⟨by decide, by decide, ?_⟩, genLoop_mono (m := 20) (by decide +kernel) (by decide +kernel), ?_⟩
  · intro A α h
    simp [c55Rules, SrcRule.rule, c55B] at h
    rcases h with ⟨rfl, rfl⟩ | ⟨rfl, rfl⟩ | ⟨rfl, rfl⟩ | ⟨rfl, rfl⟩ | ⟨rfl, rfl⟩ | ⟨rfl, rfl⟩ | ⟨rfl, rfl⟩ | ⟨rfl, rfl⟩ <;> simp
  · have hd : ∃ N, setNullable c55G = some N ∧
        (match relations c55G c55A (setGotoMap c55G c55A) N with
        | none => none
        | some (_, inc) => inc[0]?.map List.length) = some 15 := ⟨c55N, by decide +kernel, by decide +kernel⟩
    obtain ⟨N, h1, h2⟩ := hd
    cases hr : relations c55G c55A (setGotoMap c55G c55A) N with
    | none => rw [hr] at h2; simp at h2
    | some p =>
      rw [hr] at h2
      simp only [Option.map_eq_some_iff] at h2
      obtain ⟨es, h3, h4⟩ := h2
      exact ⟨N, p.1, p.2, es, h1, hr, h3, by rw [h4]; decide +kernel⟩

end Verif.Byacc
