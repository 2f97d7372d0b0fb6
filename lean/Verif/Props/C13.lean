import Verif.Props.C11
/-
C13 — default reductions; C24 — unused rules (byacc/mkpar.c).
-/
set_option autoImplicit false
namespace Verif.Byacc
open Spec

theorem live_iff {x : Action} : x.live = true ↔ x.suppressed = 0 := by simp [Action.live]

theorem soleLoop_spec (r : Nat) (hr : 0 < r) : ∀ (acts : List Action) (c r0 : Nat), (r0 = 0 → c = 0) →
    (∀ x ∈ acts, x.code = .REDUCE → 0 < x.number) →
    (soleLoop acts c r0 = r ↔ (∀ x ∈ acts, x.live = true → x.code = .REDUCE ∧ x.number = r) ∧ (r0 = 0 ∨ r0 = r) ∧
      (0 < c ∨ ∃ x ∈ acts, x.live = true ∧ x.symbol ≠ 1)) := by
  intro acts
  induction acts with
  | nil =>
    intro c r0 hc _
    simp only [soleLoop]
    split
    · rename_i h; simp; omega
    · rename_i h; simp; omega
  | cons p l ih =>
    intro c r0 hc hpos
    have hpos' : ∀ x ∈ l, x.code = .REDUCE → 0 < x.number := fun x hx => hpos x (by simp [hx])
    simp only [soleLoop, List.mem_cons, forall_eq_or_imp, exists_eq_or_imp]
    by_cases hl : p.live = true
    · cases hcode : p.code with
      | SHIFT =>
        simp only [hl, and_self, if_true]
        constructor
        · intro h; omega
        · rintro ⟨⟨h, -⟩, -⟩
          have := (h trivial).1; cases this
      | REDUCE =>
        have hp := hpos p (by simp) hcode
        simp only [hl, and_self, and_true, if_true, true_and, reduceCtorEq, if_false]
        split
        · rename_i h
          constructor
          · intro h'; omega
          · rintro ⟨⟨h1, -⟩, h2, -⟩
            have := h1 trivial; omega
        · rename_i h
          rw [ih _ _ (by intro h'; omega) hpos']
          constructor
          · rintro ⟨h1, h2, h3⟩
            have e1 : p.number = r := by clear h3; omega
            have e2 : r0 = 0 ∨ r0 = r := by clear h3; omega
            refine ⟨⟨fun _ => e1, h1⟩, e2, ?_⟩
            rcases h3 with h3 | h3
            · split at h3
              · rename_i h4; exact .inr (.inl h4)
              · exact .inl h3
            · exact .inr (.inr h3)
          · rintro ⟨⟨h1, h1'⟩, h2, h3⟩
            have := h1 trivial
            refine ⟨h1', .inr this, ?_⟩
            rcases h3 with h3 | h3 | h3
            · left; split <;> omega
            · left; rw [if_pos h3]; omega
            · exact .inr h3
    · simp only [hl, and_false, if_false, false_and, false_or, IsEmpty.forall_iff, true_and, Bool.false_eq_true]
      exact ih c r0 hc hpos'

/-- C13: state `q` gets the default reduction `r` (not 0) exactly when every remaining action of
the state is a reduce by `r`, and at least one is on a token other than the error token (1);
every other state gets none (0). -/
theorem C13_default_reductions (lp : Bool) (ntokens nsyms : Nat) (rs : List SrcRule)
    (h : UserRules ntokens nsyms (rs.map SrcRule.rule)) (g : Gram)
    (hg : g = packGrammar lp ntokens nsyms (rs.map SrcRule.p) (encPitem rs))
    (sp : SymPrec) (lemon : Bool) (srExpect rrExpect : Int) :
    ∃ o, generate g sp lemon srExpect rrExpect = some o ∧ o.parser.defred.length = o.parser.rows.length ∧
      ∀ (q : Nat) (row : List Action), o.parser.rows[q]? = some row → ∀ r, 0 < r →
        (o.parser.defred[q]? = some r ↔
          (∀ x ∈ row, x.suppressed = 0 → x.code = .REDUCE ∧ x.number = r) ∧
          (∃ x ∈ row, x.suppressed = 0 ∧ x.symbol ≠ 1)) := by
  obtain ⟨o, ho, K⟩ := generate_ok lp ntokens nsyms rs h g hg sp lemon srExpect rrExpect
  have hd : o.parser.defred = o.parser.rows.map soleReduction := by rw [K.parser]; rfl
  refine ⟨o, ho, by rw [hd, List.length_map], ?_⟩
  intro q row hrow r hr
  have hq : q < o.aut.nstates := by rw [← K.rows_len]; exact (List.getElem?_eq_some_iff.mp hrow).1
  rw [hd, List.getElem?_map, hrow]
  simp only [Option.map_some, Option.some.injEq]
  have := soleLoop_spec r hr row 0 0 (fun _ => rfl) (by
    intro x hx hc
    have hrow' := K.rows q hq
    rw [hrow] at hrow'
    simp only [Option.some.injEq] at hrow'
    have hx' : x.supp 0 ∈ o.acts g sp q := by
      rw [← (K.row q hq).same, ← hrow']; exact List.mem_map.mpr ⟨x, hx, rfl⟩
    rcases (K.mem q hq _).mp hx' with ⟨X, t, -, -, e⟩ | ⟨r, t, -, -, -, e⟩
    · have : x.code = .SHIFT := congrArg Action.code e
      rw [hc] at this; cases this
    · have : x.number = r + 2 := congrArg Action.number e
      omega)
  unfold soleReduction
  rw [this]
  simp [live_iff]

example : (genWith 20 c09G c09SP false (-1) (-1)).map (fun o => o.parser.defred) = some [0, 5, 0, 0, 0, 0, 4] := by
  decide +kernel

/-! ## C24 -/

theorem rowUsed_spec (acts : List Action) (used : List Bool) (i : Nat) :
    (acts.foldl (fun used p => if p.code = .REDUCE ∧ p.live then used.set p.number true else used) used).length = used.length ∧
    ((acts.foldl (fun used p => if p.code = .REDUCE ∧ p.live then used.set p.number true else used) used).getD i false = true ↔
      used.getD i false = true ∨ (i < used.length ∧ ∃ p ∈ acts, p.code = .REDUCE ∧ p.live = true ∧ p.number = i)) := by
  induction acts generalizing used with
  | nil => simp
  | cons p l ih =>
    rw [List.foldl_cons]
    by_cases hp : p.code = .REDUCE ∧ p.live
    · rw [if_pos hp]
      obtain ⟨h1, h2⟩ := ih (used.set p.number true)
      rw [List.length_set] at h1
      refine ⟨h1, ?_⟩
      rw [h2, List.length_set]
      have hset : (used.set p.number true).getD i false = true ↔ used.getD i false = true ∨ (i < used.length ∧ p.number = i) := by
        rw [List.getD_eq_getElem?_getD, List.getElem?_set]
        split
        · rename_i h; subst h
          split
          · rename_i h; simp [h]
          · rename_i h; simp [h]
        · rename_i h; simp [List.getD_eq_getElem?_getD]
          intro _ h'; exact absurd h' h
      rw [hset]
      simp only [List.mem_cons, exists_eq_or_imp, hp.1, hp.2, true_and]
      tauto
    · rw [if_neg hp]
      obtain ⟨h1, h2⟩ := ih used
      refine ⟨h1, ?_⟩
      rw [h2]
      simp only [List.mem_cons, exists_eq_or_imp]
      constructor
      · rintro (h | ⟨h, h'⟩)
        · exact .inl h
        · exact .inr ⟨h, .inr h'⟩
      · rintro (h | ⟨h, h' | h'⟩)
        · exact .inl h
        · exact absurd ⟨h'.1, h'.2.1⟩ hp
        · exact .inr ⟨h, h'⟩

theorem rulesUsed_spec (n : Nat) (rows : List (List Action)) (i : Nat) :
    (rulesUsed n rows).length = n ∧
    ((rulesUsed n rows).getD i false = true ↔
      i < n ∧ ∃ row ∈ rows, ∃ p ∈ row, p.code = .REDUCE ∧ p.live = true ∧ p.number = i) := by
  unfold rulesUsed
  have key : ∀ (rows : List (List Action)) (used : List Bool), used.length = n →
      (rows.foldl (fun used acts => acts.foldl (fun used p =>
        if p.code = .REDUCE ∧ p.live then used.set p.number true else used) used) used).length = n ∧
      ((rows.foldl (fun used acts => acts.foldl (fun used p =>
        if p.code = .REDUCE ∧ p.live then used.set p.number true else used) used) used).getD i false = true ↔
      used.getD i false = true ∨
        i < n ∧ ∃ row ∈ rows, ∃ p ∈ row, p.code = .REDUCE ∧ p.live = true ∧ p.number = i) := by
    intro rows
    induction rows with
    | nil => intro used hu; simp [hu]
    | cons row rows ih =>
      intro used hu
      rw [List.foldl_cons]
      have hs := rowUsed_spec row used i
      obtain ⟨h1, h2⟩ := ih _ (hs.1.trans hu)
      refine ⟨h1, ?_⟩
      rw [h2, hs.2, hu]
      simp only [List.mem_cons, exists_eq_or_imp]
      constructor
      · rintro ((h | ⟨h, h'⟩) | ⟨h, h'⟩)
        · exact .inl h
        · exact .inr ⟨h, .inl h'⟩
        · exact .inr ⟨h, .inr h'⟩
      · rintro (h | ⟨h, h' | h'⟩)
        · exact .inl (.inl h)
        · exact .inl (.inr ⟨h, h'⟩)
        · exact .inr ⟨h, h'⟩
  obtain ⟨h1, h2⟩ := key rows (List.replicate n false) (by simp)
  refine ⟨h1, ?_⟩
  rw [h2]
  have : ¬ (List.replicate n false).getD i false = true := by
    rw [List.getD_eq_getElem?_getD, List.getElem?_replicate]
    split <;> simp
  exact ⟨fun h => h.resolve_left this, .inr⟩

theorem foldl_count {α : Type} (p : α → Bool) (l : List α) (n : Nat) :
    l.foldl (fun n i => if p i then n + 1 else n) n = n + l.countP p := by
  induction l generalizing n with
  | nil => simp
  | cons x l ih =>
    rw [List.foldl_cons, ih, List.countP_cons]
    split <;> omega

open Classical in
/-- C24: the number reported as "rules never reduced" is the number of user rules (the `k`-th
user rule has internal number `k + 3`) that no remaining action of any state reduces by. -/
theorem C24_unused (lp : Bool) (ntokens nsyms : Nat) (rs : List SrcRule)
    (h : UserRules ntokens nsyms (rs.map SrcRule.rule)) (g : Gram)
    (hg : g = packGrammar lp ntokens nsyms (rs.map SrcRule.p) (encPitem rs))
    (sp : SymPrec) (lemon : Bool) (srExpect rrExpect : Int) :
    ∃ o, generate g sp lemon srExpect rrExpect = some o ∧
      o.parser.nunused = (List.range rs.length).countP (fun k => decide
        (¬ ∃ row ∈ o.parser.rows, ∃ x ∈ row, x.code = .REDUCE ∧ x.suppressed = 0 ∧ x.number = k + 3)) := by
  obtain ⟨o, ho, K⟩ := generate_ok lp ntokens nsyms rs h g hg sp lemon srExpect rrExpect
  refine ⟨o, ho, ?_⟩
  have hn : g.nrules = rs.length + 3 := by
    rw [K.ctx.packs.nrules]; simp [augCFG]
  have e : o.parser.nunused = nunused g.nrules (rulesUsed g.nrules o.parser.rows) := by
    rw [K.parser]; rfl
  rw [e]
  unfold nunused
  rw [foldl_count, Nat.zero_add, hn, show rs.length + 3 - 3 = rs.length by omega, List.range'_eq_map_range,
    List.countP_map]
  apply List.countP_congr
  intro k hk
  rw [List.mem_range] at hk
  simp only [Function.comp_apply, decide_eq_true_eq, Bool.not_eq_true']
  rw [← Bool.not_eq_true, (rulesUsed_spec _ _ _).2]
  simp only [live_iff, show 3 + k = k + 3 by omega, show k + 3 < rs.length + 3 by omega, true_and]

/-- Example `s: a | b ;  a: '2' ;  b: '2'` (s = 5, a = 6, b = 7): only `b: '2'` is never
reduced (`s: b` is, in the state entered by `b`). -/
def c24Rules : List SrcRule :=
  [⟨c08B 5, [c08B 6], UNDEFINED, .TOKEN⟩, ⟨c08B 5, [c08B 7], UNDEFINED, .TOKEN⟩,
   ⟨c08B 6, [c08B 2], UNDEFINED, .TOKEN⟩, ⟨c08B 7, [c08B 2], UNDEFINED, .TOKEN⟩]

example : (genWith 20 (packGrammar false 4 8 (c24Rules.map SrcRule.p) (encPitem c24Rules)) ⟨[], []⟩ false (-1) (-1)).map
      (fun o => (o.parser.nunused, o.parser.RRtotal)) = some (1, 1) := by decide +kernel

end Verif.Byacc
