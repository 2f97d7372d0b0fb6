import Verif.Proofs.LemonCompressEnds
/-
C35: table compression preserves the behaviour of a lemon parser.  C62: table compression ends.
-/
set_option autoImplicit false
namespace Verif.Lemon
open Verif.Spec

variable {g : Gram}

/-- C35.  Let `A` be the actions of each state after the conflicts are resolved, and `cs` the states
after compression.  In each state and for each token

* the default is a rule (not of the start symbol) by which the state reduces, on no fewer tokens
  than by any other such rule; there is none if the state shifts the wildcard, or reduces by no
  such rule;
* if there was no action, there still is none (so the parser uses the default);
* a shift stays, or becomes the shift followed by the reduction by `r` if the state shifted to
  does nothing but reduce by `r`;
* a reduction stays if it is not by the default rule; otherwise it is removed (so the parser uses
  the default);

and after a reduction to a nonterminal the parser does what it did before, except that reductions
by rules `A → B` without code are skipped (`Lands`).  An error on a non-associative token
(together with the reduction it is to replace) stays too, but see C14. -/
theorem C35_compress (g : Gram) (wf : g.WF) (hst : StartNT g) (hn : g.nitems < 2 ^ 30) (ps : Nat → Option Nat) (m : Mach)
    (F : List TSet) (hm : Analysed g m F) (hlen : (rawActs g m F).length < 2 ^ 30) (A : Acts)
    (hA : findActions g ps m F = some A) (fuel : Nat) (cs : List CState) (hcs : compressTables g fuel A.acts = some cs) :
    cs.length = m.sts.length ∧ ∀ s < m.sts.length,
      DefaultOK g (A.on s) (dfltReduce g (cs.getD s ⟨[], none⟩)) ∧
      Compressed g (A.on s) (fun q => (cs.getD q ⟨[], none⟩).auto) (cs.getD s ⟨[], none⟩) := by
  have hok := hm.ok wf hn
  have hspec := findActions_spec wf hst hn ps (F := F) hok hlen
  rw [hA] at hspec
  have hAl : A.acts.length = m.sts.length := hspec.1
  have hauto : autoOf (A.acts.map (compressState g)) = fun q => (cs.getD q ⟨[], none⟩).auto := by
    funext q
    by_cases hq : q < A.acts.length
    · rw [autoOf_map _ _ hq, (compressTables_get hcs hq).2.2]
    · have hl : cs.length = A.acts.length := (compressTables_get hcs (s := 0) (by rw [hAl]; exact hok.pos)).1
      unfold autoOf
      rw [List.getD_eq_getElem?_getD, List.getElem?_eq_none (by simpa using hq), List.getD_eq_getElem?_getD, List.getElem?_eq_none (by omega)]
  refine ⟨?_, ?_⟩
  · rw [← hAl]
    exact (compressTables_get hcs (s := 0) (by rw [hAl]; exact hok.pos)).1
  · intro s hs
    obtain ⟨hr, hon⟩ := resolved_of_findActions wf hst hn hok hlen hA hs
    obtain ⟨_, k1, k2⟩ := compressTables_get hcs (s := s) (by rw [hAl]; exact hs)
    obtain ⟨h1, h2⟩ := compressed_of wf hr k1
    have he : (⟨(cs.getD s ⟨[], none⟩).acts, (compressState g (A.acts.getD s [])).auto⟩ : CState) = cs.getD s ⟨[], none⟩ := by
      rw [← k2]
    rw [he, funext hon, hauto] at h1
    rw [he, funext hon] at h2
    exact ⟨h2, h1⟩

/-- `C35_compress` for the expression grammar: after `e PLUS e` (state 3) the reduction becomes the
default; the state after `ID` (6) and that after `e TIMES e` (5) always reduce and are no longer
shifted to. -/
example : (analyse exExpr 20).bind (fun x => (findActions exExpr (precsyms exExpr) x.1 x.2).bind fun A =>
      (compressTables exExpr 6 A.acts).map fun cs => cs.map fun c => (dfltReduce exExpr c, c.auto)) =
    some [(none, none), (none, none), (none, none), (some 1, none), (none, none), (some 2, some 2), (some 3, some 3)] := by
  decide +kernel

example : (analyse exExpr 20).bind (fun x => (findActions exExpr (precsyms exExpr) x.1 x.2).bind fun A =>
      (compressTables exExpr 6 A.acts).map fun cs => [0, 3, 4].map fun s =>
        (List.range 6).flatMap fun X => ((cs.getD s ⟨[], none⟩).on X).map fun e => (X, e)) =
    some [[(3, .SHIFTREDUCE, 3), (4, .ACCEPT, 0), (5, .SHIFT, 1)], [(2, .SHIFT, 4)],
      [(3, .SHIFTREDUCE, 3), (5, .SHIFTREDUCE, 2)]] := by decide +kernel

/-! ### C62 -/

/-- C62.  Compression ends if no nonterminal derives itself by rules `A → B` without code (which is
so in every unambiguous grammar). -/
theorem C62_ends_partial (g : Gram) (wf : g.WF) (hst : StartNT g) (hn : g.nitems < 2 ^ 30) (ps : Nat → Option Nat) (m : Mach)
    (F : List TSet) (hm : Analysed g m F) (hlen : (rawActs g m F).length < 2 ^ 30) (A : Acts)
    (hA : findActions g ps m F = some A) (hac : ∀ X, ¬ Relation.TransGen g.unitOf X X) :
    ∃ fuel cs, ∀ fuel', fuel ≤ fuel' → compressTables g fuel' A.acts = some cs := by
  suffices h : ∃ fuel cs, compressTables g fuel A.acts = some cs by
    obtain ⟨fuel, cs, h⟩ := h
    exact ⟨fuel, cs, fun _ hf => compressTables_mono h hf⟩
  rw [compressTables_ends_iff wf hst hn hm hlen hA]
  intro s hs
  -- the nonterminals that can be derived from `X` get fewer
  have hlt : ∀ X Y, g.unitOf X Y → Y < g.nsym ∧ g.nlow ≤ Y := by
    rintro X Y ⟨r, hr, _, _, rfl⟩
    unfold Gram.rule
    rw [List.getD_eq_getElem?_getD, List.getElem?_eq_getElem hr]
    exact ⟨(wf.lhs _ (List.getElem_mem hr)).2, (wf.lhs _ (List.getElem_mem hr)).1⟩
  classical
  let μ : Nat → Nat := fun X => ((Finset.range g.nsym).filter fun Y => Relation.TransGen g.unitOf X Y).card
  have hμ : ∀ X Y, g.unitOf X Y → μ Y < μ X := by
    intro X Y h
    refine Finset.card_lt_card ⟨?_, ?_⟩
    · intro Z hZ
      rw [Finset.mem_filter] at hZ ⊢
      exact ⟨hZ.1, .head h hZ.2⟩
    · intro hsub
      have : Y ∈ (Finset.range g.nsym).filter fun Z => Relation.TransGen g.unitOf X Z := by
        rw [Finset.mem_filter, Finset.mem_range]
        exact ⟨(hlt X Y h).1, .single h⟩
      have := hsub this
      rw [Finset.mem_filter] at this
      exact hac Y this.2
  have key : ∀ n X, μ X = n → g.nlow ≤ X → X < g.nsym → A.on s X ≠ [] →
      ∃ e, Lands g (A.on s) (autoOf (A.acts.map (compressState g))) X e := by
    intro n
    induction n using Nat.strong_induction_on with
    | _ n ih =>
      intro X hX h1 h2 hne
      obtain ⟨k1, k2⟩ := on_nt wf hst hn hm hlen hA hs h1 h2
      obtain ⟨e, he⟩ := List.exists_mem_of_ne_nil _ hne
      rcases on_sound wf hst hn hm hlen hA hs he with ⟨q, Y, _, ht, hY⟩ | ⟨r, _, _, h3, _⟩ | ⟨_, h3⟩
      · have hXY := (shiftSyms_nt wf h1).mp hY
        subst hXY
        have hon := (k1 q).mp ht
        cases hq : autoOf (A.acts.map (compressState g)) q with
        | none => exact ⟨_, .shift hon hq⟩
        | some r =>
          by_cases hu : g.unitRule r
          · obtain ⟨e1, e2, e3⟩ := unit_closed wf hst hn hm hlen hA hs h1 h2 hon hq hu
            have hun : g.unitOf X (g.rule r).lhs := ⟨r, e3, hu, e1, rfl⟩
            obtain ⟨e, he⟩ := ih _ (by rw [← hX]; exact hμ _ _ hun) (g.rule r).lhs rfl (hlt _ _ hun).2 (hlt _ _ hun).1 e2
            exact ⟨e, .unit hon hq hu he⟩
          · exact ⟨_, .reduce hon hq hu⟩
      · unfold Gram.nlow at h1; omega
      · exact ⟨_, .accept (k2.mp h3)⟩
  exact fun X => key _ X rfl

/-- `a ::= a. s ::= a. a ::= X.` with start symbol `s`.  `$ X` are 0 1, `a s` are 2 3.  -/
def exCycle : Gram where
  nterm := 2
  mts := []
  nsym := 4
  rules := [⟨2, [2], none, false⟩, ⟨3, [2], none, false⟩, ⟨2, [1], none, false⟩]
  start := 3
  errsym := none
  wildcard := none
  prec := fun _ => -1
  assoc := fun _ => .UNK

/-- `d ::= X. b ::= a. c ::= b. a ::= c. a ::= d. s ::= a.` with start symbol `s`.  `$ X` are 0 1,
`d b a c s` are 2…6.  -/
def exCycle3 : Gram where
  nterm := 2
  mts := []
  nsym := 7
  rules := [⟨2, [1], none, false⟩, ⟨3, [4], none, false⟩, ⟨5, [3], none, false⟩, ⟨4, [5], none, false⟩,
    ⟨4, [2], none, false⟩, ⟨6, [4], none, false⟩]
  start := 6
  errsym := none
  wildcard := none
  prec := fun _ => -1
  assoc := fun _ => .UNK

/-- in state 0 the symbols of `P` lead to each other by rules `A → B` to skip -/
def cyclic (g : Gram) (A : Acts) (P : List Nat) : Bool :=
  P.all fun X => match A.on 0 X with
    | [(.SHIFT, q)] => match autoOf (A.acts.map (compressState g)) q with
      | some r => (g.rule r).rhs.length == 1 && !(g.rule r).code && P.contains (g.rule r).lhs
      | none => false
    | _ => false

theorem cyclic_not_lands {A : Acts} {P : List Nat} (h : cyclic g A P = true) {X : Nat} {e : AType × Nat}
    (hl : Lands g (A.on 0) (autoOf (A.acts.map (compressState g))) X e) : X ∉ P := by
  have hX : ∀ X ∈ P, ∃ q r, A.on 0 X = [(.SHIFT, q)] ∧ autoOf (A.acts.map (compressState g)) q = some r ∧ g.unitRule r ∧
      (g.rule r).lhs ∈ P := by
    intro X hX
    have h1 := List.all_eq_true.mp h X hX
    split at h1
    · rename_i q hq
      split at h1
      · rename_i r hr
        simp only [Bool.and_eq_true, beq_iff_eq, Bool.not_eq_eq_eq_not, Bool.not_true, List.contains_iff_mem] at h1
        exact ⟨q, r, hq, hr, h1.1, h1.2⟩
      · cases h1
    · cases h1
  induction hl with
  | accept h1 => intro hm; obtain ⟨q, r, k1, _⟩ := hX _ hm; rw [h1] at k1; cases k1
  | shift h1 h2 =>
    intro hm; obtain ⟨q, r, k1, k2, _⟩ := hX _ hm
    rw [h1] at k1; cases k1; rw [h2] at k2; cases k2
  | reduce h1 h2 h3 =>
    intro hm; obtain ⟨q, r, k1, k2, k3, _⟩ := hX _ hm
    rw [h1] at k1; cases k1; rw [h2] at k2; cases k2; exact h3 k3
  | unit h1 h2 h3 _ ih =>
    intro hm; obtain ⟨q, r, k1, k2, k3, k4⟩ := hX _ hm
    rw [h1] at k1; cases k1; rw [h2] at k2; cases k2; exact ih k4

theorem not_ends (wf : g.WF) (hst : StartNT g) (hn : g.nitems < 2 ^ 30) (P : List Nat) (X : Nat) (hP : X ∈ P)
    (hX : g.nlow ≤ X ∧ X < g.nsym)
    (h : (analyse g 20).bind (fun x => (findActions g (precsyms g) x.1 x.2).map fun A =>
      decide ((rawActs g x.1 x.2).length < 2 ^ 30) && cyclic g A P) = some true) :
    ∃ m F A, Analysed g m F ∧ findActions g (precsyms g) m F = some A ∧ ∀ fuel, compressTables g fuel A.acts = none := by
  obtain ⟨⟨m, F⟩, h1, h2⟩ := Option.bind_eq_some_iff.mp h
  obtain ⟨A, h3, h4⟩ := Option.map_eq_some_iff.mp h2
  simp only [Bool.and_eq_true, decide_eq_true_eq] at h4
  have hm := analysed_of_analyse wf hn h1
  refine ⟨m, F, A, hm, h3, fun fuel => ?_⟩
  by_contra hc
  obtain ⟨cs, hcs⟩ := Option.ne_none_iff_exists'.mp hc
  have hends := (compressTables_ends_iff wf hst hn hm h4.1 h3).mp ⟨fuel, cs, hcs⟩
  have hne : A.on 0 X ≠ [] := by
    have := List.all_eq_true.mp h4.2 X hP
    intro he
    rw [he] at this
    cases this
  obtain ⟨e, he⟩ := hends 0 (hm.ok wf hn).pos X hX.1 hX.2 hne
  exact cyclic_not_lands h4.2 he hP

/-- C62 fails for grammars in which a nonterminal derives itself by rules `A → B` without code and
a conflict is resolved in favour of that.  Lemon does not end normally: in the first grammar there
is no other action on the left-hand side, an assertion fails; in the second one the chain of rules
to skip is followed for ever. -/
theorem C62_violated :
    (exCycle.WF ∧ StartNT exCycle ∧ (∀ r ∈ exCycle.rules, exCycle.start ∉ r.rhs) ∧
      ∃ m F A, Analysed exCycle m F ∧ findActions exCycle (precsyms exCycle) m F = some A ∧
        ∀ fuel, compressTables exCycle fuel A.acts = none) ∧
    (exCycle3.WF ∧ StartNT exCycle3 ∧ (∀ r ∈ exCycle3.rules, exCycle3.start ∉ r.rhs) ∧
      ∃ m F A, Analysed exCycle3 m F ∧ findActions exCycle3 (precsyms exCycle3) m F = some A ∧
        ∀ fuel, compressTables exCycle3 fuel A.acts = none) := by
  have w1 : exCycle.WF := ⟨by decide, by decide, by decide, by decide, by decide⟩
  have w2 : exCycle3.WF := ⟨by decide, by decide, by decide, by decide, by decide⟩
  exact ⟨⟨w1, ⟨by decide, by decide⟩, by decide, not_ends w1 ⟨by decide, by decide⟩ (by decide) [2] 2 (by decide) (by decide) (by decide +kernel)⟩,
    ⟨w2, ⟨by decide, by decide⟩, by decide,
      not_ends w2 ⟨by decide, by decide⟩ (by decide) [4, 3, 5] 4 (by decide) (by decide) (by decide +kernel)⟩⟩

/-- `C62_ends_partial` applies to the expression grammar. -/
example : ∀ X, ¬ Relation.TransGen exExpr.unitOf X X := by
  have h : ∀ X Y, ¬ exExpr.unitOf X Y := by
    rintro X Y ⟨r, hr, ⟨_, h2⟩, _⟩
    have : ∀ r < 4, (exExpr.rule r).code = true := by decide
    rw [this r hr] at h2
    cases h2
  intro X hX
  obtain ⟨Y, h1, _⟩ := Relation.TransGen.head'_iff.mp hX
  exact h X Y h1

end Verif.Lemon
