import Verif.Proofs.LemonOutConf
/-
C111: lemon's report (`file.out`) describes the automaton, the tables, the symbols and the rules of the parser (violated for conflicts in states that only
reduce).
-/
set_option autoImplicit false
namespace Verif.Lemon
open OutSpec Verif.Spec

/-- The text `st` describes the state with the number `i`: its items are those of the LR(0) automaton (with option `-b` only those of the kernel), each once,
and what its entries give for tokens, for nonterminals and for `{default}` is what is in the tables. -/
def DescribesState (I : OutIn) (T : Tables) (i : Nat) (st : List Nat) : Prop :=
  ∃ items es, st = stateText I.g I.name i items es ∧ items.Nodup ∧
    (∃ s, (resortStates I.g I.cs)[i]? = some s ∧ ∀ γ, Path I.m.Trans 0 γ s → ∀ r d, (r, d) ∈ items ↔
      ValidItem I.g.ext (lemonInit I.g) γ r d ∧ (I.basisflag = true → 0 < d ∨ (s = 0 ∧ (I.g.rule r).lhs = I.g.start))) ∧
    (∀ e ∈ es, e.does.dropped = true → I.showPrecedenceConflict = true) ∧
    (∀ t < I.g.nterm, given I.g T es t = T.shiftEntry i t) ∧
    (∀ X, I.g.nlow ≤ X → X < I.g.nsym → ∀ n, given I.g T es X = some n → T.gotoEntry i (I.g.index X) = some n) ∧
    T.dflt[i]? = some ((given I.g T es I.g.nsym).getD T.errAction)

/-- The text `st` describes the symbol with the number `i` in the tables: for nonterminals whether they derive the empty string and with which tokens strings
derived from them begin, in order, each once. -/
def DescribesSymbol (I : OutIn) (i : Nat) (st : List Nat) : Prop :=
  (i = 0 ∧ st = symbolLine I.name i (some (false, [])) (I.g.prec i)) ∨
  (0 < i ∧ i < I.g.nterm ∧ st = symbolLine I.name i none (I.g.prec i)) ∨
  ∃ X empty ts, I.g.nlow ≤ X ∧ X < I.g.nsym ∧ I.g.index X = i ∧ st = symbolLine I.name i (some (empty, ts)) (I.g.prec X) ∧
    (empty = true ↔ I.g.cfg.Nullable [X]) ∧ ts.Pairwise (· < ·) ∧ ∀ t, t ∈ ts ↔ t < I.g.nterm ∧ I.g.cfg.First [X] t

variable {I : OutIn} {fb : Nat → Option Nat} {compress : Bool} {F : List TSet} {A : Acts} {T : Tables}

theorem state_text (u : Usable I.g) (h : Generated I.g fb compress I.m F A I.cs T) {i : Nat} (hi : i < T.nx) :
    ∃ items, I.stateText i = stateText I.g I.name i items (outEntries I (I.order.getD i 0) (stateAt I.cs I.order i).acts.zipIdx) := by
  obtain ⟨c1, c2, c3, c4, c5, c6, c7⟩ := consts u h
  have hst := h.toPrepared.states u
  obtain ⟨s, h1, h2, h3, h4⟩ := order_get (g := I.g) (cs := I.cs) (i := i) (by omega)
  have hs : s < I.m.sts.length := by rw [← hst.1]; exact h3
  have hok := h.analysed.ok u.wf u.items
  have hm : I.m.sts[s]? = some I.m.sts[s] := List.getElem?_eq_getElem hs
  have hD : I.m.sts.getD s ⟨[], []⟩ = I.m.sts[s] := by rw [List.getD_eq_getElem?_getD, hm]; rfl
  have o := hok.st s _ hm
  have hdot : ∀ it ∈ I.configs s, it.2 ≤ (I.g.rule it.1).rhs.length := by
    have hb : ∀ it ∈ I.m.sts[s].basis, it.2 ≤ (I.g.rule it.1).rhs.length := by
      intro it hit
      obtain ⟨X, α, k1, k2⟩ := o.valid it hit
      rw [(ext_rule.mp k1).2.2]
      exact k2
    rintro ⟨r, d⟩ hit
    unfold OutIn.configs at hit
    rw [hD] at hit
    split_ifs at hit
    · exact hb _ hit
    · cases (o.mem r d).mp hit with
      | kern hk => exact hb _ hk
      | step _ _ _ => exact Nat.zero_le _
  refine ⟨I.configs s, ?_⟩
  unfold OutIn.stateText stateText
  rw [show I.order.getD i 0 = s from h2, out_entries]
  have : (I.configs s).flatMap I.configLine = (I.configs s).flatMap (itemLine I.g I.name) :=
    List.flatMap_congr fun it hit => out_item I (hdot it hit)
  rw [this]
  rfl

theorem describes_state (u : Usable I.g) (h : Generated I.g fb compress I.m F A I.cs T) {i : Nat} (hi : i < T.nx) :
    DescribesState I T i (I.stateText i) := by
  have R := h.reported u
  obtain ⟨c1, c2, c3, c4, c5, c6, c7⟩ := consts u h
  have hst := h.toPrepared.states u
  obtain ⟨s, h1, h2, h3, h4⟩ := order_get (g := I.g) (cs := I.cs) (i := i) (by omega)
  have hs : s < I.m.sts.length := by rw [← hst.1]; exact h3
  have hok := h.analysed.ok u.wf u.items
  have hm : I.m.sts[s]? = some I.m.sts[s] := List.getElem?_eq_getElem hs
  have hD : I.m.sts.getD s ⟨[], []⟩ = I.m.sts[s] := by rw [List.getD_eq_getElem?_getD, hm]; rfl
  have o := hok.st s _ hm
  have auto := hok.isAuto u.items
  have hzero : ∀ r d, (r, d) ∈ I.m.sts[s].items → d = 0 ∨ (r, d) ∈ I.m.sts[s].basis := by
    intro r d hi
    cases (o.mem r d).mp hi with
    | kern hk => exact .inr hk
    | step _ _ _ => exact .inl rfl
  have hdot : ∀ it ∈ I.configs s, it.2 ≤ (I.g.rule it.1).rhs.length := by
    have hb : ∀ it ∈ I.m.sts[s].basis, it.2 ≤ (I.g.rule it.1).rhs.length := by
      intro it hit
      obtain ⟨X, α, k1, k2⟩ := o.valid it hit
      rw [(ext_rule.mp k1).2.2]
      exact k2
    intro it hit
    unfold OutIn.configs at hit
    rw [hD] at hit
    split_ifs at hit
    · exact hb it hit
    · rcases hzero it.1 it.2 hit with k | k
      · omega
      · exact hb it k
  have hacts : stateAt I.cs I.order i = I.cs.getD s ⟨[], none⟩ := by unfold stateAt OutIn.order; rw [h2]
  have hgiven : ∀ X, given I.g T (outEntries I s (I.cs.getD s ⟨[], none⟩).acts.zipIdx) X = lastNum I.g I.cs.length I.order (stateAt I.cs I.order i) X := by
    intro X
    unfold given lastNum CState.on
    rw [out_given u h, hacts, List.getLast?_map, List.zipIdx_map_fst]
  refine ⟨I.configs s, outEntries I s (I.cs.getD s ⟨[], none⟩).acts.zipIdx, ?_, ?_, ⟨s, h1, ?_⟩, ?_, ?_, ?_, ?_⟩
  · unfold OutIn.stateText stateText
    rw [hacts, show I.order.getD i 0 = s from h2, out_entries]
    have : (I.configs s).flatMap I.configLine = (I.configs s).flatMap (itemLine I.g I.name) :=
      List.flatMap_congr fun it hit => out_item I (hdot it hit)
    rw [this]
    rfl
  · unfold OutIn.configs
    rw [hD]
    split_ifs
    · exact o.basis.nodup
    · exact o.sorted.nodup
  · intro γ hγ r d
    rw [← auto.item_valid hγ]
    have hI : I.m.Item s r d ↔ (r, d) ∈ I.m.sts[s].items := by
      unfold Mach.Item
      rw [hm]
      simp
    rw [hI]
    unfold OutIn.configs
    rw [hD]
    cases I.basisflag with
    | false => simp [St.items]
    | true =>
      simp only [if_true, true_imp_iff]
      constructor
      · intro hb
        refine ⟨(o.mem r d).mpr (.kern hb), ?_⟩
        by_cases h0 : s = 0
        · have := (o.dots.1 h0 (r, d)).mp hb
          exact .inr ⟨h0, (mem_rulesOf.mp this.2).2⟩
        · exact .inl ((o.dots.2 h0).2 _ hb)
      · rintro ⟨k1, k2⟩
        rcases hzero r d k1 with k | k
        · rcases k2 with k2 | ⟨k2, k3⟩
          · omega
          · refine (o.dots.1 k2 (r, d)).mpr ⟨k, mem_rulesOf.mpr ⟨?_, k3⟩⟩
            cases (o.mem r d).mp k1 with
            | kern hk =>
              obtain ⟨X, α, e1, _⟩ := o.valid _ hk
              exact (ext_rule.mp e1).1
            | step _ _ e1 => exact (ext_rule.mp e1).1
        · exact k
  · intro e he hd
    unfold outEntries at he
    obtain ⟨p, _, hp⟩ := List.mem_filterMap.mp he
    obtain ⟨d, k1, rfl⟩ := Option.map_eq_some_iff.mp hp
    have := (Option.filter_eq_some_iff.mp k1).2
    simp only at hd
    simpa [hd] using this
  · intro t ht
    rw [hgiven, shiftEntry_eq u.wf (h.toPrepared.rowsOK u) R (by rw [← R.nxs]; exact hi) ht]
    rfl
  · intro X hX hX' n hn
    rw [hgiven] at hn
    exact gotoEntry_eq R (by rw [← R.nxs]; exact hi) hX hX' hn
  · rw [R.dflt i (by rw [← R.nxs]; exact hi), hgiven, show stateAt I.cs (resortStates I.g I.cs) i = I.cs.getD s ⟨[], none⟩ from hacts]
    have k := hst.2 s hs
    rw [dflt_onSym u.wf (fun a ha => (k.sp a ha).elim (fun h => .inr h.2) .inl), hacts]
    unfold lastNum CState.on
    cases hl : (onSym (I.cs.getD s ⟨[], none⟩).acts I.g.nsym).getLast? with
    | none => simp only [Option.map_none, Option.getD_none, c5]; rfl
    | some e =>
      have := dflt_type u h.toPrepared hs (List.mem_of_getLast? hl)
      obtain ⟨ty, x⟩ := e
      simp only at this
      subst this
      simp only [Option.map_some, Option.getD_some, actNum]
      rfl

theorem describes_symbol (u : Usable I.g) (hfs : findFirstSets I.g = some I.fs) {i : Nat} (hi : i < I.g.nsymbol) :
    DescribesSymbol I i (I.symbolLine i) := by
  have hr : I.g.rules.length < 2 ^ 32 := u.rules_lt
  obtain ⟨fs, k1, k2⟩ := C30_first_sets I.g u.wf hr
  rw [hfs] at k1
  obtain rfl := Option.some.inj k1
  unfold DescribesSymbol
  by_cases h0 : i = 0
  · left
    subst h0
    refine ⟨rfl, ?_⟩
    unfold OutIn.symbolLine symbolLine
    simp [u.wf.nterm]
    rfl
  · right
    by_cases ht : i < I.g.nterm
    · left
      refine ⟨by omega, ht, ?_⟩
      unfold OutIn.symbolLine symbolLine
      simp [h0, ht]
      rfl
    · right
      have hns := u.wf.nsym
      unfold Gram.nsymbol at hi
      have hX : I.g.nlow ≤ i + I.g.mts.length := by unfold Gram.nlow; omega
      have hX' : i + I.g.mts.length < I.g.nsym := by omega
      obtain ⟨e1, e2⟩ := k2 _ hX hX'
      refine ⟨i + I.g.mts.length, I.fs.lambda.getD (i + I.g.mts.length) false,
        (List.range I.g.nterm).filter fun j => setFind (I.fs.first.getD (i + I.g.mts.length) []) j, hX, hX', ?_, ?_, e1, ?_, ?_⟩
      · unfold Gram.index
        rw [if_neg (by omega)]
        omega
      · unfold OutIn.symbolLine symbolLine
        simp only [h0, ht, if_false]
        have : ∀ l : List Nat, (l.flatMap fun j => if setFind (I.fs.first.getD (i + I.g.mts.length) []) j then 32 :: I.name j else []) =
            (l.filter fun j => setFind (I.fs.first.getD (i + I.g.mts.length) []) j).flatMap fun t => 32 :: I.name t := by
          intro l
          induction l with
          | nil => rfl
          | cons a l ih =>
            rw [List.flatMap_cons, ih, List.filter_cons]
            split_ifs <;> simp
        rw [this]
        rfl
      · exact List.Pairwise.filter _ List.pairwise_lt_range
      · intro t
        rw [List.mem_filter, List.mem_range, e2]

/-- C111.  For every grammar for which lemon writes tables, with any options `-b`, `-c` and `-p`, the report consists of the descriptions of the states in the
order of their numbers in the tables, those of the symbols in the order of their numbers, the names of the symbols without a value in lines, and the rules in
the order of their numbers. -/
theorem C111_report (u : Usable I.g) (h : Generated I.g fb compress I.m F A I.cs T) (hfs : findFirstSets I.g = some I.fs) (hne : ∀ i, I.name i ≠ []) :
    ∃ states symbols plain rules, I.text = outText states symbols plain rules ∧
      (states.length = T.nx ∧ ∀ i st, states[i]? = some st → DescribesState I T i st) ∧
      (symbols.length = I.g.nsymbol ∧ ∀ i st, symbols[i]? = some st → DescribesSymbol I i st) ∧
      (plain.flatten = ((List.range I.g.nsymbol).filter fun i => !I.content i).map I.name ∧
        (∀ l ∈ plain, l ≠ [] ∧ ((List.intercalate (cstr " ") l).length ≤ 76 ∨ ∃ w, l = [w]))) ∧
      (rules.length = T.nrule ∧ ∀ r < I.g.rules.length, rules[I.g.iRule r]? = some (ruleLine I.g I.name (I.g.iRule r) r (I.precsym r))) := by
  obtain ⟨L, l1, l2, l3, l4⟩ := out_plain I hne (List.range I.g.nsymbol) [] [] (by simp) (.inl (by simp [List.intercalate]))
  have R := h.reported u
  refine ⟨(List.range T.nx).map I.stateText, (List.range I.g.nsymbol).map I.symbolLine, L, (sortedRules (I.g.rules.map Rule.code)).map I.ruleLine,
    ?_, ⟨by simp, ?_⟩, ⟨by simp, ?_⟩, ⟨l1, fun l hl => ⟨l2 l hl, l3 l hl⟩⟩, ?_, ?_⟩
  · unfold OutIn.text outText
    simp only [List.nil_append, List.length_nil, show List.intercalate [32] ([] : List (List Nat)) = [] from rfl] at l4
    rw [out_ruler, l4, flatMap_range, flatMap_range, List.flatMap_def, R.nxs]
    simp only [List.append_assoc]
    rfl
  · intro i st hi
    obtain ⟨k, k1, rfl⟩ := List.mem_map.mp (List.mem_of_getElem? hi)
    rw [List.getElem?_map] at hi
    obtain ⟨k', k2, k3⟩ := Option.map_eq_some_iff.mp hi
    obtain ⟨k4, k5⟩ := List.getElem?_eq_some_iff.mp k2
    simp only [List.getElem_range] at k5
    rw [← k3, ← k5]
    exact describes_state u h (by simpa using k4)
  · intro i st hi
    rw [List.getElem?_map] at hi
    obtain ⟨k', k2, k3⟩ := Option.map_eq_some_iff.mp hi
    obtain ⟨k4, k5⟩ := List.getElem?_eq_some_iff.mp k2
    simp only [List.getElem_range] at k5
    rw [← k3, ← k5]
    exact describes_symbol u hfs (by simpa using k4)
  · have hn : (I.g.rules.map Rule.code).length < 2 ^ 32 := by rw [List.length_map]; exact u.rules_lt
    have := (C45_table_partial (I.g.rules.map Rule.code) hn).1.length_eq
    rw [List.length_map, this, R.nrule]
    simp
  · intro r hr
    rw [List.getElem?_map, iRule_eq u hr]
    simp only [Option.map_some, Option.some.injEq]
    unfold OutIn.ruleLine ruleLine
    simp only [out_sym, out_rule]
    rfl

theorem entries_conflicts (I : OutIn) (s : Nat) (l : List Act) : (outEntries I s l.zipIdx).countP (fun e => e.does.conflict) = confs l := by
  suffices ∀ l : List (Act × Nat), (outEntries I s l).countP (fun e => e.does.conflict) = confs (l.map Prod.fst) by
    rw [this, List.zipIdx_map_fst]
  intro l
  induction l with
  | nil => rfl
  | cons p l ih =>
    obtain ⟨⟨sp, ty, x, id⟩, k⟩ := p
    rw [List.map_cons, confs_cons, ← ih, confs_one]
    unfold outEntries
    rw [List.filterMap_cons]
    unfold outDoes
    cases ty <;> simp [Option.filter, Does.dropped, Does.conflict, AType.conflict, Nat.add_comm] <;>
      cases I.showPrecedenceConflict <;> simp

/-- The number of conflicts that lemon counts ("%d parsing conflicts.") is the number of actions that lost, and all of those in a state of the report are
marked there.  So the report shows at most as many conflicts as are counted; it shows all if no action lost in a state without a row in the tables, and always
with option `-c`. -/
theorem C111_conflicts_partial (u : Usable I.g) (h : Generated I.g fb compress I.m F A I.cs T) :
    ∃ (items : Nat → List (Nat × Nat)) (es : Nat → List Entry), (∀ i < T.nx, I.stateText i = stateText I.g I.name i (items i) (es i)) ∧
      ((List.range T.nx).map fun i => (es i).countP fun e => e.does.conflict).sum ≤ A.count.err ∧
      ((∀ i s, T.nx ≤ i → (resortStates I.g I.cs)[i]? = some s → ∀ a ∈ A.acts.getD s [], a.type ≠ .SSCONFLICT ∧ a.type ≠ .SRCONFLICT ∧ a.type ≠ .RRCONFLICT) →
        ((List.range T.nx).map fun i => (es i).countP fun e => e.does.conflict).sum = A.count.err) ∧
      (compress = false → ((List.range T.nx).map fun i => (es i).countP fun e => e.does.conflict).sum = A.count.err) := by
  obtain ⟨c1, c2, c3, c4, c5, c6, c7⟩ := consts u h
  have hst := h.toPrepared.states u
  have hok := h.analysed.ok u.wf u.items
  have hspec := findActions_spec u.wf u.start u.items (precsyms I.g) (F := F) hok h.small
  rw [h.actions] at hspec
  have hAl : A.acts.length = I.m.sts.length := hspec.1
  have hlen : I.order.length = I.cs.length := order_length ..
  let f : Nat → Nat := fun s => confs (A.acts.getD s [])
  have hf : ∀ i < T.nx, (outEntries I (I.order.getD i 0) (stateAt I.cs I.order i).acts.zipIdx).countP (fun e => e.does.conflict) = f (I.order.getD i 0) := by
    intro i hi
    rw [entries_conflicts]
    obtain ⟨s, h1, h2, h3, h4⟩ := order_get (g := I.g) (cs := I.cs) (i := i) (by omega)
    unfold stateAt
    rw [show I.order.getD i 0 = s from h2]
    exact cstate_confs u h.toPrepared (by rw [← hst.1]; exact h3)
  have hsum : ((List.range T.nx).map fun i => (outEntries I (I.order.getD i 0) (stateAt I.cs I.order i).acts.zipIdx).countP fun e => e.does.conflict).sum =
      ((I.order.take T.nx).map f).sum := by
    congr 1
    apply List.ext_getElem
    · simp; omega
    · intro i k1 k2
      simp only [List.length_map, List.length_range] at k1
      simp only [List.getElem_map, List.getElem_range, List.getElem_take]
      rw [hf i k1, List.getD_eq_getElem?_getD, List.getElem?_eq_getElem (by omega)]
      rfl
  have htot : (I.order.map f).sum = A.count.err := by
    rw [count_confs h.small h.actions, show (I.order.map f).sum = _ from ((order_perm I.g I.cs).map f).sum_eq, hst.1, ← hAl]
    congr 1
    apply List.ext_getElem
    · simp
    · intro i k1 k2
      simp only [List.length_map, List.length_range] at k1
      simp only [List.getElem_map, List.getElem_range, f]
      rw [List.getD_eq_getElem?_getD, List.getElem?_eq_getElem k1]
      rfl
  have hsplit : ((I.order.take T.nx).map f).sum + ((I.order.drop T.nx).map f).sum = A.count.err := by
    rw [← htot, ← List.sum_append, ← List.map_append, List.take_append_drop]
  have hex : ∀ i, ∃ items, i < T.nx → I.stateText i = stateText I.g I.name i items (outEntries I (I.order.getD i 0) (stateAt I.cs I.order i).acts.zipIdx) := by
    intro i
    by_cases hi : i < T.nx
    · obtain ⟨it, e⟩ := state_text u h hi
      exact ⟨it, fun _ => e⟩
    · exact ⟨[], fun k => absurd k hi⟩
  choose items hitems using hex
  refine ⟨items, fun i => outEntries I (I.order.getD i 0) (stateAt I.cs I.order i).acts.zipIdx, hitems, ?_, ?_, ?_⟩
  · rw [hsum]; omega
  · intro hz
    rw [hsum]
    have : ((I.order.drop T.nx).map f).sum = 0 := by
      refine List.sum_eq_zero ?_
      intro n hn
      obtain ⟨s, hs, rfl⟩ := List.mem_map.mp hn
      obtain ⟨i, k1, k2⟩ := List.getElem_of_mem hs
      rw [List.getElem_drop] at k2
      have := hz (T.nx + i) s (by omega) (by rw [← k2]; exact List.getElem?_eq_getElem _)
      show confs _ = 0
      unfold confs
      rw [List.countP_eq_zero]
      intro a ha hc
      have := this a ha
      revert hc
      cases ht : a.type <;> simp_all [AType.conflict]
    omega
  · intro hc
    rw [hsum]
    have hnx : T.nx = I.order.length := by
      rw [c6, h.uncompressed hc]
      have hx : ∀ s, ((Lemon.uncompressed A.acts).getD s ⟨[], none⟩).auto = none := by
        intro s
        unfold Lemon.uncompressed
        rw [List.getD_eq_getElem?_getD, List.getElem?_map]
        cases A.acts[s]? <;> rfl
      have : I.order = resortStates I.g (Lemon.uncompressed A.acts) := by unfold OutIn.order; rw [h.uncompressed hc]
      rw [this]
      unfold nxstate
      cases resortStates I.g (Lemon.uncompressed A.acts) with
      | nil => rfl
      | cons s l =>
        simp only [hx, Option.isSome_none, List.length_cons]
        have hd : ∀ l : List Nat, l.dropWhile (fun _ => false) = l := by intro l; cases l <;> rfl
        rw [hd]
        simp [Nat.add_comm]
    rw [hnx, List.drop_length] at hsplit
    rw [hnx]
    simpa using hsplit

/-! ### examples -/

/-- what the report for a grammar is written from, computed with bounded numbers of rounds, and the number of conflicts -/
def outIn (compress : Bool) (g : Gram) (name : Nat → List Nat) (n : Nat) : Option (OutIn × Nat) :=
  (findFirstSets g).bind fun fs => (analyse g n).bind fun x => if (rawActs g x.1 x.2).length < 2 ^ 30 then
    (findActions g (precsyms g) x.1 x.2).bind fun A => (if compress then compressTables g n A.acts else some (uncompressed A.acts)).map fun cs =>
      (⟨g, name, fun i => i == 3, precsyms g, fs, x.1, cs, false, false, fun _ _ => none⟩, A.count.err) else none

theorem outIn_generated {g : Gram} {name : Nat → List Nat} {n k : Nat} {I : OutIn} (u : Usable g) (hI : outIn compress g name n = some (I, k))
    (hT : (report g fb I.cs (resortStates g I.cs) (nxstate I.cs (resortStates g I.cs))).isSome) :
    I.g = g ∧ I.name = name ∧ findFirstSets I.g = some I.fs ∧ ∃ F A T, Generated I.g fb compress I.m F A I.cs T ∧ A.count.err = k := by
  unfold outIn at hI
  obtain ⟨fs, h1, hI⟩ := Option.bind_eq_some_iff.mp hI
  obtain ⟨⟨m, F⟩, h2, hI⟩ := Option.bind_eq_some_iff.mp hI
  split_ifs at hI with h3 hc hc
  all_goals
    obtain ⟨A, h4, hI⟩ := Option.bind_eq_some_iff.mp hI
    obtain ⟨cs, h5, hI⟩ := Option.map_eq_some_iff.mp hI
    simp only [Prod.mk.injEq] at hI
    obtain ⟨rfl, rfl⟩ := hI
    obtain ⟨T, hT⟩ := Option.isSome_iff_exists.mp hT
  · exact ⟨rfl, rfl, h1, F, A, T, ⟨⟨analysed_of_analyse u.wf u.items h2, h3, h4, fun _ => ⟨n, h5⟩, fun hc' => absurd hc (by rw [hc']; simp)⟩, hT⟩, rfl⟩
  · exact ⟨rfl, rfl, h1, F, A, T, ⟨⟨analysed_of_analyse u.wf u.items h2, h3, h4, fun hc' => absurd hc' hc, fun _ => (Option.some.inj h5).symm⟩, hT⟩, rfl⟩

/-- names for `exExpr` -/
def exOutName (i : Nat) : List Nat :=
  [cstr "$", cstr "PLUS", cstr "TIMES", cstr "NUM", cstr "s", cstr "e", cstr "{default}"].getD i (cstr "?")

/-- `s ::= a. s ::= b. a ::= X. b ::= X.`, with symbols `$ X s a b` -/
def exTwo : Gram where
  nterm := 2
  mts := []
  nsym := 5
  rules := [⟨2, [3], none, true⟩, ⟨2, [4], none, true⟩, ⟨3, [1], none, true⟩, ⟨4, [1], none, true⟩]
  start := 2
  errsym := none
  wildcard := none
  prec := fun _ => -1
  assoc := fun _ => .UNK

/-- names for `exTwo` -/
def exTwoName (i : Nat) : List Nat := [cstr "$", cstr "X", cstr "s", cstr "a", cstr "b", cstr "{default}"].getD i (cstr "?")

theorem exNames_ne (l : List (List Nat)) (h : ∀ x ∈ l, x ≠ []) (i : Nat) : l.getD i (cstr "?") ≠ [] := by
  rw [List.getD_eq_getElem?_getD]
  cases hi : l[i]? with
  | none => decide
  | some x => exact h x (List.mem_of_getElem? hi)

/-- `C111_report` and `C111_conflicts_partial` for expressions with two operators -/
example : ∃ (I : OutIn) (F : List TSet) (A : Acts) (T : Tables), Usable I.g ∧ Generated I.g (fun _ => none) true I.m F A I.cs T ∧ findFirstSets I.g = some I.fs ∧ (∀ i, I.name i ≠ []) ∧ T.nx = 5 := by
  have hk : (outIn true exExpr exOutName 20).map (fun p => ((report exExpr (fun _ => none) p.1.cs (resortStates exExpr p.1.cs)
      (nxstate p.1.cs (resortStates exExpr p.1.cs))).isSome, nxstate p.1.cs (resortStates exExpr p.1.cs))) = some (true, 5) := by decide +kernel
  obtain ⟨⟨I, k⟩, h1, h2⟩ := Option.map_eq_some_iff.mp hk
  simp only [Prod.mk.injEq] at h2
  have u : Usable exExpr := usable_of (by decide +kernel)
  obtain ⟨e1, e2, e3, F, A, T, e4, _⟩ := outIn_generated u h1 h2.1
  refine ⟨I, F, A, T, by rw [e1]; exact u, e4, e3, ?_, ?_⟩
  · rw [e2]
    exact exNames_ne _ (by decide)
  · rw [(consts (by rw [e1]; exact u) e4).2.2.2.2.2.1, e1]
    exact h2.2

/-- a state of the report for it: after `e PLUS e`, `TIMES` is shifted and everything else reduces -/
example : (outIn true exExpr exOutName 20).map (fun p => p.1.stateText 4) = some (cstr
    "State 4:\n          e ::= e * PLUS e\n      (1) e ::= e PLUS e *\n          e ::= e * TIMES e\n\n                         TIMES shift        1      \n                     {default} reduce       1      e ::= e PLUS e\n\n") := by
  decide +kernel

/-- the part about symbols and rules -/
example : (outIn true exExpr exOutName 20).map (fun p => (List.range 6).flatMap p.1.symbolLine ++ (List.range 4).flatMap p.1.ruleLine) = some (cstr
    "    0: $:\n    1: PLUS (precedence=1)\n    2: TIMES (precedence=2)\n    3: NUM\n    4: s: NUM\n    5: e: NUM\n   0: s ::= e.\n   1: e ::= e PLUS e. [PLUS precedence=1]\n   2: e ::= e TIMES e. [TIMES precedence=2]\n   3: e ::= NUM.\n") := by
  decide +kernel

/-- The report does not always show the conflicts that are counted: for `s ::= a. s ::= b. a ::= X. b ::= X.` lemon reports one parsing conflict, and there is
no conflict in its report, although the actions of the state after `X` are what a user would look for there. -/
theorem C111_conflicts_violated : ∃ (I : OutIn) (F : List TSet) (A : Acts) (T : Tables), Usable I.g ∧ Generated I.g (fun _ => none) true I.m F A I.cs T ∧
    A.count.err = 1 ∧ ¬ cstr "conflict" <:+: I.text := by
  have hk : (outIn true exTwo exTwoName 20).map (fun p => ((report exTwo (fun _ => none) p.1.cs (resortStates exTwo p.1.cs)
      (nxstate p.1.cs (resortStates exTwo p.1.cs))).isSome, p.2, decide (cstr "conflict" <:+: p.1.text))) = some (true, 1, false) := by decide +kernel
  obtain ⟨⟨I, k⟩, h1, h2⟩ := Option.map_eq_some_iff.mp hk
  simp only [Prod.mk.injEq, decide_eq_false_iff_not] at h2
  have u : Usable exTwo := usable_of (by decide +kernel)
  obtain ⟨e1, _, _, F, A, T, e4, e5⟩ := outIn_generated u h1 h2.1
  exact ⟨I, F, A, T, by rw [e1]; exact u, e4, by rw [e5, h2.2.1], h2.2.2⟩

/-- with option `-c` it is shown -/
example : (outIn false exTwo exTwoName 20).map (fun p => decide (cstr "$ reduce       3      (b) ** Parsing conflict **\n" <:+: p.1.text)) = some true := by
  decide +kernel

end Verif.Lemon
