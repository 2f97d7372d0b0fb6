import Verif.Proofs.LemonFind
/-
C36: the packed action table of lemon is exact.  C37: accesses to the tables at run time are in
bounds.  C38: fallback and wildcard.  C63: making the tables.
-/
set_option autoImplicit false
namespace Verif.Lemon
open Verif.Spec

/-! ### C36 -/

/-- C36, packing.  After any sequence of transactions, each transaction can be looked up with the
offset returned for it: for tokens the result is the action given (the last one, if there are
several), or none if none was given; for nonterminals it is the action given if there is one. -/
theorem C36_pack (N T : Nat) (hT : 0 < T) (hTN : T ≤ N) (ops : List (Bool × List (Nat × Nat)))
    (hops : ∀ op ∈ ops, TransOK N T op.1 op.2) :
    ∃ p os, insertAll N T ops Acttab.empty = some (p, os) ∧ os.length = ops.length ∧
      ∀ (k : Nat) (op : Bool × List (Nat × Nat)) (o : Int), ops[k]? = some op → os[k]? = some o →
        (op.1 = true → ∀ t < T, p.look o t = lastOf op.2 t) ∧
        (op.1 = false → ∀ X a, lastOf op.2 X = some a → p.look o X = some a) := by
  have hemp : AInv T Acttab.empty := ⟨fun j _ => by simp [Acttab.empty, Acttab.slot], fun j l a h => by simp [Acttab.empty, Acttab.slot] at h⟩
  obtain ⟨p, os, h1, _, h3, _⟩ := insertAll_spec hT hTN ops Acttab.empty hemp hops
  refine ⟨p, os, h1, h3.length_eq.symm, ?_⟩
  intro k op o hk ho
  have hf := List.forall₂_iff_get.mp h3
  obtain ⟨hk1, hk2⟩ := List.getElem?_eq_some_iff.mp hk
  obtain ⟨ho1, ho2⟩ := List.getElem?_eq_some_iff.mp ho
  have := hf.2 k hk1 ho1
  simp only [List.get_eq_getElem, hk2, ho2] at this
  exact ⟨fun hs => (this.tok hs).2.2.1, this.nt⟩

/-- `C36_pack` for five symbols, three of them tokens: the third transaction shares the entries of the
first. -/
example : (insertAll 5 3 [(true, [(0, 7), (2, 8)]), (true, [(1, 9)]), (true, [(0, 7), (2, 8)]), (false, [(3, 4), (4, 4)])] Acttab.empty).map
      (fun x => (x.2, (List.range 3).map (fun t => x.1.look 0 t), (List.range 3).map (fun t => x.1.look 3 t))) =
    some ([0, 3, 0, 5], [some 7, none, some 8], [none, some 9, none]) := by
  decide +kernel

variable {g : Gram} {fb : Nat → Option Nat} {compress : Bool} {m : Mach} {F : List TSet} {A : Acts} {cs : List CState} {T : Tables}

/-- C36, tables.  Let `s` be a state that has a row in the tables (the others are never entered).  For
each token the entry in the row is the number of the action of the state on the token, or there is
none if there is no action; for each nonterminal for which there is an action the entry is the
number of that action.  (Of two actions on one token, possible for non-associative ones only, it is
the last.) -/
theorem C36_tables (u : Usable g) (h : Generated g fb compress m F A cs T) (s : Nat) (hs : s < cs.length)
    (hx : (resortStates g cs).idxOf s < T.nx) :
    (∀ t < g.nterm, T.shiftEntry ((resortStates g cs).idxOf s) t =
      ((cs.getD s ⟨[], none⟩).on t).getLast?.map (actNum g cs.length (resortStates g cs) t)) ∧
    (∀ X, g.nlow ≤ X → X < g.nsym → ∀ e, ((cs.getD s ⟨[], none⟩).on X).getLast? = some e →
      T.gotoEntry ((resortStates g cs).idxOf s) (g.index X) = some (actNum g cs.length (resortStates g cs) X e)) := by
  have R := h.reported u
  rw [R.nxs] at hx
  have hst : stateAt cs (resortStates g cs) ((resortStates g cs).idxOf s) = cs.getD s ⟨[], none⟩ := by
    unfold stateAt
    rw [(order_idx hs).1]
  refine ⟨?_, ?_⟩
  · intro t ht
    rw [shiftEntry_eq u.wf (h.toPrepared.rowsOK u) R hx ht, hst]
    rfl
  · intro X hX hX' e he
    refine gotoEntry_eq R hx hX hX' ?_
    rw [hst]
    unfold lastNum
    rw [he]
    rfl

/-- `C36_tables` for the expression grammar: the entries for the tokens and those for the
nonterminals.  (The states 0…4 have rows.) -/
example : ((makeTables true exExpr (fun _ => none) 20).map fun T => (List.range T.nx).map fun i => (List.range 4).map (T.shiftEntry i)) =
    some [[none, none, none, some 10], [none, none, none, some 10], [none, none, none, some 10], [some 14, some 2, some 1, none],
      [none, none, some 1, none]] := by decide +kernel
example : ((makeTables true exExpr (fun _ => none) 20).map fun T => [0, 1, 2].map fun i => [4, 5].map (T.gotoEntry i)) =
    some [[some 12, some 3], [none, some 16], [none, some 4]] := by decide +kernel
example : Usable exExpr := usable_of (by decide +kernel)

/-! ### C37 -/

/-- C37.  For a state number with an entry in `yy_shift_ofst`: for each token the index into
`yy_lookahead` is in bounds, and if the entry there is for the token then the index into `yy_action`
is in bounds too.  There is an entry in `yy_shift_ofst` exactly for the numbers up to that of the last
state with an action on a token.  So what is missing is that there is an entry for each state the
parser can be in (see `C37_violated`). -/
theorem C37_bounds_partial (u : Usable g) (h : Generated g fb compress m F A cs T) :
    (∀ (i : Nat) (o : Int), T.shiftOfst[i]? = some o → ∀ t < g.nterm, 0 ≤ o ∧ o + t < T.lookahead.length ∧
      (T.lookahead[(o + t).toNat]? = some t → o + t < T.action.length)) ∧
    (∀ i, i < T.shiftOfst.length ↔ ∃ s < cs.length, i ≤ (resortStates g cs).idxOf s ∧ (resortStates g cs).idxOf s < T.nx ∧
      ∃ t < g.nterm, (cs.getD s ⟨[], none⟩).on t ≠ []) := by
  have R := h.reported u
  refine ⟨?_, ?_⟩
  · intro i o ho t ht
    have hl : i < T.shiftOfst.length := (List.getElem?_eq_some_iff.mp ho).1
    obtain ⟨_, o', h1, _, h3, h4⟩ := R.shift i hl
    rw [ho] at h1
    simp only [Option.some.injEq] at h1
    subst h1
    refine ⟨by omega, by omega, ?_⟩
    intro hla
    have h5 := h4 t ht
    have he : ((o' : Int) + t).toNat = o' + t := by omega
    rw [he] at hla
    cases hn : lastNum g cs.length (resortStates g cs) (stateAt cs (resortStates g cs) i) t with
    | some n =>
      rw [hn] at h5
      have := (List.getElem?_eq_some_iff.mp h5.2).1
      omega
    | none =>
      rw [hn] at h5
      obtain ⟨l, hne, h5⟩ := h5
      rw [hla] at h5
      exact absurd (Option.some.inj h5).symm hne
  · intro i
    rw [R.cover, R.nxs]
    have hlen := (h.toPrepared.states u).1
    have hnx := h.toPrepared.nx_le u
    have hcnt : ∀ s < cs.length, (0 < nTknAct g (cs.getD s ⟨[], none⟩) ↔ ∃ t < g.nterm, (cs.getD s ⟨[], none⟩).on t ≠ []) := by
      intro s hs
      have hok := h.toPrepared.actsOK u (s := s) (by omega)
      unfold nTknAct
      rw [List.length_pos_iff_exists_mem]
      constructor
      · rintro ⟨a, ha⟩
        rw [List.mem_filter] at ha
        simp only [Bool.and_eq_true, decide_eq_true_eq] at ha
        refine ⟨a.sp, (index_lt_nterm (hok.plain u.wf ha.1)).mp ha.2.2, ?_⟩
        exact List.ne_nil_of_mem (mem_onSym.mpr ⟨a, ha.1, ha.2.1, rfl, rfl⟩)
      · rintro ⟨t, ht, hne⟩
        obtain ⟨e, he⟩ := List.exists_mem_of_ne_nil _ hne
        obtain ⟨a, ha, hl, hsp, _⟩ := mem_onSym.mp he
        refine ⟨a, List.mem_filter.mpr ⟨ha, ?_⟩⟩
        simp only [Bool.and_eq_true, decide_eq_true_eq]
        exact ⟨hl, (index_lt_nterm (hok.plain u.wf ha)).mpr (by omega)⟩
    constructor
    · rintro ⟨j, h1, h2, h3⟩
      obtain ⟨s, _, k2, k3, k4⟩ := order_get (g := g) (cs := cs) (i := j) (by omega)
      unfold stateAt at h3
      rw [k2] at h3
      exact ⟨s, k3, by omega, by omega, (hcnt s k3).mp h3⟩
    · rintro ⟨s, h1, h2, h3, h4⟩
      refine ⟨(resortStates g cs).idxOf s, h2, h3, ?_⟩
      unfold stateAt
      rw [(order_idx h1).1]
      exact (hcnt s h1).mpr h4

/-- `S ::= A. A ::= A C. A ::= . C ::= x D. D ::= .`  `$ x` are 0 1, `S A C D` are 2…5. -/
def exNoRow : Gram where
  nterm := 2
  mts := []
  nsym := 6
  rules := [⟨2, [3], none, false⟩, ⟨3, [3, 4], none, false⟩, ⟨3, [], none, false⟩, ⟨4, [1, 5], none, false⟩, ⟨5, [], none, false⟩]
  start := 2
  errsym := none
  wildcard := none
  prec := fun _ => -1
  assoc := fun _ => .UNK

theorem exNoRow_usable : Usable exNoRow := usable_of (by decide +kernel)

/-- C37 does not hold: for this grammar without conflicts, `x` is a sentence; when it has been read
the parser is in state 2, and looks for an entry with index 2 in `yy_shift_ofst`, which has two
entries.  (`assert( stateno <= YY_SHIFT_COUNT )` fails; without assertions the array is read out of
bounds.) -/
theorem C37_violated : Usable exNoRow ∧ exNoRow.cfg.Sentence exNoRow.start [1] ∧
    ∃ T, Generates exNoRow (fun _ => none) true T ∧ T.nx = 3 ∧ T.shiftOfst.length = 2 ∧
      ∀ c : PConf, c.depth = none → c.track = false → ∃ evs, parseTokens T c 5 [1] .init = some (⟨[(2, 1), (1, 3), (0, 0)], -2, 0⟩, evs) ∧
      ∀ t fuel, parseToken T c fuel ⟨[(2, 1), (1, 3), (0, 0)], -2, 0⟩ t = none := by
  refine ⟨exNoRow_usable, ⟨by decide, ?_⟩, ?_⟩
  · refine .tail (.tail (.tail (.tail (.single (.mk [] [] (A := 2) (α := [3]) (by decide))) (.mk [] [] (A := 3) (α := [3, 4]) (by decide)))
      (.mk [] [4] (A := 3) (α := []) (by decide))) (.mk [] [] (A := 4) (α := [1, 5]) (by decide))) (.mk [1] [] (A := 5) (α := []) (by decide))
  · have hm : (makeTables true exNoRow (fun _ => none) 20).isSome = true := by decide +kernel
    obtain ⟨T, hT⟩ := Option.isSome_iff_exists.mp hm
    have h1 : (makeTables true exNoRow (fun _ => none) 20).map (fun T => (T.nx, T.shiftOfst.length)) = some (3, 2) := by decide +kernel
    rw [hT] at h1
    simp only [Option.map_some, Option.some.injEq, Prod.mk.injEq] at h1
    refine ⟨T, generates_of exNoRow_usable hT, h1.1, h1.2, ?_⟩
    rintro ⟨d, nr, tr, nd⟩ hd ht
    simp only at hd ht
    subst hd ht
    have h2 : ∀ nr nd : Bool, (makeTables true exNoRow (fun _ => none) 20).bind (fun T =>
        (parseTokens T ⟨none, nr, false, nd⟩ 5 [1] .init).map Prod.fst) = some ⟨[(2, 1), (1, 3), (0, 0)], -2, 0⟩ := by decide +kernel
    have h3 := h2 nr nd
    rw [hT] at h3
    obtain ⟨⟨p, evs⟩, h4, h5⟩ := Option.map_eq_some_iff.mp h3
    simp only at h5
    subst h5
    refine ⟨evs, h4, ?_⟩
    intro t fuel
    cases fuel with
    | zero => rfl
    | succ fuel =>
      unfold parseToken parseLoop parseRound
      simp only [List.head?_cons]
      have : T.findShift nd (fuel + 1) t 2 = none := by
        unfold Tables.findShift
        rw [if_neg (by omega), Tables.findShiftLoop, List.getElem?_eq_none (by omega)]
      rw [this]

/-! ### C38 -/

/-- C38.  If no fallback has a fallback, then for each state (with an entry in `yy_shift_ofst`, see C37)
and each token the parser finds exactly one action, as described by `Finds`: the action of the state
(after compression) on the token; if there is none, that for the fallback; if there is no fallback,
that for the wildcard, but not at the end of input; else the default.  Missing: grammars in which a
fallback has a fallback, see `C38_chains_partial`, `C38_cycle_violated`.  An action that became the
default does not count as an action on the token, see `C38_violated`. -/
theorem C38_lookup_partial (u : Usable g) (hfb : FallbackOK g fb) (hch : ∀ t t', fb t = some t' → fb t' = none)
    (h : Generated g fb compress m F A cs T) (s : Nat) (hs : s < cs.length) (hi : (resortStates g cs).idxOf s < T.shiftOfst.length)
    (t : Nat) (ht : t < g.nterm) (ndebug : Bool) (fuel : Nat) (hf : 2 ≤ fuel) :
    ∃ n, T.findShift ndebug fuel t ((resortStates g cs).idxOf s) = some n ∧
      ∀ n', Finds (fun t => ((cs.getD s ⟨[], none⟩).on t).getLast?.map (actNum g cs.length (resortStates g cs) t)) fb g.wildcard
        (match dfltReduce g (cs.getD s ⟨[], none⟩) with
          | none => T.errAction
          | some r => T.minReduce + g.iRule r) t n' ↔ n' = n := by
  have R := h.reported u
  obtain ⟨n, hn⟩ := loop_total R hfb u.wild hch hi ht ndebug hf
  have hfind := finds_of_loop R hfb u.wild hi fuel t n ht hn
  have hst : stateAt cs (resortStates g cs) ((resortStates g cs).idxOf s) = cs.getD s ⟨[], none⟩ := by
    unfold stateAt
    rw [(order_idx hs).1]
  have hd : (match dfltReduce g (cs.getD s ⟨[], none⟩) with
      | none => T.errAction
      | some r => T.minReduce + g.iRule r) = dfltNum g cs.length (dfltReduce g (cs.getD s ⟨[], none⟩)) := by
    unfold dfltNum Tables.minReduce Tables.noAction Tables.accAction Tables.errAction
    rw [R.msr, R.nrule]
    cases dfltReduce g (cs.getD s ⟨[], none⟩) <;> rfl
  refine ⟨n, ?_, ?_⟩
  · unfold Tables.findShift
    rw [if_neg, hn]
    have := (R.shift _ hi).1
    rw [R.nxs]; omega
  · unfold FindsAt at hfind
    rw [hst] at hfind
    intro n'
    constructor
    · intro h'
      rw [hd] at h'
      exact (hfind.unique h').symm
    · rintro rfl
      rw [hd]
      exact hfind

/-- C38 for parsers compiled without assertions, for any fallbacks: the parser finds exactly what
`Finds` describes.  (If there is a cycle of fallbacks, `Finds` may have no result; then the parser
hangs.) -/
theorem C38_chains_partial (u : Usable g) (hfb : FallbackOK g fb)
    (h : Generated g fb compress m F A cs T) (s : Nat) (hs : s < cs.length) (hi : (resortStates g cs).idxOf s < T.shiftOfst.length)
    (t : Nat) (ht : t < g.nterm) (n : Nat) :
    (∃ fuel, T.findShift true fuel t ((resortStates g cs).idxOf s) = some n) ↔
      Finds (fun t => ((cs.getD s ⟨[], none⟩).on t).getLast?.map (actNum g cs.length (resortStates g cs) t)) fb g.wildcard
        (match dfltReduce g (cs.getD s ⟨[], none⟩) with
          | none => T.errAction
          | some r => T.minReduce + g.iRule r) t n := by
  have R := h.reported u
  have hst : stateAt cs (resortStates g cs) ((resortStates g cs).idxOf s) = cs.getD s ⟨[], none⟩ := by
    unfold stateAt
    rw [(order_idx hs).1]
  have hd : (match dfltReduce g (cs.getD s ⟨[], none⟩) with
      | none => T.errAction
      | some r => T.minReduce + g.iRule r) = dfltNum g cs.length (dfltReduce g (cs.getD s ⟨[], none⟩)) := by
    unfold dfltNum Tables.minReduce Tables.noAction Tables.accAction Tables.errAction
    rw [R.msr, R.nrule]
    cases dfltReduce g (cs.getD s ⟨[], none⟩) <;> rfl
  have hf : ∀ fuel, T.findShift true fuel t ((resortStates g cs).idxOf s) = T.findShiftLoop true ((resortStates g cs).idxOf s) fuel t := by
    intro fuel
    unfold Tables.findShift
    rw [if_neg]
    have := (R.shift _ hi).1
    rw [R.nxs]; omega
  have hF : FindsAt g fb cs (resortStates g cs) ((resortStates g cs).idxOf s) t n ↔
      Finds (fun t => ((cs.getD s ⟨[], none⟩).on t).getLast?.map (actNum g cs.length (resortStates g cs) t)) fb g.wildcard
        (dfltNum g cs.length (dfltReduce g (cs.getD s ⟨[], none⟩))) t n := by
    unfold FindsAt
    rw [hst]
    exact Iff.rfl
  rw [hd, ← hF]
  constructor
  · rintro ⟨fuel, h1⟩
    rw [hf] at h1
    exact finds_of_loop R hfb u.wild hi fuel t n ht h1
  · intro h1
    obtain ⟨fuel, h2⟩ := loop_of_finds R hfb u.wild hi ht h1
    exact ⟨fuel, by rw [hf]; exact h2 fuel (Nat.le_refl _)⟩

/-- `S ::= A t. S ::= x ID. A ::= x.` with `%fallback ID t.`  `$ t x ID` are 0…3, `S A` are 4 5. -/
def exFb : Gram where
  nterm := 4
  mts := []
  nsym := 6
  rules := [⟨4, [5, 1], none, false⟩, ⟨4, [2, 3], none, false⟩, ⟨5, [2], none, false⟩]
  start := 4
  errsym := none
  wildcard := none
  prec := fun _ => -1
  assoc := fun _ => .UNK

theorem exFb_usable : Usable exFb := usable_of (by decide +kernel)

/-- the fallback of `t` is `ID` -/
def exFbMap (t : Nat) : Option Nat := if t = 1 then some 3 else none

/-- `C38_lookup_partial` for this grammar: in state 2, in which `ID` can be shifted, `t` is treated as `ID`. -/
example : FallbackOK exFb exFbMap ∧ (∀ t t', exFbMap t = some t' → exFbMap t' = none) ∧
    (makeTables true exFb exFbMap 20).map (fun T => (List.range T.nx).map fun i => (List.range 4).map fun t => T.findShift false 2 t i) =
    some [[some 8, some 8, some 2, some 8], [some 12, some 8, some 8, some 8], [some 13, some 1, some 13, some 1],
      [some 11, some 8, some 8, some 8], [some 8, some 3, some 8, some 8]] := by
  refine ⟨?_, ?_, by decide +kernel⟩
  · intro t t' h
    unfold exFbMap at h
    split_ifs at h
    cases h
    subst_vars
    decide
  · intro t t' h
    unfold exFbMap at h
    split_ifs at h
    cases h
    rfl

/-- C38 does not hold for the actions before compression.  In this grammar without conflicts, the
state after `x` shifts `ID` and reduces by `A ::= x` on `t`.  The parser shifts `t` in place of `ID`,
and takes `x t` for `x ID`. -/
theorem C38_violated : Usable exFb ∧ FallbackOK exFb exFbMap ∧ ∃ m F A cs T, Generated exFb exFbMap true m F A cs T ∧ A.count = .zero ∧
    (∃ s, A.on s 1 = [(.REDUCE, 2)] ∧ A.on s 3 = [(.SHIFT, 4)] ∧ A.on 0 2 = [(.SHIFT, s)]) ∧
    ∃ c, (parseTokens T c 10 [2, 1, 0] .init).map Prod.snd = some [.shift 2, .shift 1, .reduce 1, .accept] := by
  refine ⟨exFb_usable, ?_, ?_⟩
  · intro t t' h
    unfold exFbMap at h
    split_ifs at h
    cases h
    subst_vars
    decide
  · have h1 : ((analyse exFb 20).bind fun x => (findActions exFb (precsyms exFb) x.1 x.2).bind fun A => (compressTables exFb 20 A.acts).bind fun cs =>
        (report exFb exFbMap cs (resortStates exFb cs) (nxstate cs (resortStates exFb cs))).map fun T =>
          decide ((rawActs exFb x.1 x.2).length < 2 ^ 30) && decide (A.count = .zero) &&
            (List.range 8).any (fun s => decide (A.on s 1 = [(.REDUCE, 2)]) && decide (A.on s 3 = [(.SHIFT, 4)]) && decide (A.on 0 2 = [(.SHIFT, s)])) &&
            decide ((parseTokens T ⟨none, false, false, false⟩ 10 [2, 1, 0] .init).map Prod.snd = some [.shift 2, .shift 1, .reduce 1, .accept])) =
        some true := by decide +kernel
    obtain ⟨⟨m, F⟩, k1, h1⟩ := Option.bind_eq_some_iff.mp h1
    obtain ⟨A, k2, h1⟩ := Option.bind_eq_some_iff.mp h1
    obtain ⟨cs, k3, h1⟩ := Option.bind_eq_some_iff.mp h1
    obtain ⟨T, k4, h1⟩ := Option.map_eq_some_iff.mp h1
    simp only [Bool.and_eq_true, decide_eq_true_eq, List.any_eq_true, List.mem_range] at h1
    obtain ⟨⟨⟨e1, e2⟩, s, _, ⟨e3, e4⟩, e5⟩, e6⟩ := h1
    exact ⟨m, F, A, cs, T, ⟨⟨analysed_of_analyse exFb_usable.wf exFb_usable.items k1, e1, k2, fun _ => ⟨20, k3⟩, fun h => by cases h⟩, k4⟩,
      e2, ⟨s, e3, e4, e5⟩, _, e6⟩

/-- `%fallback ID t. %fallback t ID.` -/
def exCycMap (t : Nat) : Option Nat := if t = 1 then some 3 else if t = 3 then some 1 else none

/-- Lemon accepts fallbacks that are each other's fallback.  Then the parser does not find an action
for such a token at the start of the input: with assertions it aborts, without assertions it does not
stop. -/
theorem C38_cycle_violated : Usable exFb ∧ FallbackOK exFb exCycMap ∧ ∃ T, Generates exFb exCycMap true T ∧
    ∀ c : PConf, ∀ fuel, parseToken T c fuel .init 1 = none := by
  have hfb : FallbackOK exFb exCycMap := by
    intro t t' h
    unfold exCycMap at h
    split_ifs at h <;> cases h <;> subst_vars <;> decide
  refine ⟨exFb_usable, hfb, ?_⟩
  have hm : (makeTables true exFb exCycMap 20).isSome = true := by decide +kernel
  obtain ⟨T, hT⟩ := Option.isSome_iff_exists.mp hm
  refine ⟨T, generates_of exFb_usable hT, ?_⟩
  obtain ⟨m, F, A, cs, hG⟩ := generates_of exFb_usable hT
  have R := hG.reported exFb_usable
  have h1 : (makeTables true exFb exCycMap 20).map (fun T => (T.nx, T.shiftOfst.length, T.shiftEntry 0 1, T.shiftEntry 0 3)) =
    some (5, 5, none, none) := by decide +kernel
  rw [hT] at h1
  simp only [Option.map_some, Option.some.injEq, Prod.mk.injEq] at h1
  have hnx : 0 < nxstate cs (resortStates exFb cs) := by rw [← R.nxs, h1.1]; omega
  have hl : 0 < T.shiftOfst.length := by omega
  have e1 := h1.2.2.1
  have e3 := h1.2.2.2
  rw [shiftEntry_eq exFb_usable.wf (hG.toPrepared.rowsOK exFb_usable) R hnx (by decide)] at e1
  rw [shiftEntry_eq exFb_usable.wf (hG.toPrepared.rowsOK exFb_usable) R hnx (by decide)] at e3
  have key : ∀ nd fuel, T.findShiftLoop nd 0 fuel 1 = none ∧ T.findShiftLoop nd 0 fuel 3 = none := by
    intro nd fuel
    induction fuel with
    | zero => exact ⟨rfl, rfl⟩
    | succ fuel ih =>
      rw [findShiftLoop_succ R hfb exFb_usable.wild hl (by decide), findShiftLoop_succ R hfb exFb_usable.wild hl (by decide), e1, e3]
      simp only [exCycMap]
      simp [ih.1, ih.2]
  intro c fuel
  cases fuel with
  | zero => rfl
  | succ fuel =>
    unfold parseToken parseLoop parseRound
    simp only [PState.init, List.head?_cons]
    have : T.findShift c.ndebug (fuel + 1) 1 0 = none := by
      unfold Tables.findShift
      rw [if_neg (by omega)]
      exact (key _ _).1
    rw [this]

/-! ### C63 -/

/-- C63.  The tables are made, without an access outside of an array, if the set of actions put last in
the table is for nonterminals, or has an action on a token with a code not above the number of
nonterminals (`axSets` are the sets in order, those for tokens with even numbers). -/
theorem C63_report_partial (u : Usable g) (h : Prepared g compress m F A cs) (fb : Nat → Option Nat)
    (hlast : ∀ k, (axSets g cs (resortStates g cs) (nxstate cs (resortStates g cs))).getLast? = some k → k % 2 = 1 ∨
      ∃ t < g.nterm, t + g.nterm ≤ g.nsymbol ∧ (stateAt cs (resortStates g cs) (k / 2)).on t ≠ []) :
    ∃ T, Generated g fb compress m F A cs T := by
  obtain ⟨T, hT⟩ := report_some (fb := fb) u.wf u.err (h.rowsOK u) hlast
  exact ⟨T, h, hT⟩

/-- C63.  The tables are made if there are at least as many nonterminals as terminals (with `$`), less
one. -/
theorem C63_enough_partial (u : Usable g) (h : Prepared g compress m F A cs) (fb : Nat → Option Nat) (hN : 2 * g.nterm ≤ g.nsymbol + 1) :
    ∃ T, Generated g fb compress m F A cs T := by
  refine C63_report_partial u h fb ?_
  intro k hk
  by_cases hodd : k % 2 = 1
  · exact .inl hodd
  · right
    obtain ⟨h1, h2⟩ := mem_axSets.mp (List.mem_of_getLast? hk)
    unfold axCount at h2
    simp only at h2
    rw [if_pos (by omega)] at h2
    unfold nTknAct at h2
    obtain ⟨a, ha⟩ := List.length_pos_iff_exists_mem.mp h2
    rw [List.mem_filter] at ha
    simp only [Bool.and_eq_true, decide_eq_true_eq] at ha
    have hsp := (index_lt_nterm ((h.rowsOK u (k / 2) (by omega)).plain u.wf ha.1)).mp ha.2.2
    exact ⟨a.sp, hsp, by omega, List.ne_nil_of_mem (mem_onSym.mpr ⟨a, ha.1, ha.2.1, rfl, rfl⟩)⟩

/-- `C63_report_partial` for the expression grammar: the last set is the one for the token `TIMES` of state 4;
there are six symbols. -/
example : (prepare true exExpr 20).map (fun cs => (axSets exExpr cs (resortStates exExpr cs) (nxstate cs (resortStates exExpr cs)),
    (stateAt cs (resortStates exExpr cs) 4).on 2)) = some ([6, 1, 0, 2, 3, 4, 5, 8], [(.SHIFT, 4)]) ∧ 2 + exExpr.nterm ≤ exExpr.nsymbol := by
  decide +kernel

/-- `s ::= b. [LO]`, `b ::= c.`, `c ::= b. [HI]`, `c ::= Z.` (each rule with code) with `%left LO. %left HI.` and
a `%token` directive for 25 more tokens.  `$ LO HI` are 0 1 2, `Z` is 28, `s b c` are 29 30 31. -/
def exOver : Gram where
  nterm := 29
  mts := []
  nsym := 32
  rules := [⟨29, [30], some 1, true⟩, ⟨30, [31], none, true⟩, ⟨31, [30], some 2, true⟩, ⟨31, [28], none, true⟩]
  start := 29
  errsym := none
  wildcard := none
  prec := fun X => if X = 1 then 1 else if X = 2 then 2 else -1
  assoc := fun X => if X = 1 ∨ X = 2 then .LEFT else .UNK

/-- C63 does not hold for this grammar: the array `aAction` is read out of bounds (by
`acttab_action_size`, lemon.c:836-840). -/
theorem C63_violated : Usable exOver ∧ ∃ m F A cs, Prepared exOver true m F A cs ∧
    (∀ fb, report exOver fb cs (resortStates exOver cs) (nxstate cs (resortStates exOver cs)) = none) ∧
    ∃ p os, insertAll exOver.nsymbol exOver.nterm ((axSets exOver cs (resortStates exOver cs) (nxstate cs (resortStates exOver cs))).map
      (axOp exOver cs (resortStates exOver cs))) Acttab.empty = some (p, os) ∧ p.nAction = 58 ∧ p.tab.length = 53 := by
  have u : Usable exOver := usable_of (by decide +kernel)
  refine ⟨u, ?_⟩
  have h1 : (prepare true exOver 20).bind (fun cs => (insertAll exOver.nsymbol exOver.nterm
      ((axSets exOver cs (resortStates exOver cs) (nxstate cs (resortStates exOver cs))).map
      (axOp exOver cs (resortStates exOver cs))) Acttab.empty).map fun x => (x.1.nAction, x.1.tab.length)) = some (58, 53) := by decide +kernel
  obtain ⟨cs, k1, h1⟩ := Option.bind_eq_some_iff.mp h1
  obtain ⟨⟨p, os⟩, k2, h1⟩ := Option.map_eq_some_iff.mp h1
  simp only [Prod.mk.injEq] at h1
  obtain ⟨m, F, A, hP⟩ := prepared_of u k1
  refine ⟨m, F, A, cs, hP, ?_, p, os, k2, h1.1, h1.2⟩
  intro fb
  unfold report
  simp only [k2, Option.bind_some]
  unfold Acttab.actionSize
  rw [if_pos (by omega)]
  rfl

end Verif.Lemon
