import Verif.Lemon.NoResort
import Verif.Proofs.LemonTables
import Verif.Proofs.LemonGen
import Verif.Props.C39
/-
C115: with option `-r` the parser recognises the same language (violated for all grammars).
-/
set_option autoImplicit false
namespace Verif.Lemon

/-- C115, rules.  The symbols, rules and fallbacks in the tables do not depend on `-r`. -/
theorem C115_rules_partial (g : Gram) (fb : Nat → Option Nat) (cs : List CState) (T T' : Tables) (h : reportUnsorted g fb cs = some T)
    (h' : report g fb cs (resortStates g cs) (nxstate cs (resortStates g cs)) = some T') :
    T.nsymbol = T'.nsymbol ∧ T.nterm = T'.nterm ∧ T.nrule = T'.nrule ∧ T.ruleLhs = T'.ruleLhs ∧ T.ruleNRhs = T'.ruleNRhs ∧ T.fallback = T'.fallback ∧
    T.wildcard = T'.wildcard ∧ T.errsym = T'.errsym ∧ T.minShiftReduce = T'.minShiftReduce := by
  have key : ∀ order nx T, report g fb cs order nx = some T → T.nsymbol = g.nsymbol ∧ T.nterm = g.nterm ∧ T.nrule = g.rules.length ∧
      T.ruleLhs = g.ruleList.map (fun r => g.index r.lhs) ∧ T.ruleNRhs = g.ruleList.map (fun r => r.rhs.length) ∧
      T.fallback = (List.range g.nterm).map (fun t => (fb t).getD 0) ∧ T.wildcard = g.wildcard.map g.index ∧ T.errsym = g.errsym.map g.index ∧
      T.minShiftReduce = cs.length := by
    intro order nx T h
    unfold report at h
    simp only [Option.bind_eq_some_iff, Option.map_eq_some_iff] at h
    obtain ⟨⟨p, os⟩, -, n, -, rfl⟩ := h
    exact ⟨rfl, rfl, rfl, rfl, rfl, rfl, rfl, rfl, rfl⟩
  obtain ⟨a1, a2, a3, a4, a5, a6, a7, a8, a9⟩ := key _ _ _ h
  obtain ⟨b1, b2, b3, b4, b5, b6, b7, b8, b9⟩ := key _ _ _ h'
  exact ⟨a1.trans b1.symm, a2.trans b2.symm, a3.trans b3.symm, a4.trans b4.symm, a5.trans b5.symm, a6.trans b6.symm, a7.trans b7.symm, a8.trans b8.symm, a9.trans b9.symm⟩

/-- C115 is violated: with `-r` the tables of states are empty for every grammar. -/
theorem C115_tables_violated (g : Gram) (fb : Nat → Option Nat) (cs : List CState) :
    ∃ T, reportUnsorted g fb cs = some T ∧ T.nx = 0 ∧ T.action = [] ∧ T.shiftOfst = [] ∧ T.reduceOfst = [] ∧ T.dflt = [] ∧ T.minShiftReduce = cs.length := by
  have hax : axSets g cs (List.range cs.length) 0 = [] := by
    unfold axSets
    have : qsort (axLe g cs (List.range cs.length)) (List.range (2 * 0)) = [] := by
      have := qsort_perm (axLe g cs (List.range cs.length)) (List.range (2 * 0))
      simpa using this
    rw [this]; rfl
  unfold reportUnsorted report
  simp only [hax]
  exact ⟨_, rfl, rfl, rfl, rfl, rfl, rfl, rfl⟩

/-- C115 is violated: a parser made with `-r` puts every first token on its stack, be it the end of the input: it neither reports an error nor accepts, for every grammar
(a stack of at least two entries given). -/
theorem C115_parser_violated (g : Gram) (fb : Nat → Option Nat) (cs : List CState) (T : Tables) (hT : reportUnsorted g fb cs = some T) (hcs : cs ≠ [])
    (c : PConf) (hc : ∀ d, c.depth = some d → 2 ≤ d) (fuel : Nat) (hf : 0 < fuel) (t : Nat) :
    ∃ p, parseToken T c fuel .init t = some (p, [.shift t]) ∧ p.stack.map Prod.snd = [t, 0] := by
  obtain ⟨T', h', hnx, -, -, -, -, hm⟩ := C115_tables_violated g fb cs
  rw [hT] at h'
  cases h'
  have hpos : 0 < T.minShiftReduce := by rw [hm]; exact List.length_pos_iff.2 hcs
  obtain ⟨f, rfl⟩ : ∃ f, fuel = f + 1 := ⟨fuel - 1, by omega⟩
  have hd : (c.depth.any fun d => decide (1 > d - 1)) = false := by
    cases hdep : c.depth with
    | none => rfl
    | some d =>
      have := hc d hdep
      simp only [Option.any_some, decide_eq_false_iff_not]
      omega
  have htr : ∃ h, track c 1 .init = some ⟨[(0, 0)], -1, h⟩ := by
    unfold track PState.init
    split
    · rw [if_pos (by simp)]; exact ⟨_, rfl⟩
    · exact ⟨_, rfl⟩
  obtain ⟨h, htr⟩ := htr
  have hs : yyShift T c 0 t .init = some (⟨[(T.minReduce - T.minShiftReduce, t), (0, 0)], -1, h⟩, [.shift t]) := by
    unfold yyShift
    simp only [show PState.init.stack.length = 1 from rfl, htr, Option.map_some, hd, hnx]
    simp
  have hr : parseRound T c t (f + 1) false .init = some (.stop ⟨[(T.minReduce - T.minShiftReduce, t), (0, 0)], -1 - 1, h⟩ [.shift t]) := by
    unfold parseRound
    have hfs : T.findShift c.ndebug (f + 1) t 0 = some 0 := by
      unfold Tables.findShift
      rw [if_pos (by omega)]
    have h1 : ¬ T.minReduce ≤ 0 := by unfold Tables.minReduce; omega
    simp only [show PState.init.stack.head? = some (0, 0) from rfl, hfs, if_neg h1, if_pos (show 0 < T.minShiftReduce + T.nrule by omega), hs, Option.map_some]
  refine ⟨⟨[(T.minReduce - T.minShiftReduce, t), (0, 0)], -1 - 1, h⟩, ?_, rfl⟩
  unfold parseToken parseLoop
  rw [hr]

/-- For the grammar `exMix` of C39: the end of the input at once is an error, and with `-r` it is put on the stack. -/
example : ((prepare true exMix 20).bind fun cs => (report exMix (fun _ => none) cs (resortStates exMix cs) (nxstate cs (resortStates exMix cs))).bind fun T =>
    (reportUnsorted exMix (fun _ => none) cs).map fun T' => (cs.length, T.nx, (parseToken T ⟨none, false, false, false⟩ 20 .init 0).map Prod.snd,
      (parseToken T' ⟨none, false, false, false⟩ 20 .init 0).map Prod.snd)) =
    some (6, 3, some [.syntaxError 0, .discard 0, .failed], some [.shift 0]) := by decide +kernel

end Verif.Lemon
