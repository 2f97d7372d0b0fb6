import Verif.Proofs.GraphText
import Verif.Props.C15
import Verif.Props.C25
/-
The report of byacc -v: the lines of a state.
-/
set_option autoImplicit false
namespace Verif.Byacc
open Spec Gr
variable {g : Gram} {G : CFG} {a : LR0}

/-- the line of the specification -/
def Gr.ALine.toEntry : ALine → Option YGraph.Entry
  | .accept => some .accept
  | .shift t s => some (.shift t s)
  | .trialShift _ _ => none
  | .reduce t k l => some (.reduce t k l)
  | .trialReduce _ _ => none
  | .error => some .error
  | .default k => some (.default k)
  | .goto v s => some (.goto v s)
  | .blank => some .blank

theorem aline_text (sn : Nat → List Nat) (l : ALine) (e : YGraph.Entry) (h : l.toEntry = some e) : l.text sn = YGraph.entry sn e := by
  cases l <;> simp only [ALine.toEntry, Option.some.injEq, reduceCtorEq] at h <;> subst h <;> rfl

theorem shiftLines_eq (p : List Action) : shiftLines false p =
    (p.filter fun q => q.code == .SHIFT && q.suppressed == 0).map fun q => ALine.shift q.symbol q.number := by
  unfold shiftLines
  have e : (p.flatMap fun q => (if q.code == .SHIFT && q.suppressed == 0 then [ALine.shift q.symbol q.number] else []) ++
      (if false && q.code == .SHIFT && q.suppressed == 1 then [ALine.trialShift q.symbol q.number] else [])) =
      (p.filter fun q => q.code == .SHIFT && q.suppressed == 0).map fun q => ALine.shift q.symbol q.number := by
    induction p with
    | nil => rfl
    | cons x p ih =>
      rw [List.flatMap_cons, ih, List.filter_cons]
      split <;> simp
  split
  · exact e
  · rename_i h
    symm
    rw [List.map_eq_nil_iff, List.filter_eq_nil_iff]
    intro q hq
    have : (p.filter fun q => q.suppressed < 2 && q.code == .SHIFT) = [] := List.length_eq_zero_iff.1 (by omega)
    have := List.filter_eq_nil_iff.1 this q hq
    simp only [Bool.and_eq_true, decide_eq_true_eq, beq_iff_eq, not_and] at this ⊢
    intro hc h0
    exact this (by omega) hc

theorem redLines_eq (p : List Action) (d : Nat) (h : ∃ q ∈ p, q.code = .REDUCE ∧ q.suppressed < 2) : reductionLines g false p d =
    ((p.filter fun q => q.code == .REDUCE && q.number != d && q.suppressed == 0).map fun q => ALine.reduce q.symbol (q.number - 2) (g.lhs q.number)) ++
      (if 0 < d then [ALine.default (d - 2)] else []) := by
  unfold reductionLines
  rw [if_neg]
  · congr 1
    induction p with
    | nil => rfl
    | cons x p ih =>
      have ih : ∀ (p : List Action), (p.flatMap fun q => if q.code == .REDUCE && q.number != d then
          (if q.suppressed == 0 then [ALine.reduce q.symbol (q.number - 2) (g.lhs q.number)] else []) ++
          (if false && q.suppressed == 1 then [ALine.trialReduce q.symbol (q.number - 2)] else []) else []) =
          (p.filter fun q => q.code == .REDUCE && q.number != d && q.suppressed == 0).map
            fun q => ALine.reduce q.symbol (q.number - 2) (g.lhs q.number) := by
        intro p
        induction p with
        | nil => rfl
        | cons x p ih =>
          rw [List.flatMap_cons, ih, List.filter_cons]
          by_cases h1 : (x.code == .REDUCE && x.number != d) = true
          · by_cases h2 : (x.suppressed == 0) = true
            · simp [h1, h2]
            · simp [h1, h2]
          · simp [h1]
      exact ih (x :: p)
  · obtain ⟨q, hq, h1, h2⟩ := h
    simp only [Bool.not_eq_true', List.any_eq_false, not_forall]
    exact ⟨q, hq, by simp [h1, h2]⟩

theorem redLines_error (p : List Action) (d : Nat) (h : ¬ ∃ q ∈ p, q.code = .REDUCE ∧ q.suppressed < 2) : reductionLines g false p d = [ALine.error] := by
  unfold reductionLines
  rw [if_pos]
  simp only [Bool.not_eq_true', List.any_eq_false]
  intro q hq hh
  simp only [Bool.and_eq_true, beq_iff_eq, decide_eq_true_eq] at hh
  exact h ⟨q, hq, hh⟩

/-- the items of the core: those that are not there by closure only -/
theorem kernel_iff (H : IsLR0Automaton g G a) {q r d : Nat} (hq : q < a.nstates) :
    KernelItem g G a q r d ↔ AItem g G a q r d ∧ (0 < d ∨ (q = 0 ∧ r = 0)) := by
  have hq' : q < a.states.length := hq
  have hne : q ≠ 0 → ∀ r d, KernelItem g G a q r d → 0 < d := by
    intro h0 r d h
    obtain ⟨s, X, hs, hst⟩ := H.reachable q hq' h0
    obtain ⟨d', rfl, -⟩ := ((H.target s X q hst).2.2.2 r d).mp h
    omega
  constructor
  · intro h
    refine ⟨⟨hq, .kern h⟩, ?_⟩
    by_cases h0 : q = 0
    · subst h0
      exact .inr ⟨rfl, ((H.start r d).mp h).1⟩
    · exact .inl (hne h0 r d h)
  · rintro ⟨⟨-, h⟩, hc⟩
    cases h with
    | kern h => exact h
    | step =>
      rcases hc with hc | ⟨rfl, rfl⟩
      · omega
      · exact (H.start _ _).mpr ⟨rfl, rfl⟩

/-- the core lines of a state -/
theorem printCore_eq (hp : Packs g G) (sn : Nat → List Nat) {q : Nat} {c : Core} (hc : a.states[q]? = some c) (hpos : ItemPos g c.items)
    (hs : c.items.Pairwise (· < ·)) :
    ∃ core : List (Nat × Nat), printCore g sn a q = core.flatMap (fun i => YGraph.core G sn i.1 i.2) ∧ core.Nodup ∧
      ∀ r d, (r, d) ∈ core ↔ KernelItem g G a q r d := by
  have key : ∀ is : List Nat, ItemPos g is → ∃ core : List (Nat × Nat), core.map (fun i => pos g i.1 i.2) = is ∧ (∀ i ∈ core, IsItem G i.1 i.2) ∧
      is.flatMap (fun i => [9] ++ dotted g sn (Rd.str " : ") i ++ Rd.str "  (" ++ decDigits (ruleAt g i - 2) ++ Rd.str ")\n") =
        core.flatMap (fun i => YGraph.core G sn i.1 i.2) := by
    intro is
    induction is with
    | nil => intro _; exact ⟨[], rfl, nofun, rfl⟩
    | cons i is ih =>
      intro hpos
      obtain ⟨core, h1, h2, h3⟩ := ih (fun k hk => hpos k (by simp [hk]))
      obtain ⟨r, d, hi, rfl⟩ := exists_item hp (hpos i (by simp)).1 (hpos i (by simp)).2
      obtain ⟨A, α, hr, hd⟩ := id hi
      refine ⟨(r, d) :: core, by simp [h1], ?_, ?_⟩
      · intro x hx
        simp only [List.mem_cons] at hx
        rcases hx with rfl | hx
        · exact hi
        · exact h2 x hx
      · rw [List.flatMap_cons, List.flatMap_cons, h3, YGraph.core, hr, dotted_eq hp sn " : " hr hd, ruleAt_eq hp hr hd]
        rfl
  obtain ⟨core, h1, h2, h3⟩ := key c.items hpos
  refine ⟨core, ?_, ?_, ?_⟩
  · unfold printCore
    rw [List.getD_eq_getElem?_getD, hc]
    exact h3
  · have hnd : (core.map fun i => pos g i.1 i.2).Nodup := by
      rw [h1]
      exact hs.imp (fun h => Nat.ne_of_lt h)
    exact List.Nodup.of_map _ hnd
  · intro r d
    constructor
    · intro hm
      exact ⟨c, hc, h2 _ hm, by rw [← h1]; exact List.mem_map.2 ⟨_, hm, rfl⟩⟩
    · rintro ⟨c', hc', hi, hm⟩
      rw [hc] at hc'; cases hc'
      have hm' : pos g r d ∈ c.items := hm
      rw [← h1] at hm'
      obtain ⟨⟨r', d'⟩, hx, he⟩ := List.mem_map.1 hm'
      obtain ⟨rfl, rfl⟩ := pos_inj hp (h2 _ hx) hi he
      exact hx

/-- the goto lines -/
theorem gotos_iff (H : IsLR0Automaton g G a) {q : Nat} (hq : q < a.nstates) (v s : Nat) :
    ALine.goto v s ∈ stateGotos g a q ↔ g.ntokens ≤ v ∧ ShiftsTo a q v s := by
  have hlen := H.sizes.2.1
  have hq' : q < a.states.length := hq
  obtain ⟨sh, hsh⟩ : ∃ sh, a.shifts[q]? = some sh := ⟨_, List.getElem?_eq_getElem (by omega)⟩
  have hshq : a.shiftsOf q = sh := by unfold LR0.shiftsOf; rw [List.getD_eq_getElem?_getD, hsh]; rfl
  have hacc : ∀ s X, ShiftsTo a q X s → a.acc s = X := by
    rintro s X ⟨sh', c', -, -, hc', rfl⟩
    unfold LR0.acc
    rw [List.getD_eq_getElem?_getD, hc']
    rfl
  have hst : ∀ s ∈ sh, ShiftsTo a q (a.acc s) s := by
    intro s hs
    have hv := H.valid q sh s hsh hs
    exact ⟨sh, a.states[s]'hv, hsh, hs, List.getElem?_eq_getElem hv, by
      unfold LR0.acc; rw [List.getD_eq_getElem?_getD, List.getElem?_eq_getElem hv]; rfl⟩
  have hvar : ∀ x : Nat, g.isVar (x : Int) = true ↔ g.ntokens ≤ x := by intro x; simp [Gram.isVar, Gram.start]
  have hmem : ALine.goto v s ∈ gotoLines g a q ↔ g.ntokens ≤ v ∧ ShiftsTo a q v s := by
    unfold gotoLines
    rw [hshq]
    simp only [List.mem_cons, reduceCtorEq, false_or, List.mem_filterMap]
    constructor
    · rintro ⟨k, hk, he⟩
      split at he
      · rename_i h
        simp only [Option.some.injEq, ALine.goto.injEq] at he
        obtain ⟨rfl, rfl⟩ := he
        exact ⟨(hvar _).1 h, hst k hk⟩
      · cases he
    · rintro ⟨hv, hs⟩
      obtain ⟨sh', c', hsh', hm, -⟩ := id hs
      rw [hsh] at hsh'; cases hsh'
      refine ⟨s, hm, ?_⟩
      rw [hacc s v hs, if_pos ((hvar v).2 hv)]
  unfold stateGotos
  rw [hshq]
  rcases List.eq_nil_or_concat sh with e | ⟨l, k, e⟩
  · rw [e]
    simp only [List.getLast?_nil, List.not_mem_nil, false_iff, not_and]
    rintro - ⟨sh', c', hsh', hm, -⟩
    rw [hsh, e] at hsh'; cases hsh'
    cases hm
  · rw [List.concat_eq_append] at e
    rw [e, List.getLast?_concat]
    dsimp only
    by_cases hv : g.isVar (a.acc k) = true
    · rw [if_pos hv, hmem]
    · rw [if_neg hv]
      simp only [List.not_mem_nil, false_iff, not_and]
      intro hv' hs
      obtain ⟨sh', c', hsh', hm, -⟩ := id hs
      rw [hsh] at hsh'; cases hsh'
      have hord := H.ordered q sh hsh
      rw [e] at hm hord
      rw [List.mem_append, List.mem_singleton] at hm
      rcases hm with hm | rfl
      · obtain ⟨X, X', h1, h2, hlt⟩ := (List.pairwise_append.1 hord).2.2 s hm k (by simp)
        rw [hvar] at hv
        have := hacc s v hs
        have := hacc s X h1
        have := hacc k X' h2
        omega
      · rw [hacc s v hs, hvar] at hv
        exact hv hv'

end Verif.Byacc
