import Verif.Proofs.LemonFirst
/-
C30: the first sets and empty-string flags of lemon are exact.
C23 (lemon's part): rule precedence selection.
-/
set_option autoImplicit false
namespace Verif.Lemon
open Verif.Spec

/-- C30.  For every grammar, `FindFirstSets` ends; afterwards the flag of a nonterminal is set iff
it derives the empty string, and its set contains a terminal iff it derives a string beginning
with that terminal.  (The number of rules is an `int` in the code.) -/
theorem C30_first_sets (g : Gram) (wf : g.WF) (hn : g.rules.length < 2 ^ 32) :
    ∃ fs, findFirstSets g = some fs ∧ ∀ A, g.nlow ≤ A → A < g.nsym →
      (fs.lambda.getD A false = true ↔ g.cfg.Nullable [A]) ∧
      ∀ t, setFind (fs.first.getD A []) t = true ↔ g.cfg.First [A] t := by
  have hk : 1 ≤ g.setSize := by unfold Gram.setSize; omega
  obtain ⟨lam, h1, _, h3⟩ := findLambda_spec wf hn (fuel := g.nsym * g.setSize + 1)
    (Nat.lt_succ_of_le (Nat.le_mul_of_pos_right _ hk))
  obtain ⟨F, h4, _, h6, _⟩ := findFirst_spec wf hn h3 (fuel := g.nsym * g.setSize + 1) (Nat.lt_succ_self _)
  refine ⟨⟨lam, F⟩, ?_, ?_⟩
  · unfold findFirstSets firstWith; rw [h1]; simp [h4]
  · intro A hA _
    refine ⟨?_, fun t => ?_⟩
    · simp only [h3 A, nullable_iff]; simp
    · simp only [h6 A t, first_iff]; simp [hA]

/-- `s ::= x A|B.  x ::= .  x ::= C x.`  Terminals `$ A B C` are 0…3, `A|B` is 4, `s` 5, `x` 6. -/
def exFirst : Gram where
  nterm := 4
  mts := [[1, 2]]
  nsym := 7
  rules := [⟨5, [6, 4], none, false⟩, ⟨6, [], none, true⟩, ⟨6, [3, 6], none, true⟩]
  start := 5
  errsym := none
  wildcard := none
  prec := fun _ => -1
  assoc := fun _ => .UNK

example : exFirst.WF := ⟨by decide, by decide, by decide, by decide, by decide⟩

example : findFirstSets exFirst = some ⟨[false, false, false, false, false, false, true],
    [setNew 6, setNew 6, setNew 6, setNew 6, setNew 6, [false, true, true, true, false, false],
     [false, false, false, true, false, false]]⟩ := by decide +kernel

/-- the terminals of a right-hand side, from left to right -/
def Gram.terminals (g : Gram) (rhs : List Nat) : List Nat :=
  rhs.flatMap fun X => if X < g.nterm then [X] else if X < g.nlow then g.subsym X else []

theorem precSub_lemon (g : Gram) : ∀ (ts : List Nat) (u : Option Nat),
    precSub g false ts u = ((ts.find? fun t => g.prec t ≥ 0).or u) := by
  intro ts
  induction ts with
  | nil => intro u; simp [precSub]
  | cons t ts ih =>
    intro u
    unfold precSub
    by_cases h : g.prec t ≥ 0
    · simp [h]
    · simp [h, ih]

theorem precSub_yacc (g : Gram) : ∀ (ts : List Nat) (u : Option Nat),
    precSub g true ts u = (ts.getLast?.or u) := by
  intro ts
  induction ts with
  | nil => intro u; simp [precSub]
  | cons t ts ih =>
    intro u
    unfold precSub
    simp only [Bool.or_true, Bool.not_true, ih, if_true, Bool.false_eq_true, if_false]
    rw [List.getLast?_cons]
    cases ts.getLast? <;> simp

theorem precScan_lemon (g : Gram) : ∀ (rhs : List Nat) (u : Option Nat),
    precScan g false rhs u = (u.or ((g.terminals rhs).find? fun t => g.prec t ≥ 0)) := by
  intro rhs
  induction rhs with
  | nil => intro u; simp [precScan, Gram.terminals]
  | cons X rest ih =>
    intro u
    have hT : g.terminals (X :: rest) = (if X < g.nterm then [X] else if X < g.nlow then g.subsym X else []) ++
      g.terminals rest := by simp [Gram.terminals]
    rw [hT, List.find?_append]
    unfold precScan
    cases u with
    | some x => simp
    | none =>
      simp only [Option.isSome_none, Bool.false_and, if_false, Bool.false_eq_true, ih, Option.none_or]
      by_cases hM : g.isMT X = true
      · have : ¬ X < g.nterm ∧ X < g.nlow := by simp [Gram.isMT] at hM; omega
        simp [hM, this, precSub_lemon]
      · simp only [hM, if_false, Bool.false_eq_true]
        by_cases hX : X < g.nterm
        · by_cases hp : g.prec X ≥ 0
          · simp [Gram.isTerm, hX, hp]
          · simp [Gram.isTerm, hX, hp]
        · have : ¬ X < g.nlow := by simp [Gram.isMT] at hM; omega
          simp [Gram.isTerm, hX, this]

theorem precScan_yacc (g : Gram) : ∀ (rhs : List Nat) (u : Option Nat),
    precScan g true rhs u = ((g.terminals rhs).getLast?.or u) := by
  intro rhs
  induction rhs with
  | nil => intro u; simp [precScan, Gram.terminals]
  | cons X rest ih =>
    intro u
    have hT : g.terminals (X :: rest) = (if X < g.nterm then [X] else if X < g.nlow then g.subsym X else []) ++
      g.terminals rest := by simp [Gram.terminals]
    rw [hT, List.getLast?_append]
    unfold precScan
    simp only [Bool.not_true, Bool.and_false, if_false, Bool.false_eq_true, ih, Bool.or_true, Bool.and_true]
    by_cases hM : g.isMT X = true
    · have : ¬ X < g.nterm ∧ X < g.nlow := by simp [Gram.isMT] at hM; omega
      simp [hM, this, precSub_yacc, Option.or_assoc]
    · simp only [hM, if_false, Bool.false_eq_true]
      by_cases hX : X < g.nterm
      · simp [Gram.isTerm, hX, Option.or_assoc]
      · have : ¬ X < g.nlow := by simp [Gram.isMT] at hM; omega
        simp [Gram.isTerm, hX, this]

/-- C23 for lemon: an explicit precedence mark always wins. -/
theorem C23_mark (g : Gram) (yaccPrec : Bool) (lhs x : Nat) (rhs : List Nat) (code : Bool) :
    findRulePrec g false yaccPrec ⟨lhs, rhs, precMark false x, code⟩ = some x := by
  simp [findRulePrec, precMark]

/-- C23 for lemon: without a mark the rule takes the first terminal that has a precedence. -/
theorem C23_first (g : Gram) (lhs : Nat) (rhs : List Nat) (code : Bool) :
    findRulePrec g false false ⟨lhs, rhs, none, code⟩ =
      (g.terminals rhs).find? fun t => g.prec t ≥ 0 := by
  simp only [findRulePrec, Bool.false_eq_true, if_false, precScan_lemon, Option.none_or]
  cases h : (g.terminals rhs).find? fun t => g.prec t ≥ 0 with
  | none => rfl
  | some t =>
    have := List.find?_some h
    simp at this
    simp [this]

/-- C23 for lemon: with the yacc option and no mark the rule takes its last terminal, if that has
a precedence. -/
theorem C23_last (g : Gram) (lhs : Nat) (rhs : List Nat) (code : Bool) :
    findRulePrec g false true ⟨lhs, rhs, none, code⟩ =
      (g.terminals rhs).getLast?.filter fun t => g.prec t ≥ 0 := by
  simp only [findRulePrec, Bool.false_eq_true, if_false, precScan_yacc, Option.or_none]
  cases h : (g.terminals rhs).getLast? with
  | none => rfl
  | some t => by_cases h' : g.prec t ≥ 0 <;> simp [Option.filter_some, h']

/-- C23 for lemon: with the ignore option no rule has a precedence, marked or not. -/
theorem C23_none (g : Gram) (yaccPrec : Bool) (lhs x : Nat) (rhs : List Nat) (code : Bool) :
    findRulePrec g true yaccPrec ⟨lhs, rhs, precMark true x, code⟩ = none ∧
    findRulePrec g true yaccPrec ⟨lhs, rhs, none, code⟩ = none := by
  simp [findRulePrec, precMark]

/-- `A` (1) and `C` (3) have a precedence -/
def exPrec : Gram := { exFirst with prec := fun t => if t = 1 then 1 else if t = 3 then 2 else -1 }

-- `x A|B C x B`: the first terminal with a precedence is `A`, the last terminal is `B`
example : findRulePrec exPrec false false ⟨6, [6, 4, 3, 6, 2], none, false⟩ = some 1 ∧
    findRulePrec exPrec false true ⟨6, [6, 4, 3, 6, 2], none, false⟩ = none ∧
    findRulePrec exPrec false true ⟨6, [6, 4, 3, 6], none, false⟩ = some 3 ∧
    findRulePrec exPrec false false ⟨6, [6, 4, 3, 6, 2], precMark false 2, false⟩ = some 2 := by decide

end Verif.Lemon
