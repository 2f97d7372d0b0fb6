import Verif.Byacc.Opts
import Verif.Spec.ByaccOpts
set_option autoImplicit false
namespace Verif.Byacc.Op
open Verif.Spec.YOpts

theorem optsOf_snoc (ps : List (Nat × List Nat)) (p : Nat × List Nat) : optsOf (ps ++ [p]) = applyOpt (optsOf ps) p := by
  simp [optsOf]

theorem given_snoc (ps : List (Nat × List Nat)) (p : Nat × List Nat) (c : Char) : Given (ps ++ [p]) c ↔ Given ps c ∨ p.1 = c.toNat := by
  simp [Given, or_and_right, exists_or]

theorem last_snoc (ps : List (Nat × List Nat)) (p : Nat × List Nat) (cs : List Char) (c : Char) (v : List Nat) :
    Last (ps ++ [p]) cs c v ↔ (c ∈ cs ∧ p = (c.toNat, v)) ∨ (Last ps cs c v ∧ ∀ d ∈ cs, p.1 ≠ d.toNat) := by
  constructor
  · rintro ⟨pre, post, h, hc, hp⟩
    rcases List.eq_nil_or_concat post with rfl | ⟨post, q, rfl⟩
    · rw [← List.concat_eq_append, ← List.concat_eq_append] at h
      obtain ⟨-, h⟩ := List.concat_inj.1 h
      exact .inl ⟨hc, h⟩
    · have : pre ++ (c.toNat, v) :: (post ++ [q]) = (pre ++ (c.toNat, v) :: post) ++ [q] := by simp
      rw [List.concat_eq_append, this] at h
      obtain ⟨h1, h2⟩ := List.append_inj' h rfl
      cases h2
      exact .inr ⟨⟨pre, post, h1, hc, fun x hx => hp x (by simp [hx])⟩, hp p (by simp)⟩
  · rintro (⟨hc, rfl⟩ | ⟨⟨pre, post, rfl, hc, hp⟩, hd⟩)
    · exact ⟨ps, [], rfl, hc, nofun⟩
    · refine ⟨pre, post ++ [p], by simp, hc, ?_⟩
      intro x hx
      simp only [List.mem_append, List.mem_singleton] at hx
      rcases hx with hx | rfl
      · exact hp x hx
      · exact hd

/-- the options, told apart -/
theorem snocInd {P : List (Nat × List Nat) → Prop} (h0 : P []) (h1 : ∀ ps p, P ps → P (ps ++ [p])) (ps : List (Nat × List Nat)) : P ps := by
  rw [← List.reverse_reverse ps]
  induction ps.reverse with
  | nil => exact h0
  | cons a l ih => rw [List.reverse_cons]; exact h1 _ _ ih

/-- a flag that exactly the option `c` sets -/
theorem flag_iff (f : Opts → Bool) (c : Char) (h0 : f optsInit = false)
    (h1 : ∀ o p, f (applyOpt o p) = (f o || decide (p.1 = c.toNat))) (ps : List (Nat × List Nat)) : f (optsOf ps) = true ↔ Given ps c := by
  induction ps using snocInd with
  | h0 => simp [optsOf, h0, Given]
  | h1 ps p ih => rw [optsOf_snoc, h1, given_snoc]; simp [ih]

theorem arg_snoc (ps : List (Nat × List Nat)) (p : Nat × List Nat) (c : Char) (r : Option (List Nat)) :
    ArgOf (ps ++ [p]) c r ↔ (p.1 = c.toNat ∧ r = some p.2) ∨ (p.1 ≠ c.toNat ∧ ArgOf ps c r) := by
  cases r with
  | none =>
    simp only [ArgOf, given_snoc, not_or, reduceCtorEq, and_false, false_or]
    exact and_comm
  | some v =>
    simp only [ArgOf, last_snoc, List.mem_singleton, true_and, forall_eq, Option.some.injEq]
    obtain ⟨a, b⟩ := p
    simp only [Prod.mk.injEq]
    constructor
    · rintro (⟨h1, h2⟩ | ⟨h1, h2⟩)
      · exact .inl ⟨h1, h2.symm⟩
      · exact .inr ⟨h2, h1⟩
    · rintro (⟨h1, h2⟩ | ⟨h1, h2⟩)
      · exact .inl ⟨h1, h2.symm⟩
      · exact .inr ⟨h2, h1⟩

theorem arg_iff (f : Opts → Option (List Nat)) (c : Char) (h0 : f optsInit = none)
    (h1 : ∀ o p, f (applyOpt o p) = if p.1 = c.toNat then some p.2 else f o) (ps : List (Nat × List Nat)) (r : Option (List Nat)) :
    ArgOf ps c r ↔ f (optsOf ps) = r := by
  induction ps using snocInd generalizing r with
  | h0 =>
    rw [show optsOf [] = optsInit from rfl, h0]
    cases r <;> simp [ArgOf, Given, Last]
  | h1 ps p ih =>
    rw [arg_snoc, optsOf_snoc, h1]
    by_cases hp : p.1 = c.toNat
    · simp [hp, eq_comm]
    · simp [hp, ih]

theorem arg_b (ps : List (Nat × List Nat)) : ∃ r, ArgOf ps 'b' r ∧ (optsOf ps).filePrefix = r.getD (txt "y") := by
  induction ps using snocInd with
  | h0 => exact ⟨none, by simp [ArgOf, Given], by decide⟩
  | h1 ps p ih =>
    obtain ⟨r, h1, h2⟩ := ih
    by_cases hp : p.1 = 98
    · refine ⟨some p.2, (arg_snoc _ _ _ _).2 (.inl ⟨hp, rfl⟩), ?_⟩
      rw [optsOf_snoc, applyOpt, if_pos hp]; rfl
    · refine ⟨r, (arg_snoc _ _ _ _).2 (.inr ⟨hp, h1⟩), ?_⟩
      rw [optsOf_snoc, ← h2]
      simp only [applyOpt, apply_ite Opts.filePrefix, ite_self, hp, if_false]

theorem arg_unique (ps : List (Nat × List Nat)) (c : Char) (r r' : Option (List Nat)) (h : ArgOf ps c r) (h' : ArgOf ps c r') : r = r' := by
  induction ps using snocInd generalizing r r' with
  | h0 => cases r <;> cases r' <;> simp [ArgOf, Given, Last] at h h' ⊢
  | h1 ps p ih =>
    rw [arg_snoc] at h h'
    rcases h with ⟨h1, h2⟩ | ⟨h1, h2⟩ <;> rcases h' with ⟨h3, h4⟩ | ⟨h3, h4⟩
    · rw [h2, h4]
    · exact absurd h1 h3
    · exact absurd h3 h1
    · exact ih r r' h2 h4

theorem arg_o (ps : List (Nat × List Nat)) (r : Option (List Nat)) : ArgOf ps 'o' r ↔ (optsOf ps).output = r := by
  refine arg_iff (·.output) 'o' rfl ?_ ps r
  intro o p
  by_cases h : p.1 = 111
  · simp [applyOpt, h]
  · simp only [applyOpt, apply_ite Opts.output, ite_self, h, if_false]
    rw [if_neg (show ¬ p.1 = 'o'.toNat from h)]

theorem hdr (ps : List (Nat × List Nat)) :
    ((∃ v, Last ps ['d', 'H'] 'd' v) ↔ (optsOf ps).dflag = true ∧ (optsOf ps).dflag2 = false) ∧
    (∀ v, Last ps ['d', 'H'] 'H' v ↔ (optsOf ps).dflag = true ∧ (optsOf ps).dflag2 = true ∧ (optsOf ps).defines = some v) ∧
    ((optsOf ps).dflag2 = true → (optsOf ps).dflag = true) := by
  induction ps using snocInd with
  | h0 =>
    refine ⟨?_, ?_, ?_⟩
    · simp [Last, optsOf, optsInit]
    · simp [Last, optsOf, optsInit]
    · simp [optsOf, optsInit]
  | h1 ps p ih =>
    obtain ⟨i1, i2, i3⟩ := ih
    obtain ⟨a, w⟩ := p
    simp only [last_snoc, optsOf_snoc]
    by_cases hd : a = 100
    · subst hd
      have : applyOpt (optsOf ps) (100, w) = { optsOf ps with dflag := true, dflag2 := false } := by simp [applyOpt]
      rw [this]
      simp
    · by_cases hh : a = 72
      · subst hh
        have : applyOpt (optsOf ps) (72, w) = { optsOf ps with dflag := true, dflag2 := true, defines := some w } := by simp [applyOpt]
        rw [this]
        simp
      · have e1 : (applyOpt (optsOf ps) (a, w)).dflag = (optsOf ps).dflag := by
          simp only [applyOpt, apply_ite Opts.dflag, ite_self, hh, hd, if_false]
        have e2 : (applyOpt (optsOf ps) (a, w)).dflag2 = (optsOf ps).dflag2 := by
          simp only [applyOpt, apply_ite Opts.dflag2, ite_self, hh, hd, if_false]
        have e3 : (applyOpt (optsOf ps) (a, w)).defines = (optsOf ps).defines := by
          simp only [applyOpt, apply_ite Opts.defines, ite_self, hh, hd, if_false]
        rw [e1, e2, e3]
        have hd' : ¬ a = 'd'.toNat := hd
        have hh' : ¬ a = 'H'.toNat := hh
        simp only [Prod.mk.injEq, hd', hh', false_and, and_false, false_or, List.mem_cons, List.not_mem_nil, or_false, forall_eq_or_imp, forall_eq,
          ne_eq, not_false_eq_true, and_self, and_true]
        exact ⟨i1, i2, i3⟩

end Verif.Byacc.Op
