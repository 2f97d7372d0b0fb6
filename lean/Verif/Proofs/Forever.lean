import Verif.Spec.Log
import Mathlib.Tactic.Common
/-
The log does not influence the parse; parses that go round in circles.
-/
set_option autoImplicit false
namespace Verif.Byacc

variable {V : Type} {P : Driver V}

def Cfg.strip (c : Cfg V) : Cfg V := { c with log := [] }

def Res.strip : Res V → Res V
  | .next c => .next c.strip
  | .done h c => .done h c.strip

theorem write_strip (c : Cfg V) (q : Nat) (v : V) : (c.write q v).strip = (c.strip.write q v).strip := by
  unfold Cfg.write
  split <;> rename_i h
  · rw [if_pos (by exact h)]; rfl
  · rw [if_neg (by exact h)]; rfl

theorem push_strip (c : Cfg V) (q : Nat) (v : V) : (P.push c q v).strip = (P.push c.strip q v).strip := by
  unfold Driver.push
  split <;> rename_i h
  · rw [if_pos (by exact h)]
    show _ = Res.strip (match P.grow c.size with | none => _ | some n => _)
    cases P.grow c.size with
    | none => rfl
    | some n => exact write_strip _ _ _
  · rw [if_neg (by exact h)]
    exact write_strip _ _ _

theorem read_strip (c : Cfg V) : c.read.strip = c.strip.read := by
  obtain ⟨stack, chr, lval, input, errflag, size, recover, log⟩ := c
  unfold Cfg.read Cfg.strip
  cases chr with
  | some x => rfl
  | none =>
    cases input with
    | nil => rfl
    | cons p rest => rfl

theorem inrecovery_strip {c c' : Cfg V} (h : c.strip = c'.strip) : c.inrecovery.strip = c'.inrecovery.strip := by
  obtain ⟨stack, chr, lval, input, errflag, size, recover, log⟩ := c
  obtain ⟨stack', chr', lval', input', errflag', size', recover', log'⟩ := c'
  simp only [Cfg.strip, Cfg.mk.injEq] at h
  obtain ⟨rfl, rfl, rfl, rfl, rfl, rfl, rfl, -⟩ := h
  unfold Cfg.inrecovery
  simp only
  split
  · rfl
  · cases chr with
    | none => rfl
    | some x =>
      simp only
      split <;> rfl

theorem finish_strip {c c' : Cfg V} (h : c.strip = c'.strip) (m : Nat) (yym : Int) (v : V) :
    (P.finish c m yym v).strip = (P.finish c' m yym v).strip := by
  obtain ⟨stack, chr, lval, input, errflag, size, recover, log⟩ := c
  obtain ⟨stack', chr', lval', input', errflag', size', recover', log'⟩ := c'
  simp only [Cfg.strip, Cfg.mk.injEq] at h
  obtain ⟨rfl, rfl, rfl, rfl, rfl, rfl, rfl, -⟩ := h
  unfold Driver.finish
  simp only
  cases stack.drop m with
  | nil => rfl
  | cons p below =>
    obtain ⟨s, u⟩ := p
    simp only
    split
    · unfold Cfg.write
      simp only
      by_cases hw : ((s, u) :: below).length < size
      · rw [if_pos hw, if_pos hw]
        simp only
        have h1 := read_strip (⟨(P.t.final, v) :: (s, u) :: below, chr, lval, input, errflag, size, recover, log⟩ : Cfg V)
        have h2 := read_strip (⟨(P.t.final, v) :: (s, u) :: below, chr, lval, input, errflag, size, recover, log'⟩ : Cfg V)
        have h3 := h1.trans h2.symm
        have h4 := congrArg Cfg.chr h3
        simp only [Cfg.strip] at h4
        rw [h4]
        split
        · simp only [Res.strip, h3]
        · simp only [Res.strip, h3]
      · rw [if_neg hw, if_neg hw]
        rfl
    · exact (push_strip _ _ _).trans (push_strip (P := P) (⟨(s, u) :: below, chr, lval, input, errflag, size, recover, log'⟩ : Cfg V) _ _).symm

theorem reduce_strip {c c' : Cfg V} (h : c.strip = c'.strip) (r : Nat) : (P.reduce c r).strip = (P.reduce c' r).strip := by
  obtain ⟨stack, chr, lval, input, errflag, size, recover, log⟩ := c
  obtain ⟨stack', chr', lval', input', errflag', size', recover', log'⟩ := c'
  simp only [Cfg.strip, Cfg.mk.injEq] at h
  obtain ⟨rfl, rfl, rfl, rfl, rfl, rfl, rfl, -⟩ := h
  unfold Driver.reduce
  simp only
  split
  · rfl
  · split
    · exact finish_strip (by rfl) _ _ _
    · exact inrecovery_strip (by rfl)
    · rfl
    · rfl

theorem push_strip' {c c' : Cfg V} (h : c.strip = c'.strip) (q : Nat) (v : V) :
    (P.push c q v).strip = (P.push c' q v).strip := by rw [push_strip, h, ← push_strip]

theorem step_strip {c c' : Cfg V} (h : c.strip = c'.strip) : (P.step c).strip = (P.step c').strip := by
  have hread : c.read.strip = c'.read.strip := by rw [read_strip, read_strip, h]
  unfold Driver.step
  generalize c.read = d at hread
  generalize c'.read = d' at hread
  obtain ⟨stack, chr, lval, input, errflag, size, recover, log⟩ := c
  obtain ⟨stack', chr', lval', input', errflag', size', recover', log'⟩ := c'
  simp only [Cfg.strip, Cfg.mk.injEq] at h
  obtain ⟨rfl, rfl, rfl, rfl, rfl, rfl, rfl, -⟩ := h
  simp only
  cases stack with
  | nil => rfl
  | cons p below =>
    obtain ⟨s, u⟩ := p
    simp only
    split
    · split
      · exact push_strip' (by rfl) _ _
      · split <;> rfl
    · split
      · exact reduce_strip (by rfl) _
      · obtain ⟨stack, chr, lval, input, errflag, size, recover, log⟩ := d
        obtain ⟨stack', chr', lval', input', errflag', size', recover', log'⟩ := d'
        simp only [Cfg.strip, Cfg.mk.injEq] at hread
        obtain ⟨rfl, rfl, rfl, rfl, rfl, rfl, rfl, -⟩ := hread
        simp only
        split
        · exact push_strip' (by rfl) _ _
        · split
          · exact reduce_strip (by rfl) _
          · split
            · exact inrecovery_strip (by rfl)
            · exact inrecovery_strip (by rfl)

/-- A configuration that returns after one step, the log aside, never stops. -/
theorem run_forever {c0 : Cfg V} (h : (P.step c0).strip = .next c0.strip) :
    ∀ (n : Nat) (c : Cfg V), c.strip = c0.strip → ∃ c', P.run n c = .next c' ∧ c'.strip = c0.strip := by
  intro n
  induction n with
  | zero => intro c hc; exact ⟨c, rfl, hc⟩
  | succ n ih =>
    intro c hc
    have hs := step_strip (P := P) hc
    rw [h] at hs
    unfold Driver.run
    cases hst : P.step c with
    | done e c1 => rw [hst] at hs; cases hs
    | next c1 =>
      rw [hst] at hs
      simp only [Res.strip, Res.next.injEq] at hs
      exact ih c1 hs

theorem run_add {c c1 : Cfg V} {m : Nat} (h : P.run m c = .next c1) (n : Nat) : P.run (m + n) c = P.run n c1 := by
  induction m generalizing c with
  | zero =>
    simp only [Driver.run, Res.next.injEq] at h
    subst h
    rw [Nat.zero_add]
  | succ m ih =>
    rw [Nat.add_right_comm]
    simp only [Driver.run] at h ⊢
    cases hs : P.step c with
    | done e c2 => rw [hs] at h; cases h
    | next c2 =>
      rw [hs] at h
      exact ih h

/-- a run that is not over after more steps was not over before -/
theorem run_prefix {c c1 : Cfg V} {m n : Nat} (h : P.run m c = .next c1) (hn : n ≤ m) : ∃ c2, P.run n c = .next c2 := by
  induction m generalizing c n with
  | zero =>
    have : n = 0 := by omega
    subst this
    exact ⟨c, rfl⟩
  | succ m ih =>
    cases n with
    | zero => exact ⟨c, rfl⟩
    | succ n =>
      unfold Driver.run at h ⊢
      cases hs : P.step c with
      | done e c2 => rw [hs] at h; cases h
      | next c2 =>
        rw [hs] at h
        exact ih h (by omega)

/-- Reaching such a configuration, a parse never ends. -/
theorem never_ends {c c0 : Cfg V} {m : Nat} (h : P.run m c = .next c0) (h0 : (P.step c0).strip = .next c0.strip) (n : Nat) :
    ∃ c', P.run n c = .next c' := by
  obtain ⟨c', h1, -⟩ := run_forever h0 n c0 rfl
  rw [← run_add h n] at h1
  exact run_prefix h1 (by omega)

end Verif.Byacc
