import Verif.Props.C20
/-
C58 — how a parse ends (byacc/yaccpar.skel, btyaccpar.skel).  Arbitrary tables and actions.
-/
set_option autoImplicit false
namespace Verif.Byacc
open Spec

variable {V : Type}

/-- The action of rule `r` in configuration `c`. -/
def ActsIn (P : Driver V) (c : Cfg V) (r : Nat) (a : Act V) : Prop :=
  (P.t.len.getD r 0).toNat < c.stack.length ∧
  P.act r (if P.t.len.getD r 0 ≤ 0 then P.zero else (c.stack.map Prod.snd).getD ((P.t.len.getD r 0).toNat - 1) P.zero)
    (c.stack.map Prod.snd) = a

/-- C58: if a reduction is due and its action executes `YYACCEPT`, the parse succeeds; if it executes
`YYABORT`, it fails.  Nothing else is done. -/
theorem C58_macros (P : Driver V) (c : Cfg V) (s : Nat) (v : V) (below : List (Nat × V)) (r : Nat)
    (hst : c.stack = (s, v) :: below) (hrec : c.recover = false) (hr : r ≠ 0)
    (hd : P.t.defred.getD s 0 = r ∨
      (P.t.defred.getD s 0 = 0 ∧ ∃ x, c.chr = some x ∧ P.t.shiftOn s x = none ∧ P.t.reduceOn s x = some r)) :
    (ActsIn P c r .yyaccept → P.step c = .done .accept { c with log := .reduce r :: c.log }) ∧
    (ActsIn P c r .yyabort → P.step c = .done .abort { c with log := .reduce r :: c.log }) := by
  have hstep : P.step c = P.reduce c r := by
    unfold Driver.step
    rw [hst]
    simp only [hrec, Bool.false_eq_true, if_false]
    rcases hd with hd | ⟨hd, x, hx, h1, h2⟩
    · rw [hd, if_pos hr]
    · have hread : c.read = c := by unfold Cfg.read; rw [hx]
      rw [if_neg (by simpa using hd), hread]
      simp only [hx, Option.getD_some, h1, h2]
  rw [hstep]
  have hz : ((P.t.len.getD r 0).toNat = 0) = (P.t.len.getD r 0 ≤ 0) := by rw [Int.toNat_eq_zero]
  unfold Driver.reduce ActsIn
  simp only
  refine ⟨?_, ?_⟩
  · rintro ⟨h1, h2⟩
    rw [if_neg (by omega)]
    simp only [hz, h2]
  · rintro ⟨h1, h2⟩
    rw [if_neg (by omega)]
    simp only [hz, h2]

/-- C58: a parse succeeds only at a reduction, by `YYACCEPT` or because the rule leaves the goal
symbol alone on the stack at the end of the input. -/
theorem C58_success (P : Driver V) (c c' : Cfg V) (h : P.step c = .done .accept c') :
    ∃ r, c'.log = .reduce r :: c.log ∧
      (ActsIn P c.read r .yyaccept ∨
       ∃ v u below, ActsIn P c.read r (.val v) ∧ P.t.lhs.getD r 0 = 0 ∧ c.stack.drop (P.t.len.getD r 0).toNat = (0, u) :: below ∧
         c'.stack = (P.t.final, v) :: (0, u) :: below ∧ c'.chr = some 0) := by
  -- a reduction from `d`, which is `c` with or without lookahead
  have hred : ∀ (d : Cfg V) (r : Nat), d.stack = c.stack → d.log = c.log → P.reduce d r = .done .accept c' →
      ∃ r, c'.log = .reduce r :: c.log ∧
      (ActsIn P c.read r .yyaccept ∨
       ∃ v u below, ActsIn P c.read r (.val v) ∧ P.t.lhs.getD r 0 = 0 ∧ c.stack.drop (P.t.len.getD r 0).toNat = (0, u) :: below ∧
         c'.stack = (P.t.final, v) :: (0, u) :: below ∧ c'.chr = some 0) := by
    intro d r hs hl hd
    refine ⟨r, ?_⟩
    have hz : ((P.t.len.getD r 0).toNat = 0) = (P.t.len.getD r 0 ≤ 0) := by rw [Int.toNat_eq_zero]
    have hA : ∀ a, ActsIn P c.read r a = ActsIn P d r a := by
      intro a; unfold ActsIn; rw [(read_fields c).1, hs]
    simp only [hA]
    unfold Driver.reduce at hd
    simp only at hd
    split at hd
    · cases hd
    · rename_i hlen
      split at hd
      · rename_i v hv
        simp only [hz] at hv
        have hlog := finish_log (P := P) ({ d with log := .reduce r :: d.log } : Cfg V) (P.t.len.getD r 0).toNat (P.t.lhs.getD r 0) v
        rw [hd] at hlog
        simp only [Res.cfg] at hlog
        refine ⟨by rw [hlog, hl], .inr ?_⟩
        have hact : ActsIn P d r (.val v) := ⟨by omega, hv⟩
        unfold Driver.finish at hd
        split at hd
        · cases hd
        · rename_i s u below hdrop
          simp only at hd hdrop
          split at hd
          · rename_i hcond
            obtain ⟨rfl, hy⟩ := hcond
            unfold Cfg.write at hd
            simp only at hd
            by_cases hw : ((0, u) :: below).length < d.size
            · rw [if_pos hw] at hd
              simp only at hd
              split at hd
              · rename_i hc
                simp only [Res.done.injEq, true_and] at hd
                refine ⟨v, u, below, hact, hy, by rw [← hs]; exact hdrop, ?_, ?_⟩
                · rw [← hd, (read_fields _).1]
                · rw [← hd]; exact hc
              · cases hd
            · rw [if_neg hw] at hd; cases hd
          · -- a push never accepts
            exfalso
            unfold Driver.push at hd
            split at hd
            · split at hd
              · cases hd
              · unfold Cfg.write at hd; split at hd <;> cases hd
            · unfold Cfg.write at hd; split at hd <;> cases hd
      · unfold Cfg.inrecovery at hd
        split at hd
        · cases hd
        · split at hd
          · cases hd
          · split at hd <;> cases hd
      · rename_i ha
        simp only [hz] at ha
        simp only [Res.done.injEq, true_and] at hd
        subst hd
        exact ⟨by rw [← hl], .inl ⟨by omega, ha⟩⟩
      · cases hd
  have hpush : ∀ (d : Cfg V) (q : Nat) (v : V), P.push d q v ≠ .done .accept c' := by
    intro d q v hd
    unfold Driver.push at hd
    split at hd
    · split at hd
      · cases hd
      · unfold Cfg.write at hd; split at hd <;> cases hd
    · unfold Cfg.write at hd; split at hd <;> cases hd
  have hinr : ∀ d : Cfg V, d.inrecovery ≠ .done .accept c' := by
    intro d hd
    unfold Cfg.inrecovery at hd
    split at hd
    · cases hd
    · split at hd
      · cases hd
      · split at hd <;> cases hd
  obtain ⟨f1, f2, f3, f4, f5, f6⟩ := read_fields c
  unfold Driver.step at h
  split at h
  · cases h
  · split at h
    · split at h
      · exact absurd h (hpush _ _ _)
      · split at h <;> cases h
    · split at h
      · exact hred c _ rfl rfl h
      · simp only at h
        split at h
        · exact absurd h (hpush _ _ _)
        · split at h
          · exact hred c.read _ f1 f5 h
          · split at h
            · exact absurd h (hinr _)
            · exact absurd h (hinr _)

/-- C58: a parse fails only by `YYABORT`, when recovery has emptied the stack, or when an error
during recovery meets the end of the input. -/
theorem C58_failure (P : Driver V) (c c' : Cfg V) (h : P.step c = .done .abort c') :
    (∃ r, c'.log = .reduce r :: c.log ∧ ActsIn P c.read r .yyabort) ∨
    (c.recover = true ∧ c' = c ∧ ∃ s v, c.stack = [(s, v)] ∧ P.t.shiftOn s P.t.errcode = none) ∨
    (c.recover = false ∧ 3 ≤ c.errflag ∧ c'.chr = some 0 ∧ c'.stack = c.stack) := by
  have hinr : ∀ d : Cfg V, d.stack = c.stack → d.errflag = c.errflag → d.inrecovery = .done .abort c' →
      3 ≤ c.errflag ∧ c'.chr = some 0 ∧ c'.stack = c.stack := by
    intro d hs he hd
    unfold Cfg.inrecovery at hd
    split at hd
    · cases hd
    · rename_i h3
      split at hd
      · cases hd
      · rename_i x hx
        split at hd
        · rename_i h0
          simp only [Res.done.injEq, true_and] at hd
          subst hd
          exact ⟨by omega, by rw [hx, h0], hs⟩
        · cases hd
  have hpush : ∀ (d : Cfg V) (q : Nat) (v : V), P.push d q v ≠ .done .abort c' := by
    intro d q v hd
    unfold Driver.push at hd
    split at hd
    · split at hd
      · cases hd
      · unfold Cfg.write at hd; split at hd <;> cases hd
    · unfold Cfg.write at hd; split at hd <;> cases hd
  have hred : ∀ (d : Cfg V) (r : Nat), d.stack = c.stack → d.log = c.log → d.errflag = c.errflag → P.reduce d r = .done .abort c' →
      (∃ r, c'.log = .reduce r :: c.log ∧ ActsIn P c.read r .yyabort) ∨ (3 ≤ c.errflag ∧ c'.chr = some 0 ∧ c'.stack = c.stack) := by
    intro d r hs hl he hd
    have hz : ((P.t.len.getD r 0).toNat = 0) = (P.t.len.getD r 0 ≤ 0) := by rw [Int.toNat_eq_zero]
    have hA : ∀ a, ActsIn P c.read r a = ActsIn P d r a := by
      intro a; unfold ActsIn; rw [(read_fields c).1, hs]
    unfold Driver.reduce at hd
    simp only at hd
    split at hd
    · cases hd
    · rename_i hlen
      split at hd
      · exfalso
        unfold Driver.finish at hd
        split at hd
        · cases hd
        · simp only at hd
          split at hd
          · unfold Cfg.write at hd
            simp only at hd
            split at hd
            · rename_i heq
              split at heq
              · cases heq
              · simp only [Res.done.injEq] at heq hd
                rw [← heq.1] at hd
                cases hd.1
            · split at hd <;> cases hd
          · exact hpush _ _ _ hd
      · exact .inr (hinr ({ d with log := .raised :: .reduce r :: d.log } : Cfg V) hs he hd)
      · cases hd
      · rename_i ha
        simp only [hz] at ha
        simp only [Res.done.injEq, true_and] at hd
        subst hd
        exact .inl ⟨r, by rw [← hl], by rw [hA]; exact ⟨by omega, ha⟩⟩
  obtain ⟨f1, f2, f3, f4, f5, f6⟩ := read_fields c
  unfold Driver.step at h
  split at h
  · cases h
  · rename_i s v below hst
    by_cases hrec : c.recover = true
    · rw [if_pos hrec] at h
      split at h
      · exact absurd h (hpush _ _ _)
      · rename_i hq
        split at h
        · rename_i hb
          simp only [Res.done.injEq, true_and] at h
          subst h
          have : below = [] := List.isEmpty_iff.1 hb
          subst this
          exact .inr (.inl ⟨hrec, rfl, s, v, hst, hq⟩)
        · cases h
    · rw [if_neg hrec] at h
      have hrec' : c.recover = false := by simpa using hrec
      have lift : ((∃ r, c'.log = .reduce r :: c.log ∧ ActsIn P c.read r .yyabort) ∨
          (3 ≤ c.errflag ∧ c'.chr = some 0 ∧ c'.stack = c.stack)) →
          ((∃ r, c'.log = .reduce r :: c.log ∧ ActsIn P c.read r .yyabort) ∨
           (c.recover = true ∧ c' = c ∧ ∃ s v, c.stack = [(s, v)] ∧ P.t.shiftOn s P.t.errcode = none) ∨
           (c.recover = false ∧ 3 ≤ c.errflag ∧ c'.chr = some 0 ∧ c'.stack = c.stack)) :=
        fun h => h.imp id (fun h => Or.inr ⟨hrec', h⟩)
      split at h
      · exact lift (hred c _ rfl rfl rfl h)
      · simp only at h
        split at h
        · exact absurd h (hpush _ _ _)
        · split at h
          · exact lift (hred c.read _ f1 f5 f2 h)
          · split at h
            · exact lift (.inr (hinr ({ c.read with log := .report :: c.read.log } : Cfg V) f1 f2 h))
            · exact lift (.inr (hinr _ f1 f2 h))

/-- Example: the rule `e: NUM` (rule 4) executing `YYACCEPT` or `YYABORT` in the grammar of C20. -/
example : (c20T.map fun t => [Act.yyaccept, Act.yyabort].map fun a =>
      (outcome { calcP t with act := fun r d _ => if r = 4 then a else .val d } 60 0 [(257, 1), (59, 0)])) =
    some [some (.accept, [1, 0, 0], [.reduce 4, .shift 257, .reduce 1]),
      some (.abort, [1, 0, 0], [.reduce 4, .shift 257, .reduce 1])] := by decide +kernel

end Verif.Byacc
