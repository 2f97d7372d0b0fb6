import Verif.Proofs.Sound
/-
Counting what the parser does: error reports, shifts, pops and steps.  The tables are arbitrary.
-/
set_option autoImplicit false
namespace Verif.Byacc

variable {V : Type} {P : Driver V}

/-- Between any two reports at least three tokens are shifted. -/
def Spaced (log : List Ev) : Prop :=
  ∀ l1 l2 l3, log = l1 ++ Ev.report :: (l2 ++ Ev.report :: l3) → 3 ≤ nShift l2

/-- Since the last report, `k` or more tokens have been shifted. -/
def Since (k : Nat) (log : List Ev) : Prop := ∀ l2 l3, log = l2 ++ Ev.report :: l3 → k ≤ nShift l2

theorem Since.cons {k : Nat} {log : List Ev} {e : Ev} (h : Since k log) (he : e ≠ .report) : Since k (e :: log) := by
  intro l2 l3 hl
  cases l2 with
  | nil => simp only [List.nil_append, List.cons.injEq] at hl; exact absurd hl.1 he
  | cons a l2 =>
    simp only [List.cons_append, List.cons.injEq] at hl
    have := h l2 l3 hl.2
    unfold nShift at this ⊢
    rw [List.countP_cons]
    omega

theorem Since.shift {k : Nat} {log : List Ev} {x : Int} (h : Since k log) : Since (k+1) (.shift x :: log) := by
  intro l2 l3 hl
  cases l2 with
  | nil => simp at hl
  | cons a l2 =>
    simp only [List.cons_append, List.cons.injEq] at hl
    have := h l2 l3 hl.2
    unfold nShift at this ⊢
    rw [List.countP_cons, ← hl.1]
    simp only [if_true]
    omega

theorem Since.mono {j k : Nat} {log : List Ev} (h : Since k log) (hj : j ≤ k) : Since j log :=
  fun l2 l3 hl => le_trans hj (h l2 l3 hl)

theorem since_zero (log : List Ev) : Since 0 log := fun _ _ _ => Nat.zero_le _

theorem Spaced.cons {log : List Ev} {e : Ev} (h : Spaced log) (he : e ≠ .report ∨ Since 3 log) : Spaced (e :: log) := by
  intro l1 l2 l3 hl
  cases l1 with
  | nil =>
    simp only [List.nil_append, List.cons.injEq] at hl
    rcases he with he | he
    · exact absurd hl.1 he
    · exact he l2 l3 hl.2
  | cons a l1 =>
    simp only [List.cons_append, List.cons.injEq] at hl
    exact h l1 l2 l3 hl.2

/-- the lookahead, if it has been read and is not the end -/
def Cfg.held (c : Cfg V) : Nat := match c.chr with | none => 0 | some x => if x = 0 then 0 else 1

/-- The invariant. -/
structure Count (n0 : Nat) (c : Cfg V) : Prop where
  spaced : Spaced c.log
  since : Since (3 - c.errflag) c.log
  three : c.errflag ≤ 3
  recover : c.recover = true → c.errflag = 3
  consumed : nTok c.log + nDiscard c.log + c.held + c.input.length ≤ n0
  noEnd : Ev.discard 0 ∉ c.log
  errs : nErrShift c.log + (if c.recover then 1 else 0) + (if c.errflag < 3 then 1 else 0) ≤ 1 + nShift c.log
  pops : nPop c.log + c.stack.length ≤ 1 + nShift c.log + nErrShift c.log + nReduce c.log

/-- Each step increases this. -/
def Cfg.work (c : Cfg V) : Nat :=
  nShift c.log + nReduce c.log + 2 * nErrShift c.log + nPop c.log + nDiscard c.log + (if c.recover then 1 else 0)

variable {n0 : Nat}

theorem Count.read {c : Cfg V} (H : Count n0 c) : Count n0 c.read := by
  obtain ⟨f1, f2, f3, f4, f5, f6⟩ := read_fields c
  refine ⟨by rw [f5]; exact H.spaced, by rw [f2, f5]; exact H.since, by rw [f2]; exact H.three,
    by rw [f2, f4]; exact H.recover, ?_, by rw [f5]; exact H.noEnd, by rw [f2, f4, f5]; exact H.errs,
    by rw [f1, f5]; exact H.pops⟩
  rw [f5]
  refine le_trans ?_ H.consumed
  unfold Cfg.read Cfg.held
  cases hc : c.chr with
  | some x => simp [hc]
  | none =>
    cases hi : c.input with
    | nil => simp
    | cons p rest =>
      obtain ⟨x, v⟩ := p
      simp only [List.length_cons]
      split <;> split <;> omega

/-- The result of a push has the fields of the configuration but for the stack and its size. -/
theorem push_count {c : Cfg V} (q : Nat) (v : V)
    (H : ∀ st sz, st.length ≤ c.stack.length + 1 → Count n0 { c with stack := st, size := sz }) :
    Count n0 (P.push c q v).cfg ∧ (P.push c q v).cfg.work = c.work := by
  have H0 : Count n0 c := H c.stack c.size (by omega)
  unfold Driver.push
  split
  · split
    · exact ⟨H0, rfl⟩
    · unfold Cfg.write
      split
      · exact ⟨H _ _ (by simp), rfl⟩
      · exact ⟨H _ _ (by simp), rfl⟩
  · unfold Cfg.write
    split
    · exact ⟨H _ _ (by simp), rfl⟩
    · exact ⟨H0, rfl⟩

theorem finish_count {c : Cfg V} (m : Nat) (yym : Int) (v : V)
    (H : ∀ st sz, st.length ≤ c.stack.length + 1 → Count n0 { c with stack := st, size := sz }) :
    Count n0 (P.finish c m yym v).cfg ∧ (P.finish c m yym v).cfg.work = c.work := by
  have H0 : Count n0 c := H c.stack c.size (by omega)
  unfold Driver.finish
  split
  · exact ⟨H0, rfl⟩
  · rename_i s u below hd
    have hle : ((s, u) :: below).length ≤ c.stack.length := by rw [← hd]; simp
    simp only
    split
    · unfold Cfg.write
      by_cases hw : ((s, u) :: below).length < c.size
      · rw [if_pos hw]
        simp only
        have hr := (H ((P.t.final, v) :: (s, u) :: below) c.size (by simp only [List.length_cons] at hle ⊢; omega)).read
        obtain ⟨-, -, -, f4, f5, -⟩ := read_fields ({ c with stack := (P.t.final, v) :: (s, u) :: below } : Cfg V)
        have hwk : ({ c with stack := (P.t.final, v) :: (s, u) :: below } : Cfg V).read.work = c.work := by
          unfold Cfg.work; rw [f4, f5]
        split
        · exact ⟨hr, hwk⟩
        · exact ⟨hr, hwk⟩
      · rw [if_neg hw]
        simp only [Res.cfg]
        exact ⟨H _ _ (by omega), rfl⟩
    · have := push_count (P := P) (n0 := n0) (c := { c with stack := (s, u) :: below }) (P.t.gotoOf s yym) v (by
        intro st sz hst
        exact H st sz (by simp only at hst; omega))
      exact this

theorem inrecovery_count {c : Cfg V} (H : Count n0 { c with recover := false })
    (hr : c.recover = false) : Count n0 c.inrecovery.cfg ∧ c.work ≤ c.inrecovery.cfg.work ∧
      (∀ c', c.inrecovery = .next c' → c.chr ≠ none ∨ c.errflag < 3 → c.work + 1 ≤ c'.work) := by
  have H : Count n0 c := by
    have : ({ c with recover := false } : Cfg V) = c := by rw [← hr]
    rw [this] at H; exact H
  have h3 := H.three
  have herrs := H.errs
  rw [hr] at herrs
  unfold Cfg.inrecovery
  split
  · rename_i hlt
    rw [if_pos hlt] at herrs
    refine ⟨⟨H.spaced, ?_, le_refl _, fun _ => rfl, H.consumed, H.noEnd, ?_, H.pops⟩, ?_, ?_⟩
    · exact since_zero _
    · simp only [if_true, Res.cfg]; simp at herrs ⊢; omega
    · simp [Cfg.work, hr, Res.cfg]
    · rintro c' e -
      simp only [Res.next.injEq] at e
      subst e
      simp [Cfg.work, hr]
  · rename_i hge
    split
    · rename_i hc
      refine ⟨H, le_refl _, ?_⟩
      rintro c' - (h | h)
      · exact absurd hc h
      · exact absurd h hge
    · rename_i x hx
      split
      · exact ⟨H, le_refl _, by simp⟩
      · rename_i h0
        have hw : Cfg.work ({ c with chr := none, log := .discard x :: c.log } : Cfg V) = c.work + 1 := by
          simp only [Cfg.work, nShift, nReduce, nErrShift, nPop, nDiscard, List.countP_cons]
          simp
          omega
        refine ⟨⟨H.spaced.cons (.inl (by simp)), H.since.cons (by simp), H.three, H.recover, ?_, ?_, ?_, ?_⟩, ?_, ?_⟩
        · have hh : c.held = 1 := by unfold Cfg.held; rw [hx]; simp [h0]
          have := H.consumed
          rw [hh] at this
          simp only [nTok, nDiscard, Res.cfg, List.countP_cons, Cfg.held] at this ⊢
          simp
          omega
        · simp only [Res.cfg, List.mem_cons, Ev.discard.injEq, not_or]
          exact ⟨fun e => h0 e.symm, H.noEnd⟩
        · have := H.errs
          show nErrShift (.discard x :: c.log) + (if c.recover then 1 else 0) + (if c.errflag < 3 then 1 else 0) ≤
            1 + nShift (.discard x :: c.log)
          simp only [nErrShift, nShift, List.countP_cons] at this ⊢
          simpa using this
        · have := H.pops
          simp only [nErrShift, nShift, nPop, nReduce, Res.cfg, List.countP_cons] at this ⊢
          simpa using this
        · simp only [Res.cfg]; omega
        · rintro c' e -
          simp only [Res.next.injEq] at e
          subst e
          omega

theorem reduce_count {c : Cfg V} (H : Count n0 c) (hr : c.recover = false) (r : Nat) :
    Count n0 (P.reduce c r).cfg ∧ c.work + 1 ≤ (P.reduce c r).cfg.work := by
  have Hl : ∀ st sz, st.length ≤ c.stack.length + 1 →
      Count n0 { c with log := .reduce r :: c.log, stack := st, size := sz } := by
    intro st sz hst
    have h1 := H.consumed
    have h2 := H.errs
    have h3 := H.pops
    refine ⟨H.spaced.cons (.inl (by simp)), H.since.cons (by simp), H.three, H.recover, ?_, ?_, ?_, ?_⟩
    · simp only [nTok, nDiscard, List.countP_cons] at h1 ⊢
      simpa [Cfg.held] using h1
    · simpa using H.noEnd
    · simp only [nErrShift, nShift, List.countP_cons] at h2 ⊢
      simpa using h2
    · simp only [nErrShift, nShift, nPop, nReduce, List.countP_cons] at h3 ⊢
      simp
      omega
  have hw : Cfg.work { c with log := .reduce r :: c.log } = c.work + 1 := by
    simp only [Cfg.work, nShift, nReduce, nErrShift, nPop, nDiscard, List.countP_cons]
    simp
    omega
  have H0 : Count n0 { c with log := .reduce r :: c.log } := Hl c.stack c.size (by omega)
  unfold Driver.reduce
  simp only
  split
  · exact ⟨H0, by simp only [Res.cfg]; omega⟩
  · split
    · have := finish_count (P := P) (n0 := n0) (c := { c with log := .reduce r :: c.log }) (P.t.len.getD r 0).toNat
        (P.t.lhs.getD r 0) ‹V› Hl
      exact ⟨this.1, by rw [this.2]; omega⟩
    · have hw' : Cfg.work { c with log := .raised :: .reduce r :: c.log } = c.work + 1 := by
        rw [← hw]
        simp only [Cfg.work, nShift, nReduce, nErrShift, nPop, nDiscard, List.countP_cons]
        simp
      have := inrecovery_count (n0 := n0) (c := { c with log := .raised :: .reduce r :: c.log }) (by
        have h1 := H0.consumed
        have h2 := H0.errs
        have h3 := H0.pops
        refine ⟨H0.spaced.cons (.inl (by simp)), H0.since.cons (by simp), H0.three, by simp, ?_, ?_, ?_, ?_⟩
        · simp only [nTok, nDiscard, List.countP_cons] at h1 ⊢
          simpa [Cfg.held] using h1
        · have := H0.noEnd; simpa using this
        · simp only [nErrShift, nShift, List.countP_cons, hr] at h2 ⊢
          simpa using h2
        · simp only [nErrShift, nShift, nPop, nReduce, List.countP_cons] at h3 ⊢
          simpa using h3) hr
      exact ⟨this.1, by have := this.2.1; omega⟩
    · exact ⟨H0, by simp only [Res.cfg]; omega⟩
    · exact ⟨H0, by simp only [Res.cfg]; omega⟩

/-- every step keeps the counts, and does some work -/
theorem step_count {c : Cfg V} (H : Count n0 c) :
    Count n0 (P.step c).cfg ∧ (∀ c', P.step c = .next c' → c.work + 1 ≤ c'.work) := by
  unfold Driver.step
  split
  · exact ⟨H, by simp⟩
  · rename_i s u below hst
    by_cases hrec : c.recover = true
    · rw [if_pos hrec]
      have h1 := H.consumed
      have h2 := H.errs
      have h3 := H.pops
      have he := H.recover hrec
      rw [hrec, he] at h2
      split
      · rename_i q _
        have hh := push_count (P := P) (n0 := n0) (c := { c with recover := false, log := .errShift :: c.log }) q c.lval (by
          intro st sz hl
          refine ⟨H.spaced.cons (.inl (by simp)), H.since.cons (by simp), H.three, by simp, ?_, ?_, ?_, ?_⟩
          · simp only [nTok, nDiscard, List.countP_cons] at h1 ⊢
            simpa [Cfg.held] using h1
          · simpa using H.noEnd
          · simp only [nErrShift, nShift, List.countP_cons, he] at h2 ⊢
            simp at h2 ⊢
            omega
          · simp only [nErrShift, nShift, nPop, nReduce, List.countP_cons] at h3 hl ⊢
            simp
            omega)
        refine ⟨hh.1, ?_⟩
        intro c' e
        have hc := hh.2
        rw [e] at hc
        simp only [Res.cfg] at hc
        rw [hc]
        simp only [Cfg.work, nShift, nReduce, nErrShift, nPop, nDiscard, List.countP_cons, hrec]
        simp
        omega
      · split
        · exact ⟨H, by simp⟩
        · refine ⟨⟨H.spaced.cons (.inl (by simp)), H.since.cons (by simp), H.three, H.recover, ?_, ?_, ?_, ?_⟩, ?_⟩
          · simp only [nTok, nDiscard, List.countP_cons, Res.cfg] at h1 ⊢
            simpa [Cfg.held] using h1
          · simpa [Res.cfg] using H.noEnd
          · simp only [nErrShift, nShift, List.countP_cons, he, hrec, Res.cfg] at h2 ⊢
            simpa using h2
          · rw [hst] at h3
            simp only [nErrShift, nShift, nPop, nReduce, List.countP_cons, Res.cfg, List.length_cons] at h3 ⊢
            simp
            omega
          · intro c' e
            simp only [Res.next.injEq] at e
            subst e
            simp only [Cfg.work, nShift, nReduce, nErrShift, nPop, nDiscard, List.countP_cons]
            simp
            omega
    · rw [if_neg hrec]
      have hrec : c.recover = false := by simpa using hrec
      split
      · have hh := reduce_count (P := P) H hrec (P.t.defred.getD s 0)
        refine ⟨hh.1, fun c' e => ?_⟩
        rw [e] at hh; exact hh.2
      · have Hr := H.read
        obtain ⟨f1, f2, f3, f4, f5, x, f6, -⟩ := read_fields c
        have hwr : c.read.work = c.work := by unfold Cfg.work; rw [f4, f5]
        rw [← f4] at hrec
        simp only
        rw [← hwr]
        generalize c.read = c at *
        clear f1 f2 f3 f4 f5 hwr
        have hx : c.chr.getD 0 = x := by rw [f6]; rfl
        rw [hx]
        split
        · rename_i q _
          have h1 := Hr.consumed
          have h2 := Hr.errs
          have h3 := Hr.pops
          have he := Hr.three
          have hh := push_count (P := P) (n0 := n0)
            (c := { c with chr := none, errflag := c.errflag - 1, log := .shift x :: c.log }) q c.lval (by
            intro st sz hl
            refine ⟨Hr.spaced.cons (.inl (by simp)), Hr.since.shift.mono (by simp only; omega), by simp only; omega,
              by simp [hrec], ?_, ?_, ?_, ?_⟩
            · simp only [nTok, nDiscard, List.countP_cons, Cfg.held, f6] at h1 ⊢
              by_cases h0 : x = 0
              · simp [h0] at h1 ⊢
                omega
              · simp [h0] at h1 ⊢
                omega
            · simpa using Hr.noEnd
            · simp only [nErrShift, nShift, List.countP_cons, hrec] at h2 ⊢
              simp at h2 ⊢
              split at h2 <;> split <;> omega
            · simp only [nErrShift, nShift, nPop, nReduce, List.countP_cons] at h3 hl ⊢
              simp
              omega)
          refine ⟨hh.1, ?_⟩
          intro c' e
          have hc := hh.2
          rw [e] at hc
          simp only [Res.cfg] at hc
          rw [hc]
          simp only [Cfg.work, nShift, nReduce, nErrShift, nPop, nDiscard, List.countP_cons]
          simp
          omega
        · split
          · rename_i r _
            have hh := reduce_count (P := P) Hr hrec r
            refine ⟨hh.1, fun c' e => ?_⟩
            rw [e] at hh; exact hh.2
          · split
            · rename_i h0
              have h1 := Hr.consumed
              have h2 := Hr.errs
              have h3 := Hr.pops
              have hs := Hr.since
              rw [h0] at hs
              have hwk : Cfg.work { c with log := .report :: c.log } = c.work := by
                simp only [Cfg.work, nShift, nReduce, nErrShift, nPop, nDiscard, List.countP_cons]
                simp
              -- the report is counted together with the setting of the flag
              have hq : ({ c with log := .report :: c.log } : Cfg V).inrecovery =
                  .next { c with log := .report :: c.log, errflag := 3, recover := true } := by
                unfold Cfg.inrecovery
                rw [if_pos (by simp only; omega)]
              rw [hq]
              refine ⟨⟨Hr.spaced.cons (.inr hs), since_zero _, le_refl _, fun _ => rfl, ?_, ?_, ?_, ?_⟩, ?_⟩
              · simp only [nTok, nDiscard, List.countP_cons, Res.cfg] at h1 ⊢
                simpa [Cfg.held] using h1
              · simpa [Res.cfg] using Hr.noEnd
              · simp only [nErrShift, nShift, List.countP_cons, hrec, h0, Res.cfg] at h2 ⊢
                simp at h2 ⊢
                omega
              · simp only [nErrShift, nShift, nPop, nReduce, List.countP_cons, Res.cfg] at h3 ⊢
                simpa using h3
              · intro c' e
                simp only [Res.next.injEq] at e
                subst e
                simp only [Cfg.work, nShift, nReduce, nErrShift, nPop, nDiscard, List.countP_cons, hrec]
                simp
            · have hh := inrecovery_count (n0 := n0) (c := c) (by
                have : ({ c with recover := false } : Cfg V) = c := by rw [← hrec]
                rw [this]; exact Hr) hrec
              exact ⟨hh.1, fun c' e => hh.2.2 c' e (.inl (by rw [f6]; simp))⟩

theorem start_count (P : Driver V) (size : Nat) (u : V) (input : List (Int × V)) :
    Count input.length (P.start size u input) := by
  refine ⟨?_, ?_, by simp [Driver.start], by simp [Driver.start], by simp [Driver.start, nTok, nDiscard, Cfg.held],
    by simp [Driver.start], by simp [Driver.start, nErrShift, nShift], by simp [Driver.start, nPop, nErrShift, nReduce, nShift]⟩
  · intro l1 l2 l3 h; simp [Driver.start] at h
  · intro l2 l3 h; simp [Driver.start] at h

/-- the counts at the end of any number of steps -/
theorem run_count (n : Nat) : ∀ c : Cfg V, Count n0 c → Count n0 (P.run n c).cfg ∧
    ∀ c', P.run n c = .next c' → c.work + n ≤ c'.work := by
  induction n with
  | zero =>
    intro c H
    refine ⟨H, ?_⟩
    intro c' e
    simp only [Driver.run, Res.next.injEq] at e
    subst e; simp
  | succ n ih =>
    intro c H
    obtain ⟨h1, h2⟩ := step_count (P := P) H
    unfold Driver.run
    cases hs : P.step c with
    | done h c1 => rw [hs] at h1; exact ⟨h1, by simp⟩
    | next c1 =>
      rw [hs] at h1
      obtain ⟨h3, h4⟩ := ih c1 h1
      refine ⟨h3, ?_⟩
      intro c' e
      have := h4 c' e
      have := h2 c1 hs
      omega

/-! ### shifts of the end of the input -/

theorem nTok_eq {log : List Ev} (h : Ev.shift 0 ∉ log) : nTok log = nShift log := by
  unfold nTok nShift
  apply List.countP_congr
  intro e he
  cases e with
  | shift x =>
    by_cases h0 : x = 0
    · subst h0; exact absurd he h
    · simp [h0]
  | _ => simp

theorem inrecovery_shift {c : Cfg V} {x : Int} (h : Ev.shift x ∈ c.inrecovery.cfg.log) : Ev.shift x ∈ c.log := by
  unfold Cfg.inrecovery at h
  split at h
  · exact h
  · split at h
    · exact h
    · split at h
      · exact h
      · simpa [Res.cfg] using h

theorem reduce_shift {c : Cfg V} {r : Nat} {x : Int} (h : Ev.shift x ∈ (P.reduce c r).cfg.log) : Ev.shift x ∈ c.log := by
  unfold Driver.reduce at h
  simp only at h
  split at h
  · simpa [Res.cfg] using h
  · split at h
    · rw [finish_log] at h; simpa using h
    · have := inrecovery_shift h; simpa using this
    · simpa [Res.cfg] using h
    · simpa [Res.cfg] using h

/-- only the shift logs a shift -/
theorem shift_mem_step {c : Cfg V} {x : Int} (h : Ev.shift x ∈ (P.step c).cfg.log) :
    Ev.shift x ∈ c.log ∨ ∃ s v below q, c.stack = (s, v) :: below ∧ P.t.shiftOn s x = some q := by
  unfold Driver.step at h
  split at h
  · exact .inl h
  · rename_i s v below hst
    split at h
    · split at h
      · rw [push_log] at h; left; simpa using h
      · split at h
        · exact .inl h
        · left; simpa [Res.cfg] using h
    · split at h
      · exact .inl (reduce_shift h)
      · simp only at h
        split at h
        · rename_i q hq
          rw [push_log] at h
          simp only [List.mem_cons, Ev.shift.injEq, read_log] at h
          rcases h with h | h
          · exact .inr ⟨s, v, below, q, hst, h ▸ hq⟩
          · exact .inl h
        · split at h
          · have := reduce_shift h
            rw [read_log] at this
            exact .inl this
          · split at h
            · have := inrecovery_shift h
              simp only [List.mem_cons, reduceCtorEq, false_or, read_log] at this
              exact .inl this
            · have := inrecovery_shift h
              rw [read_log] at this
              exact .inl this

end Verif.Byacc
