import Verif.Proofs.Recovery
import Verif.Props.C17
/-
C20 — error recovery of the generated parser (byacc/yaccpar.skel, btyaccpar.skel).
Unless said otherwise the tables and the actions are arbitrary.
-/
set_option autoImplicit false
namespace Verif.Byacc
open Spec

variable {V : Type}

/-- C20: between any two error reports at least three tokens have been shifted. -/
theorem C20_three_tokens (P : Driver V) (size : Nat) (u : V) (input : List (Int × V)) (n : Nat) (l1 l2 l3 : List Ev)
    (h : (P.run n (P.start size u input)).cfg.log = l1 ++ Ev.report :: (l2 ++ Ev.report :: l3)) : 3 ≤ nShift l2 :=
  (run_count n _ (start_count P size u input)).1.spaced l1 l2 l3 h

/-- C20: what happens when there is no action for the lookahead `x`.  Fewer than three tokens since
the last error: `x` is discarded, or, at the end of the input, the parse fails.  Otherwise the
recovery starts, with a report if it is not resumed. -/
theorem C20_no_action (P : Driver V) (c : Cfg V) (s : Nat) (v : V) (below : List (Nat × V)) (x : Int)
    (hst : c.stack = (s, v) :: below) (hrec : c.recover = false) (hd : P.t.defred.getD s 0 = 0) (hx : c.chr = some x)
    (hs : P.t.shiftOn s x = none) (hr : P.t.reduceOn s x = none) (h3 : c.errflag ≤ 3) :
    P.step c =
      if c.errflag = 3 then
        if x = 0 then .done .abort c else .next { c with chr := none, log := .discard x :: c.log }
      else .next { c with errflag := 3, recover := true, log := if c.errflag = 0 then .report :: c.log else c.log } := by
  have hread : c.read = c := by unfold Cfg.read; rw [hx]
  obtain ⟨stack, chr, lval, input, errflag, size, recover, log⟩ := c
  simp only at hst hrec hx h3
  subst hst hrec hx
  unfold Driver.step
  simp only [Bool.false_eq_true, if_false, hd, ne_eq, not_true_eq_false, hread, Option.getD_some, hs, hr]
  unfold Cfg.inrecovery
  by_cases h0 : errflag = 0
  · simp [h0]
  · by_cases he : errflag = 3
    · simp [he]
    · rw [if_neg h0, if_neg he, if_pos (by simp only; omega), if_neg h0]

/-- C20: while the recovery looks for a state that shifts the error token it pops the states above
it one by one and shifts; if no state on the stack does, the parse fails.  This takes at most as
many steps as the stack has states. -/
theorem C20_recovery_ends (P : Driver V) (c : Cfg V) (hrec : c.recover = true) (hne : c.stack ≠ [])
    (h1 : c.stack.length ≤ c.size) (h2 : 2 ≤ c.size) :
    ∃ k, k ≤ c.stack.length ∧
      ((∃ popped s v kept q c', c.stack = popped ++ (s, v) :: kept ∧
          (∀ p ∈ popped, P.t.shiftOn p.1 P.t.errcode = none) ∧ P.t.shiftOn s P.t.errcode = some q ∧
          ((P.run k c = .next c' ∧ c'.recover = false ∧ c'.stack = (q, c.lval) :: (s, v) :: kept) ∨
           (P.run k c = .done .overflow c' ∧ c'.stack.length = c'.size ∧ P.max ≤ c'.size)) ∧
          c'.log = .errShift :: (List.replicate popped.length .pop ++ c.log) ∧ c'.chr = c.chr ∧ c'.lval = c.lval ∧
          c'.input = c.input ∧ c'.errflag = c.errflag) ∨
       (∃ c', (∀ p ∈ c.stack, P.t.shiftOn p.1 P.t.errcode = none) ∧ P.run k c = .done .abort c')) := by
  obtain ⟨stack, chr, lval, input, errflag, size, recover, log⟩ := c
  simp only at hrec hne h1 h2 ⊢
  subst hrec
  induction stack generalizing log with
  | nil => exact absurd rfl hne
  | cons p below ih =>
    obtain ⟨s, v⟩ := p
    cases hq : P.t.shiftOn s P.t.errcode with
    | some q =>
      refine ⟨1, by simp, .inl ?_⟩
      rcases push_cases (P := P) (⟨(s, v) :: below, chr, lval, input, errflag, size, false, .errShift :: log⟩ : Cfg V) q lval h1 h2 with ⟨m, e, -⟩ | ⟨e, e1, e2⟩
      · refine ⟨[], s, v, below, q, ⟨(q, lval) :: (s, v) :: below, chr, lval, input, errflag, m, false, .errShift :: log⟩,
          rfl, by simp, hq, .inl ⟨?_, rfl, rfl⟩, rfl, rfl, rfl, rfl, rfl⟩
        simp only [Driver.run, Driver.step, hq, if_true]
        rw [e]
      · refine ⟨[], s, v, below, q, ⟨(s, v) :: below, chr, lval, input, errflag, size, false, .errShift :: log⟩,
          rfl, by simp, hq, .inr ⟨?_, e1, e2⟩, rfl, rfl, rfl, rfl, rfl⟩
        simp only [Driver.run, Driver.step, hq, if_true]
        rw [e]
    | none =>
      cases below with
      | nil =>
        refine ⟨1, by simp, .inr ⟨⟨[(s, v)], chr, lval, input, errflag, size, true, log⟩, ?_, ?_⟩⟩
        · simp [hq]
        · simp [Driver.run, Driver.step, hq]
      | cons p' below =>
        obtain ⟨k, hk, hres⟩ := ih (.pop :: log) (by simp) (by simp only [List.length_cons] at h1 ⊢; omega)
        have hstep : P.run (k+1) (⟨(s, v) :: p' :: below, chr, lval, input, errflag, size, true, log⟩ : Cfg V) =
            P.run k ⟨p' :: below, chr, lval, input, errflag, size, true, .pop :: log⟩ := by
          simp [Driver.run, Driver.step, hq]
        refine ⟨k+1, by simp only [List.length_cons] at hk ⊢; omega, ?_⟩
        rw [hstep]
        rcases hres with ⟨popped, s', v', kept, q, c', e1, e2, e3, e4, e5, e6⟩ | ⟨c', e1, e2⟩
        · refine .inl ⟨(s, v) :: popped, s', v', kept, q, c', by rw [e1]; rfl, ?_, e3, e4, ?_, e6⟩
          · intro p hp
            rcases List.mem_cons.1 hp with rfl | hp
            · exact hq
            · exact e2 p hp
          · rw [e5, List.length_cons, List.replicate_succ']
            simp
        · refine .inr ⟨c', ?_, e2⟩
          intro p hp
          rcases List.mem_cons.1 hp with rfl | hp
          · exact hq
          · exact e1 p hp

/-- C20: the end of the input is never discarded, and no token is shifted or discarded twice. -/
theorem C20_input_consumed_once (P : Driver V) (size : Nat) (u : V) (input : List (Int × V)) (n : Nat) :
    let log := (P.run n (P.start size u input)).cfg.log
    Ev.discard 0 ∉ log ∧ nTok log + nDiscard log ≤ input.length := by
  have H := (run_count (P := P) n _ (start_count P size u input)).1
  exact ⟨H.noEnd, by have := H.consumed; omega⟩

/-- C20: in a generated parser, whatever the actions do, a parse that has not ended after `n` steps
on `m` tokens has made at least `(n - 5 * m - 3) / 2` reductions: recovery alone cannot go on
forever. -/
theorem C20_recovery_is_bounded (lp : Bool) (ntokens nsyms : Nat) (rs : List SrcRule)
    (h : UserRules ntokens nsyms (rs.map SrcRule.rule)) (h2 : 2 ≤ ntokens) (g : Gram)
    (hg : g = packGrammar lp ntokens nsyms (rs.map SrcRule.p) (encPitem rs))
    (sp : SymPrec) (lemon : Bool) (srExpect rrExpect : Int) (sv : List Int) (hsv : SymVals ntokens nsyms sv)
    (per : Nat) (hper : per = 2 ∨ per = 3) :
    ∃ o, generate g sp lemon srExpect rrExpect = some o ∧ ∀ t, outputTables per g sv o = .ok t →
      ∀ (V : Type) (P : Driver V), P.t = t → 2 ≤ P.init →
      ∀ (size : Nat) (u : V) (input : List (Int × V)) (n : Nat) (c : Cfg V), (size = 0 ∨ 2 ≤ size) →
        P.run n (P.start size u input) = .next c →
        n ≤ 2 * nReduce c.log + 5 * input.length + 3 := by
  obtain ⟨o, ho, K⟩ := generate_ok lp ntokens nsyms rs h g hg sp lemon srExpect rrExpect
  have hnt : g.ntokens = ntokens := K.ctx.packs.ntok
  have hns : g.nsyms = nsyms := by rw [hg]; rfl
  refine ⟨o, ho, ?_⟩
  intro t ht V P hPt hinit size u input n c hsz hc
  have hsv' : SymVals g.ntokens g.nsyms sv := by rw [hnt, hns]; exact hsv
  have T := tabSound K hsv' (by omega) (outputTables_ok K (by omega) hsv' ht)
  rw [← hPt] at T
  have hs2 : 2 ≤ (P.start size u input).size := by
    simp only [Driver.start]; split <;> omega
  have hR := run_inv (P := P) (fun c => Base (ShiftsTo o.aut) (max (P.start size u input).size P.max) c ∧ Ev.shift 0 ∉ c.log)
    (fun c c' B hs => by
      refine ⟨?_, ?_⟩
      · have := T.step_base B.1 (Nat.le_max_right _ _)
        rw [hs] at this
        exact this
      · intro hm
        have hm' : Ev.shift 0 ∈ (P.step c).cfg.log := by rw [hs]; exact hm
        rcases shift_mem_step hm' with hm | ⟨s, v, below, q, e1, e2⟩
        · exact B.2 hm
        · obtain ⟨X, hX, hX0, e3, -⟩ := T.shift s (B.1.top T.A e1) 0 q (le_refl _) e2
          exact hX0 (T.inj X 0 hX T.wf.ntok (by rw [T.code0]; exact e3.symm))) n (P.start size u input)
    ⟨start_base P size u input _ hs2 (Nat.le_max_left _ _), by simp [Driver.start]⟩
  obtain ⟨B, h0⟩ := hR.1 c hc
  obtain ⟨H, hw⟩ := run_count (P := P) n _ (start_count P size u input)
  have hw := hw c hc
  rw [hc] at H
  replace H : Count input.length c := H
  have hlen : 1 ≤ c.stack.length := by
    obtain ⟨γ, hγ⟩ := B.spell
    have hl := hγ.length
    rw [List.length_map] at hl
    omega
  have hS := nTok_eq h0
  have e1 := H.consumed
  have e2 := H.errs
  have e3 := H.pops
  have e4 : (P.start size u input).work = 0 := by
    simp [Driver.start, Cfg.work, nShift, nReduce, nErrShift, nPop, nDiscard]
  rw [e4] at hw
  unfold Cfg.work at hw
  generalize (if c.recover = true then 1 else 0 : Nat) = a at *
  generalize (if c.errflag < 3 then 1 else 0 : Nat) = b at *
  omega

/-- Example: `l: | l e ';' | l error ';'`, `e: N | e '+' e`; the input `N N N ; N ;` gives one report, the
next two tokens are discarded. -/
def c20B (i : Nat) : Bucket := ⟨i, decide (i < 5), if i = 4 then 1 else 0, if i = 4 then .LEFT else .TOKEN⟩
def c20Rules : List SrcRule := [⟨c20B 6, [], UNDEFINED, .TOKEN⟩, ⟨c20B 6, [c20B 6, c20B 7, c20B 3], UNDEFINED, .TOKEN⟩,
  ⟨c20B 6, [c20B 6, c20B 1, c20B 3], UNDEFINED, .TOKEN⟩, ⟨c20B 7, [c20B 2], UNDEFINED, .TOKEN⟩,
  ⟨c20B 7, [c20B 7, c20B 4, c20B 7], UNDEFINED, .TOKEN⟩]
def c20G : Gram := packGrammar false 5 8 (c20Rules.map SrcRule.p) (encPitem c20Rules)
def c20SP : SymPrec := ⟨[0, 0, 0, 0, 1, 0, 0, 0], [.TOKEN, .TOKEN, .TOKEN, .TOKEN, .LEFT, .TOKEN, .TOKEN, .TOKEN]⟩
def c20SV : List Int := [0, 256, 257, 59, 43, -1, 0, 1]
def c20T : Option Tables :=
  (genWith 20 c20G c20SP false (-1) (-1)).bind fun o =>
    match outputTables 3 c20G c20SV o with | .ok t => some t | _ => none

example : (c20T.bind fun t => outcome (calcP t) 60 0 [(257, 1), (257, 2), (257, 3), (59, 0), (257, 4), (59, 0)]) =
    some (.accept, [0, 0], [.reduce 2, .shift 59, .reduce 4, .shift 257, .reduce 3, .shift 59, .discard 257, .discard 257,
      .errShift, .pop, .report, .reduce 4, .shift 257, .reduce 1]) := by decide +kernel

/-- `N N ; ; ; N ;`: two more errors within three tokens are not reported. -/
example : (c20T.bind fun t => outcome (calcP t) 60 0 [(257, 1), (257, 2), (59, 3), (59, 0), (59, 0), (257, 4), (59, 0)]) =
    some (.accept, [0, 0], [.reduce 2, .shift 59, .reduce 4, .shift 257, .reduce 3, .shift 59, .errShift, .reduce 3, .shift 59,
      .errShift, .reduce 3, .shift 59, .discard 257, .errShift, .pop, .report, .reduce 4, .shift 257, .reduce 1]) := by
  decide +kernel

/-- `N N ; N ; N N ;`: after three tokens an error is reported again. -/
example : (c20T.bind fun t => outcome (calcP t) 60 0
      [(257, 1), (257, 2), (59, 3), (257, 5), (59, 0), (257, 0), (257, 4), (59, 0)]) =
    some (.accept, [0, 0], [.reduce 3, .shift 59, .discard 257, .errShift, .pop, .report, .reduce 4, .shift 257, .reduce 2,
      .shift 59, .reduce 4, .shift 257, .reduce 3, .shift 59, .discard 257, .errShift, .pop, .report, .reduce 4, .shift 257,
      .reduce 1]) := by decide +kernel

end Verif.Byacc
