import Verif.Proofs.BtStep
/-
The invariant of a parse with backtracking that has not reported a syntax error.
-/
set_option autoImplicit false
namespace Verif.Byacc
open Spec Relation

variable {V : Type} {P : BDriver V} {G : CFG} {nsyms n : Nat} {Item : Nat → Nat → Nat → Prop} {Trans : Nat → Nat → Nat → Prop}
  {code : Nat → Int} {bound : Nat} {R : Prop} {t : BTables} {f : Nat → List V → V} {u0 : V} {input0 : List (Int × V)} {E : Ctl → Prop}

/-- The queue as part of the input. -/
def BCfg.proj (c : BCfg V) : Cfg V := { c.toCfg with input := c.queue.drop c.lvp ++ c.input }

/-- the tokens from a place of the queue on -/
def BCfg.stream (c : BCfg V) (l : Nat) : List (Int × V) := tokensOf (c.queue.drop l ++ c.input)

/-- the control at a saved state -/
def BCfg.sctl (c : BCfg V) (s : Saved V) : List Nat × List Int :=
  (s.stack.map Prod.fst, (c.stream s.lexeme).map Prod.fst ++ [0])

/-- the control now -/
def BCfg.ctl (c : BCfg V) : Ctl := .run (c.stack.map Prod.fst) c.proj.rest

/-- back at a saved state -/
def BCfg.back (c : BCfg V) (s : Saved V) : Cfg V :=
  { c.toCfg with stack := s.stack, chr := none, input := c.queue.drop s.lexeme ++ c.input }

/-- the control once a pending reduction is made -/
def BCfg.kk (c : BCfg V) (t : BTables) : Ctl :=
  match c.red with
  | some r => t.redC (c.stack.map Prod.fst) c.proj.rest r
  | none => c.ctl

theorem drop_of_get {α : Type} {l : List α} {i : Nat} {a : α} (h : l[i]? = some a) : l.drop i = a :: l.drop (i + 1) := by
  obtain ⟨hi, rfl⟩ := List.getElem?_eq_some_iff.1 h
  exact List.drop_eq_getElem_cons hi

theorem read_proj (c : BCfg V) (hl : c.lvp ≤ c.queue.length) : c.read.proj = c.proj.read := by
  unfold BCfg.read
  split
  · rename_i x hx
    unfold Cfg.read BCfg.proj
    simp only [hx]
  · rename_i hx
    split
    · rename_i x v hq
      unfold BCfg.proj
      simp only [drop_of_get hq, List.cons_append]
      unfold Cfg.read
      simp only [hx]
    · rename_i hq
      have hge : c.queue.length ≤ c.lvp := by simpa using hq
      have hlen : c.lvp = c.queue.length := by omega
      have hd : c.queue.drop c.lvp = [] := List.drop_eq_nil_of_le hge
      split
      · split
        · rename_i hi
          unfold BCfg.proj Cfg.read
          simp only [hx, hd, hi, hlen]
          simp
        · rename_i x v rest hi
          unfold BCfg.proj Cfg.read
          simp only [hx, hd, hi, hlen]
          simp
      · unfold BCfg.proj Cfg.read
        simp only [hx, hd, List.nil_append]

/-- reading leaves the tokens to come as they are, in a trial -/
theorem read_stream (c : BCfg V) (htr : c.saves ≠ []) (l : Nat) (hl : l ≤ c.queue.length) : c.read.stream l = c.stream l := by
  unfold BCfg.read
  split
  · rfl
  · split
    · rfl
    · rw [if_pos ((trial_iff c).2 htr)]
      split
      · rename_i hi
        unfold BCfg.stream tokensOf
        simp only [hi]
        rw [List.drop_append_of_le_length hl]
        simp only [List.append_nil, List.takeWhile_append]
        split
        · rename_i hh
          simp only [List.takeWhile_cons, lt_self_iff_false, decide_false, Bool.false_eq_true, if_false, List.append_nil]
          exact ((List.takeWhile_sublist _).eq_of_length hh).symm
        · rfl
      · rename_i x v rest hi
        unfold BCfg.stream
        simp only [hi]
        rw [List.drop_append_of_le_length hl]
        simp

/-- The same place in the tree of choices. -/
structure Like (c c' : BCfg V) : Prop where
  saves : c'.saves = c.saves
  path : c'.path = c.path
  stream : c.saves ≠ [] → ∀ l, l ≤ c.queue.length → c'.stream l = c.stream l
  log : c.saves ≠ [] → c'.log = c.log
  errflag : c'.errflag = c.errflag
  recover : c'.recover = c.recover

theorem Like.read (c : BCfg V) : Like c c.read := by
  obtain ⟨f1, f2, f3, f4, f5, f6, f7, f8, f9, f10, x, hx, hx0⟩ := bread_fields c
  exact ⟨f6, f7, fun h l hl => read_stream c h l hl, fun _ => f5, f2, f4⟩

theorem Chain.congr {σ : Type} {t : BTables} {ctl ctl' : σ → List Nat × List Int} {ctry : σ → Nat} {l : List σ} {k : Ctl}
    (h : Chain t ctl ctry l k) (he : ∀ s ∈ l, ctl' s = ctl s) : Chain t ctl' ctry l k := by
  induction h with
  | @one s k1 k h hd => exact .one (by rw [he s (by simp)]; exact h) hd
  | @cons s s' l k1 k h hd hl ih =>
    refine .cons (by rw [he s (by simp)]; exact h) hd ?_
    rw [he s (by simp)]
    exact ih (fun x hx => he x (by simp only [List.mem_cons] at hx ⊢; exact .inr hx))

theorem Chain.tail {σ : Type} {t : BTables} {ctl : σ → List Nat × List Int} {ctry : σ → Nat} {l : List σ} {k k' : Ctl}
    (h : Chain t ctl ctry l k) (hs : t.stepC k = .next k') : Chain t ctl ctry l k' := by
  cases h with
  | one h hd => exact .one h (hd.tail hs)
  | cons h hd hl => exact .cons h (hd.tail hs) hl

theorem Good.congr {c c' : Cfg V} (H : Good G Trans code f u0 input0 c) (h1 : c'.stack = c.stack) (h2 : c'.errflag = c.errflag)
    (h3 : c'.recover = c.recover) (h4 : c'.log = c.log) (h5 : c'.pending = c.pending) : Good G Trans code f u0 input0 c' := by
  obtain ⟨a, b, d⟩ := H
  exact ⟨by rw [h2, a], by rw [h3, b], by rw [h1, h4, h5]; exact d⟩

/-- What the invariant says about the goal `E` of the parse: `E` holds now or can be reached by another choice. -/
def Hope (t : BTables) (E : Ctl → Prop) (c : BCfg V) (saves : List (Saved V)) : Prop :=
  ∃ s ∈ saves, ∃ ctry' k', s.ctry < ctry' ∧ Chose t (c.sctl s).1 (c.sctl s).2 ctry' k' ∧ E k'

/-- A property of controls kept by steps. -/
structure EOK (t : BTables) (E : Ctl → Prop) : Prop where
  acc : E .acc
  step : ∀ k k', t.stepC k = .next k' → (E k ↔ E k')
  conf : ∀ ss ts e, t.stepC (.run ss ts) = .conf e → E (.run ss ts) → (∀ k, E k) ∨ ∃ ctry k', Chose t ss ts ctry k' ∧ E k'
  choice : ∀ ss ts ctry k', Chose t ss ts ctry k' → E k' → E (.run ss ts)
  dich : (∀ k, E k) ∨ ∀ k, t.stepC k = .err → ¬ E k

/-- The place in the tree of choices, and what leads there. -/
structure Ctrl (G : CFG) (Trans : Nat → Nat → Nat → Prop) (code : Nat → Int) (f : Nat → List V → V) (u0 : V)
    (input0 : List (Int × V)) (t : BTables) (E : Ctl → Prop) (c : BCfg V) (k : Ctl) : Prop where
  trial : c.saves ≠ [] → c.path = [] ∧ Chain t c.sctl Saved.ctry c.saves k ∧ ((∀ k, E k) ∨ E k ∨ Hope t E c c.saves) ∧
    ∃ s, c.saves.getLast? = some s ∧ Good G Trans code f u0 input0 (c.back s)
  normal : c.saves = [] → ∃ ctl, (∀ s, (ctl s).1 = s.stack.map Prod.fst) ∧ PathTo t ctl Saved.ctry E c.path k

/-- No syntax error has been reported, and no action has executed `YYERROR` outside trials. -/
def Quiet (log : List Ev) : Prop := Ev.report ∉ log ∧ Ev.raised ∉ log

theorem Quiet.cons {log : List Ev} (h : Quiet log) {e : Ev} (h1 : e ≠ .report) (h2 : e ≠ .raised) : Quiet (e :: log) := by
  refine ⟨?_, ?_⟩ <;> simp only [List.mem_cons, not_or]
  · exact ⟨h1.symm, h.1⟩
  · exact ⟨h2.symm, h.2⟩

theorem Quiet.mono {l l' : List Ev} (h : Quiet l') (hl : l <:+ l') : Quiet l :=
  ⟨fun h1 => h.1 (hl.subset h1), fun h1 => h.2 (hl.subset h1)⟩

/-- An action may execute `YYERROR` in a trial. -/
def BDriver.Raises (P : BDriver V) : Prop := ∃ r d st, P.act true r d st = .yyerror

structure Inv (G : CFG) (Item : Nat → Nat → Nat → Prop) (Trans : Nat → Nat → Nat → Prop) (code : Nat → Int) (f : Nat → List V → V)
    (u0 : V) (input0 : List (Int × V)) (t : BTables) (E : Ctl → Prop) (R : Prop) (bound : Nat) (c : BCfg V) : Prop where
  base : BBase G Item Trans R bound c
  errflag : c.errflag = 0
  recover : c.recover = false
  ctrl : Ctrl G Trans code f u0 input0 t E c (c.kk t)
  good : c.saves = [] → Good G Trans code f u0 input0 c.proj
  quiet : Quiet c.log

theorem PathTo.reach {σ : Type} {ctl : σ → List Nat × List Int} {ctry : σ → Nat} (H : EOK t E) {l : List σ} {k : Ctl}
    (h : PathTo t ctl ctry E l k) : E k := by
  have aux : ∀ k k', Det t k k' → E k' → E k := by
    intro k k' hd hw
    induction hd with
    | refl => exact hw
    | head h0 _ ih => exact (H.step _ _ h0).2 (ih hw)
  induction h with
  | nil h => exact h
  | cons hd h hl ih => exact aux _ _ hd (H.choice _ _ _ _ h ih)

theorem Ctrl.step (H : EOK t E) {c : BCfg V} {k k' : Ctl} (h : Ctrl G Trans code f u0 input0 t E c k) (hs : t.stepC k = .next k') :
    Ctrl G Trans code f u0 input0 t E c k' := by
  refine ⟨fun htr => ?_, fun htr => ?_⟩
  · obtain ⟨h1, h2, h3, h4⟩ := h.trial htr
    refine ⟨h1, ?_, ?_, h4⟩
    · exact h2.tail hs
    · rcases h3 with h3 | h3 | h3
      · exact .inl h3
      · exact .inr (.inl ((H.step _ _ hs).1 h3))
      · exact .inr (.inr h3)
  · obtain ⟨ctl, h1, h2⟩ := h.normal htr
    refine ⟨ctl, h1, ?_⟩
    cases hp : c.path with
    | nil =>
      rw [hp] at h2
      cases h2 with
      | nil h => exact .nil ((H.step _ _ hs).1 h)
    | cons p l => rw [hp] at h2; exact h2.step hs

theorem Ctrl.like {c c' : BCfg V} {k : Ctl} (B : BBase G Item Trans R bound c) (h : Ctrl G Trans code f u0 input0 t E c k) (hl : Like c c') :
    Ctrl G Trans code f u0 input0 t E c' k := by
  refine ⟨fun htr => ?_, fun htr => ?_⟩
  · rw [hl.saves] at htr
    obtain ⟨h1, h2, h3, s, h4, h5⟩ := h.trial htr
    have hs : ∀ s ∈ c.saves, c'.sctl s = c.sctl s := by
      intro s hs
      unfold BCfg.sctl
      rw [hl.stream htr _ (B.saves s hs).lex]
    rw [hl.saves, hl.path]
    refine ⟨h1, h2.congr hs, ?_, s, h4, ?_⟩
    · rcases h3 with h3 | h3 | ⟨s', a1, ctry', k', a2, a3, a4⟩
      · exact .inl h3
      · exact .inr (.inl h3)
      · exact .inr (.inr ⟨s', a1, ctry', k', a2, by rw [hs s' a1]; exact a3, a4⟩)
    · refine h5.congr rfl ?_ ?_ ?_ ?_
      · exact hl.errflag
      · exact hl.recover
      · exact hl.log htr
      · exact hl.stream htr _ (B.saves s (List.mem_of_getLast? h4)).lex
  · rw [hl.saves] at htr
    rw [hl.path]
    exact h.normal htr

/-- What a result may be. -/
def ROK (G : CFG) (Item : Nat → Nat → Nat → Prop) (Trans : Nat → Nat → Nat → Prop) (code : Nat → Int) (f : Nat → List V → V)
    (u0 : V) (input0 : List (Int × V)) (P : BDriver V) (E : Ctl → Prop) (bound : Nat) : BRes V → Prop
  | .next c => ((∀ k, E k) ∧ ¬ Quiet c.log) ∨ Inv G Item Trans code f u0 input0 P.t E P.Raises bound c
  | .done h c => ((∀ k, E k) ∧ ¬ Quiet c.log) ∨
      (h = .std .accept ∧ Quiet c.log ∧ c.stack.length ≤ c.size ∧ GoodRes G Trans code f u0 input0 (.done .accept c.proj)) ∨
      (h = .std .overflow ∧ c.stack.length = c.size ∧ P.max ≤ c.size) ∨
      (h = .std .abort ∧ c.stack.length ≤ c.size ∧ ∃ r d st, P.act true r d st = .yyabort) ∨
      (h = .badRead ∧ c.stack.length ≤ c.size ∧ P.Raises)

/-- going back to the first choice -/
theorem Inv.valid (H : EOK P.t E) {c : BCfg V} (B : BBase G Item Trans P.Raises bound c) (hred : c.red = none) (herr : c.errflag = 0)
    (hrec : c.recover = false) (hN : Quiet c.log)
    {k : Ctl} (hC : Ctrl G Trans code f u0 input0 P.t E c k) (htr : c.saves ≠ []) (hk : E k) :
    ROK G Item Trans code f u0 input0 P E bound c.valid := by
  obtain ⟨h1, h2, h3, s0, h4, h5⟩ := hC.trial htr
  obtain ⟨s, rest, e, hp⟩ := h2.path (E := E) (fun k k' hs => (H.step k k' hs).2) (.nil hk)
  have hb := valid_ok (max := 0) B hred htr
  unfold BCfg.valid at hb ⊢
  rw [h1] at hb ⊢
  simp only [e] at hb ⊢
  have hs0 : s0 = s := by
    rw [List.getLast?_eq_head?_reverse, e] at h4
    simpa using h4.symm
  subst hs0
  refine .inr ⟨hb, herr, hrec, ⟨fun h => absurd rfl h, fun _ => ⟨c.sctl, fun _ => rfl, ?_⟩⟩, fun _ => h5, hN⟩
  rw [List.append_nil, e] at hp
  have : BCfg.kk ({ c with path := s0 :: rest, saves := [], errctx := none, lvp := s0.lexeme, chr := none, stack := s0.stack } : BCfg V) P.t =
      .run (c.sctl s0).1 (c.sctl s0).2 := by
    unfold BCfg.kk
    simp only [hred]
    rfl
  rw [this]
  exact hp

/-- A result as one of the parser without backtracking. -/
def BRes.proj : BRes V → Res V
  | .next c => .next c.proj
  | .done (.std h) c => .done h c.proj
  | .done .badRead c => .done .underflow c.proj

/-- The parser without backtracking that does the actions of the final parse. -/
def BDriver.final (P : BDriver V) (fa : Nat → V → List V → V) : Driver V :=
  { P.plain with act := fun r d st => .val (fa r d ((st.take (P.t.len.getD r 0).toNat).reverse)) }

theorem trial_false {c : BCfg V} (h : c.saves = []) : c.trial = false := by
  unfold BCfg.trial
  rw [h]; rfl

theorem lift_push_proj (fa : Nat → V → List V → V) {c : BCfg V} (h : c.saves = []) (q : Nat) (v : V) :
    (c.lift (P.plain.push c.toCfg q v)).proj = (P.final fa).push c.proj q v := by
  unfold Driver.push BDriver.final BDriver.plain Driver.grow BCfg.proj Cfg.write
  simp only
  split
  · split
    · simp only [BCfg.lift, BRes.proj, trial_false h, BCfg.proj]; rfl
    · split
      · simp only [BCfg.lift, BRes.proj, trial_false h, BCfg.proj]; rfl
      · simp only [BCfg.lift, BRes.proj, trial_false h, BCfg.proj]; rfl
  · split
    · simp only [BCfg.lift, BRes.proj, trial_false h, BCfg.proj]; rfl
    · simp only [BCfg.lift, BRes.proj, trial_false h, BCfg.proj]; rfl

theorem finish_proj (fa : Nat → V → List V → V) {c : BCfg V} (h : c.saves = []) (hl : c.lvp ≤ c.queue.length) (m : Nat) (yym : Int) (v : V) :
    (P.finish c m yym v).proj = (P.final fa).finish c.proj m yym v := by
  have key : ∀ (d : BCfg V) (e : Cfg V), e = d.proj → d.lvp ≤ d.queue.length → d.saves = [] →
      (if d.read.chr = some 0 then d.read.accept else .next d.read).proj =
      (if e.read.chr = some 0 then Res.done .accept e.read else .next e.read) := by
    rintro d e rfl h1 h2
    rw [← read_proj d h1]
    have h3 : d.read.proj.chr = d.read.chr := rfl
    rw [h3]
    have h4 : d.read.trial = false := by
      apply trial_false
      rw [(bread_fields _).2.2.2.2.2.1]
      exact h2
    unfold BCfg.accept
    rw [h4]
    split <;> rfl
  unfold BDriver.finish Driver.finish
  have e0 : c.proj.stack = c.stack := rfl
  rw [e0]
  cases hd : c.stack.drop m with
  | nil => rfl
  | cons p below =>
    obtain ⟨s, u⟩ := p
    simp only
    split
    · have e1 : (P.final fa).t.final = P.t.final := rfl
      rw [e1]
      unfold Cfg.write
      simp only
      have e2 : c.proj.size = c.size := rfl
      rw [e2]
      split
      · rename_i d hd'
        split at hd'
        · cases hd'
        · cases hd'; rename_i hn; rw [if_neg hn]; rfl
      · rename_i d hd'
        split at hd'
        · rename_i hn
          rw [if_pos hn]
          cases hd'
          simp only
          exact key _ _ rfl hl h
        · cases hd'
    · exact lift_push_proj fa (c := { c with stack := (s, u) :: below }) h _ _

theorem back_kk {c : BCfg V} (h : c.red = none) : c.kk t = c.ctl := by
  unfold BCfg.kk; rw [h]

/-- the end of a reduction -/
theorem BTabSound.finish_inv (T : BTabSound G nsyms n Item Trans code P.t) (H : EOK P.t E) {c : BCfg V}
    (B : BBase G Item Trans P.Raises bound c) (hred : c.red = none) (herr : c.errflag = 0) (hrec : c.recover = false) (hmax : P.max ≤ bound)
    {q : Nat} {u : V} {rest : List (Nat × V)} (hst : c.stack = (q, u) :: rest) {r A : Nat} {α : List Nat}
    (hr : G.rules[r]? = some (A, α)) (hi : Item q r α.length) (h0 : 0 < r) (v : V)
    (hC : Ctrl G Trans code f u0 input0 P.t E c (P.t.redC (c.stack.map Prod.fst) c.proj.rest r))
    (hG : c.saves = [] → GoodRes G Trans code f u0 input0 (P.finish c α.length (P.t.lhs.getD r 0) v).proj)
    (hN : Quiet c.log) :
    ROK G Item Trans code f u0 input0 P E bound (P.finish c α.length (P.t.lhs.getD r 0) v) := by
  have hok := T.finish_ok B hred hmax hst hr hi h0 v
  obtain ⟨γ, hγ⟩ := B.base.spell
  have hst' : c.stack.map Prod.fst = q :: rest.map Prod.fst := by rw [hst]; rfl
  obtain ⟨δ, s, below, q', hγ', hd, hδ, ht, hz, hA⟩ := TabSound.shape (P := P.plain) T.plain (hst' ▸ hγ) hr hi h0
  rw [← hst'] at hd
  have hlhs : P.t.lhs.getD r 0 = (A : Int) - G.ntok - 1 := T.plain.lhs r A α hr
  have hfl : (s = 0 ∧ P.t.lhs.getD r 0 = 0) ↔ (s = 0 ∧ A = G.ntok + 1) := by
    rw [hlhs]
    constructor <;> rintro ⟨a, b⟩ <;> exact ⟨a, by omega⟩
  have hredC : P.t.redC (c.stack.map Prod.fst) c.proj.rest r =
      if s = 0 ∧ A = G.ntok + 1 then
        if c.proj.rest.head? = some 0 then .acc else .run (P.t.final :: s :: below) c.proj.rest
      else .run (q' :: s :: below) c.proj.rest := by
    unfold Tables.redC
    rw [T.plain.len r A α hr, Int.toNat_natCast, hd]
    simp only
    by_cases hf : s = 0 ∧ A = G.ntok + 1
    · rw [if_pos (hfl.2 hf), if_pos hf]
    · rw [if_neg (by rw [hfl]; exact hf), if_neg hf, hlhs, T.plain.goto s A q' hA ht]
  have hmap : (c.stack.drop α.length).map Prod.fst = s :: below := by rw [List.map_drop, hd]
  rcases T.finish v hr hd ht (fun e => (hz e).1) hA B.base.fits B.base.two with
    ⟨m, e, e1, e2, e3, e4⟩ | ⟨e, e0, eA, e1, e2⟩ | ⟨e, e0, eA, e1, e2⟩ | ⟨c', e, e1, e2, e3, e4⟩
  · rw [e] at hok hG ⊢
    refine .inr ⟨hok, herr, hrec, ?_, ?_, hN⟩
    · rw [back_kk (by exact hred)]
      rw [hredC, if_neg e4] at hC
      have := hC.like (c' := { c with stack := (q', v) :: c.stack.drop α.length, size := m }) B
        ⟨rfl, rfl, fun _ _ _ => rfl, fun _ => rfl, rfl, rfl⟩
      have hctl : BCfg.ctl ({ c with stack := (q', v) :: c.stack.drop α.length, size := m } : BCfg V) =
          .run (q' :: s :: below) c.proj.rest := by
        unfold BCfg.ctl
        simp only [List.map_cons, hmap]
        rfl
      rw [hctl]
      exact this
    · intro h
      rcases hG h with h' | h'
      · exact absurd h' hN.1
      · exact h'
  · rw [e] at hok hG ⊢
    have hq : q' = P.t.final := by
      rw [e0, eA] at ht
      exact T.plain.A.det ht T.plain.final
    have hlr := Like.read ({ c with stack := (q', v) :: c.stack.drop α.length } : BCfg V)
    have hrp := read_proj ({ c with stack := (q', v) :: c.stack.drop α.length } : BCfg V) B.lvp
    obtain ⟨hrr, x, l, hx1, hx2, -⟩ := read_rest (BCfg.proj ({ c with stack := (q', v) :: c.stack.drop α.length } : BCfg V))
    rw [← hrp] at hx1 hrr
    have hne : c.proj.rest.head? ≠ some 0 := by
      have : c.proj.rest = x :: l := hx2
      rw [this]
      intro h
      simp only [List.head?_cons, Option.some.injEq] at h
      subst h
      exact e2 hx1
    obtain ⟨f1, f2, f3, f4, f5, f6, f7, f8, f9, f10, -⟩ := bread_fields ({ c with stack := (q', v) :: c.stack.drop α.length } : BCfg V)
    refine .inr ⟨hok, by rw [f2]; exact herr, by rw [f4]; exact hrec, ?_, ?_, by rw [f5]; exact hN⟩
    · rw [back_kk (by rw [f9]; exact hred)]
      rw [hredC, if_pos ⟨e0, eA⟩, if_neg hne] at hC
      have h1 := hC.like (c' := { c with stack := (q', v) :: c.stack.drop α.length }) B
        ⟨rfl, rfl, fun _ _ _ => rfl, fun _ => rfl, rfl, rfl⟩
      have B1 : BBase G Item Trans P.Raises bound { c with stack := (q', v) :: c.stack.drop α.length } := by
        refine B.mono (le_refl _) (le_refl _) rfl rfl rfl ⟨⟨A :: δ, ?_⟩, ?_, B.base.two, B.base.bnd, B.base.chr⟩ B.lvp B.prov hred
        · simp only [List.map_cons, hmap]; exact .cons hδ ht
        · have := B.base.two
          simp only [List.length_cons]; omega
      have h2 := h1.like B1 hlr
      have hctl : BCfg.ctl (BCfg.read ({ c with stack := (q', v) :: c.stack.drop α.length } : BCfg V)) =
          .run (P.t.final :: s :: below) c.proj.rest := by
        unfold BCfg.ctl
        rw [f1, hrr]
        simp only [List.map_cons, hmap, hq]
        rfl
      rw [hctl]
      exact h2
    · intro h
      rw [f6] at h
      rcases hG h with h' | h'
      · exfalso
        rw [show Cfg.log (BCfg.proj _) = Cfg.log (BCfg.toCfg _) from rfl, f5] at h'
        exact hN.1 h'
      · exact h'
  · rw [e] at hok hG ⊢
    have hlr := Like.read ({ c with stack := (q', v) :: c.stack.drop α.length } : BCfg V)
    obtain ⟨f1, f2, f3, f4, f5, f6, f7, f8, f9, f10, -⟩ := bread_fields ({ c with stack := (q', v) :: c.stack.drop α.length } : BCfg V)
    by_cases htr : c.saves = []
    · have htf : ({ c with stack := (q', v) :: c.stack.drop α.length } : BCfg V).read.trial = false := by
        apply trial_false; rw [f6]; exact htr
      have h1 := hG htr
      unfold BCfg.accept at h1 ⊢
      rw [htf] at h1 ⊢
      refine .inr (.inl ⟨rfl, (by simp only [f5]; exact hN), ?_, h1⟩)
      rw [f1, f3]
      have := B.base.two
      simp only [List.length_cons]; omega
    · have B1 : BBase G Item Trans P.Raises bound { c with stack := (q', v) :: c.stack.drop α.length } := by
        refine B.mono (le_refl _) (le_refl _) rfl rfl rfl ⟨⟨A :: δ, ?_⟩, ?_, B.base.two, B.base.bnd, B.base.chr⟩ B.lvp B.prov hred
        · simp only [List.map_cons, hmap]; exact .cons hδ ht
        · have := B.base.two
          simp only [List.length_cons]; omega
      have htf : ({ c with stack := (q', v) :: c.stack.drop α.length } : BCfg V).read.trial = true := by
        rw [trial_iff, f6]; exact htr
      have hhead : c.proj.rest.head? = some 0 := by
        have hrp := read_proj ({ c with stack := (q', v) :: c.stack.drop α.length } : BCfg V) B.lvp
        obtain ⟨hrr, x, l, hx1, hx2, -⟩ := read_rest (BCfg.proj ({ c with stack := (q', v) :: c.stack.drop α.length } : BCfg V))
        rw [← hrp] at hx1
        have h3 : x = 0 := by
          have : (BCfg.proj (BCfg.read ({ c with stack := (q', v) :: c.stack.drop α.length } : BCfg V))).chr = some 0 := e2
          rw [this] at hx1
          simpa using hx1.symm
        have : c.proj.rest = x :: l := hx2
        rw [this, h3]; rfl
      rw [hredC, if_pos ⟨e0, eA⟩, if_pos hhead] at hC
      have h1 := hC.like (c' := { c with stack := (q', v) :: c.stack.drop α.length }) B
        ⟨rfl, rfl, fun _ _ _ => rfl, fun _ => rfl, rfl, rfl⟩
      have h2 := h1.like B1 hlr
      unfold BCfg.accept
      rw [if_pos htf]
      exact Inv.valid H (B1.read hred) (by rw [f9]; exact hred) (by rw [f2]; exact herr) (by rw [f4]; exact hrec) (by rw [f5]; exact hN) h2
        (by rw [f6]; exact htr) H.acc
  · rw [e]
    exact .inr (.inr (.inl ⟨rfl, by omega, by omega⟩))

/-- What the actions may do: outside trials they compute values; in trials anything but `YYERROR`, and
if not every end will do, they compute values only. -/
structure ActsOK (P : BDriver V) (fa : Nat → V → List V → V) (E : Ctl → Prop) : Prop where
  final : ∀ r d st, P.act false r d st = .val (fa r d ((st.take (P.t.len.getD r 0).toNat).reverse)) ∨
    P.act false r d st = .yyvalid (fa r d ((st.take (P.t.len.getD r 0).toNat).reverse)) ∨
    P.act false r d st = .yyvalidNested (fa r d ((st.take (P.t.len.getD r 0).toNat).reverse)) ∨
    ((∀ k, E k) ∧ P.act false r d st = .yyerror)
  trial : ∀ r d st, (∀ k, E k) ∨ ∃ v, P.act true r d st = .val v

end Verif.Byacc
