import Verif.Proofs.BtInv
/-
Every round of a parse with backtracking keeps the invariant.
-/
set_option autoImplicit false
namespace Verif.Byacc
open Spec Relation

variable {V : Type} {P : BDriver V} {G : CFG} {nsyms n : Nat} {Item : Nat → Nat → Nat → Prop} {Trans : Nat → Nat → Nat → Prop}
  {code : Nat → Int} {bound : Nat} {t : BTables} {f : Nat → List V → V} {u0 : V} {input0 : List (Int × V)} {E : Ctl → Prop}

/-! ### shifting -/

theorem shift_good (hX0 : ∀ X, X < G.ntok → code X = 0 → X = 0) {c : Cfg V} (H : Good G Trans code f u0 input0 c)
    {q : Nat} {u : V} {rest : List (Nat × V)} (hst : c.stack = (q, u) :: rest) {X q' : Nat} (hX : X < G.ntok) (hXne : X ≠ 0)
    {x : Int} (hx : c.chr = some x) (hcode : x = code X) (ht : Trans q X q') (m : Nat) :
    Good G Trans code f u0 input0 { c with chr := none, errflag := c.errflag - 1, log := .shift x :: c.log, stack := (q', c.lval) :: c.stack, size := m } := by
  obtain ⟨herr, hrec, γ, rs, w, vs, hsp, hvs, hb, hred, hshf, hin⟩ := H
  have hxne : x ≠ 0 := fun e => hXne (hX0 X hX (by rw [← hcode, e]))
  refine ⟨by simp only; omega, hrec, γ ++ [X], rs, w ++ [(X, c.lval)], vs ++ [c.lval], ?_, ?_, .tok _ hX hb, ?_, ?_, ?_⟩
  · rw [hst] at hsp ⊢
    simp only [List.reverse_append, List.reverse_cons, List.reverse_nil, List.nil_append, List.cons_append, List.map_cons]
    exact .cons hsp ht
  · simp [hvs]
  · rw [← hred]; rfl
  · simp only [List.map_append, List.map_cons, List.map_nil, List.reverse_append, List.reverse_cons, List.reverse_nil,
      List.nil_append, List.cons_append]
    rw [← hshf, ← hcode]; rfl
  · rw [hin]
    simp only [List.map_append, List.map_cons, List.map_nil, List.append_assoc, List.cons_append, List.nil_append]
    congr 1
    unfold Cfg.pending
    rw [hx]
    simp [hxne, ← hcode]

/-- Shifting the token `x`: `c` is the configuration with the token taken, `c0` that before. -/
theorem BTabSound.shift_inv (T : BTabSound G nsyms n Item Trans code P.t) {c : BCfg V}
    (B : BBase G Item Trans P.Raises bound c) (hred : c.red = none) (herr : c.errflag = 0) (hrec : c.recover = false) (hN : Quiet c.log)
    (hmax : P.max ≤ bound) {q : Nat} {u : V} {rest : List (Nat × V)} (hst : c.stack = (q, u) :: rest) {X q' : Nat}
    (hX : X < G.ntok) (hXne : X ≠ 0) {x : Int} (hcode : x = code X) (ht : Trans q X q') {ts : List Int}
    (hts : (c.stream c.lvp).map Prod.fst ++ [0] = ts)
    (hC : Ctrl G Trans code f u0 input0 P.t E c (.run (q' :: c.stack.map Prod.fst) ts))
    (hG : c.saves = [] → c.chr = some x ∧ Good G Trans code f u0 input0 c.proj) :
    ROK G Item Trans code f u0 input0 P E bound
      (c.lift (P.plain.push { c.toCfg with chr := none, errflag := c.errflag - 1, log := .shift x :: c.log } q' c.lval)) := by
  have hok := lift_push_ok (P := P) c { c.toCfg with chr := none, errflag := c.errflag - 1, log := .shift x :: c.log } B hmax
    (q := q) (u := u) (rest := rest) hst rfl rfl rfl hred ht c.lval
  rcases lift_push (P := P) c { c.toCfg with chr := none, errflag := c.errflag - 1, log := .shift x :: c.log } q' c.lval B.base.fits B.base.two with
    ⟨m, e1, e2, e3, e4⟩ | ⟨c', e1, e2, e3, e4, e5⟩
  · rw [e1] at hok ⊢
    refine .inr ⟨hok, by simp only; omega, hrec, ?_, ?_, ?_⟩
    · rw [back_kk (by exact hred)]
      have := hC.like (c' := { c with toCfg := { c.toCfg with chr := none, errflag := c.errflag - 1, stack := (q', c.lval) :: c.stack, size := m, log := if c.trial then c.log else .shift x :: c.log } }) B
        ⟨rfl, rfl, fun _ _ _ => rfl, fun h => by simp [(trial_iff c).2 h], by simp only; omega, rfl⟩
      have hctl : BCfg.ctl ({ c with toCfg := { c.toCfg with chr := none, errflag := c.errflag - 1, stack := (q', c.lval) :: c.stack, size := m, log := if c.trial then c.log else .shift x :: c.log } } : BCfg V) =
          .run (q' :: c.stack.map Prod.fst) ts := by
        rw [← hts]; rfl
      rw [hctl]
      exact this
    · intro h
      obtain ⟨g1, g2⟩ := hG h
      have hX0 : ∀ X, X < G.ntok → code X = 0 → X = 0 := fun X hX e => T.plain.inj X 0 hX T.plain.wf.ntok (by rw [e, T.plain.code0])
      have := shift_good hX0 g2 (q := q) (u := u) (rest := rest) hst hX hXne (x := x) g1 hcode ht m
      refine this.congr rfl rfl rfl ?_ rfl
      have htf := trial_false (c := c) h
      simp only [BCfg.proj, htf]
      rfl
    · simp only
      split
      · exact hN
      · exact hN.cons (by simp) (by simp)
  · rw [e1]
    exact .inr (.inr (.inl ⟨rfl, by rw [e2, e3]; exact e4, by rw [e3]; exact e5⟩))

/-! ### errors -/

theorem inrecovery_report {c : BCfg V} (hs : c.saves = []) (h : ¬ Quiet c.log) (hE : ∀ k, E k) :
    ROK G Item Trans code f u0 input0 P E bound c.inrecovery := by
  have htf := trial_false hs
  have hlog : ¬ Quiet c.toCfg.inrecovery.cfg.log := fun hq => h (hq.mono (inrecovery_log c.toCfg))
  unfold BCfg.inrecovery
  cases hr : c.toCfg.inrecovery with
  | next d =>
    rw [hr] at hlog
    exact .inl ⟨hE, by simp only [htf]; exact hlog⟩
  | done h d =>
    rw [hr] at hlog
    exact .inl ⟨hE, by simp only [htf]; exact hlog⟩

theorem stepC_conf {ss : List Nat} {ts : List Int} {e : Nat} (h : t.stepC (.run ss ts) = .conf e) :
    ∃ q ss', ss = q :: ss' ∧ t.defred.getD q 0 = 0 ∧ t.conflictOn q (ts.headD 0) = some e := by
  cases ss with
  | nil => cases h
  | cons q ss' =>
    refine ⟨q, ss', rfl, ?_⟩
    simp only [BTables.stepC] at h
    split at h
    · cases h
    · rename_i hd
      refine ⟨by simpa using hd, ?_⟩
      split at h
      · rename_i e' he'; cases h; exact he'
      · split at h
        · cases h
        · split at h <;> cases h

theorem stream_head (c : BCfg V) (l : Nat) : 0 ≤ ((c.stream l).map Prod.fst ++ [0]).headD 0 := by
  unfold BCfg.stream tokensOf
  cases c.queue.drop l ++ c.input with
  | nil => simp
  | cons p r =>
    rw [List.takeWhile_cons]
    split
    · rename_i h
      simp at h ⊢
      omega
    · simp

theorem BTabSound.handle_inv (T : BTabSound G nsyms n Item Trans code P.t) (H : EOK P.t E) :
    ∀ (l : List (Saved V)) (c : BCfg V), c.saves = l → BBase G Item Trans P.Raises bound c → c.red = none → c.errflag = 0 → c.recover = false →
      Quiet c.log → (l ≠ [] → c.errctx = none → P.Raises ∨ 0 < c.lvp) → (l = [] → ∀ k, E k) →
      (l ≠ [] → c.path = [] ∧ (∃ k, Chain P.t c.sctl Saved.ctry l k) ∧ ((∀ k, E k) ∨ Hope P.t E c l) ∧
        ∃ s, l.getLast? = some s ∧ Good G Trans code f u0 input0 (c.back s)) →
      ROK G Item Trans code f u0 input0 P E bound (P.handle l true c) := by
  intro l
  induction l with
  | nil =>
    intro c hl B hr herr hrec hN _ hE _
    unfold BDriver.handle
    rw [if_pos rfl]
    exact inrecovery_report hl (fun h => h.1 (by simp)) (hE rfl)
  | cons s rest ih =>
    intro c hl B hr herr hrec hN hpos _ hT
    obtain ⟨hpath, ⟨k, hch⟩, hhope, s0, hlast, hgood⟩ := hT (by simp)
    have hS := B.saves s (by rw [hl]; simp)
    have hrest : ∀ x ∈ rest, SaveOK Trans c x := fun x hx => B.saves x (by rw [hl]; simp [hx])
    have hctx : (∃ γ, Spell Trans γ (c.memorize.stack.map Prod.fst)) ∧ c.memorize.stack.length ≤ c.size ∧
        (P.Raises ∨ 0 < c.memorize.lexeme) ∧ c.memorize.lexeme ≤ c.queue.length := by
      unfold BCfg.memorize
      have hl' := B.lvp
      cases hec : c.errctx with
      | none => exact ⟨B.base.spell, B.base.fits, hpos (by simp) hec, hl'⟩
      | some e =>
        simp only
        split
        · exact ⟨B.base.spell, B.base.fits, .inr (by simp only; omega), hl'⟩
        · exact B.ctx e hec
    have hchose : ∃ k1, Chose P.t (c.sctl s).1 (c.sctl s).2 s.ctry k1 := by
      cases hch with
      | one h _ => exact ⟨_, h⟩
      | cons h _ _ => exact ⟨_, h⟩
    obtain ⟨k1, e, ch, a1, a2, -⟩ := hchose
    obtain ⟨q, ss', b1, b2, b3⟩ := stepC_conf a1
    obtain ⟨γ, hγ⟩ := hS.spell
    obtain ⟨p, l', hsl⟩ : ∃ p l', s.stack = p :: l' := by
      cases hsl : s.stack with
      | nil => rw [show (c.sctl s).1 = s.stack.map Prod.fst from rfl, hsl] at b1; cases b1
      | cons p l' => exact ⟨p, l', rfl⟩
    have hpq : p.1 = q := by
      rw [show (c.sctl s).1 = s.stack.map Prod.fst from rfl, hsl] at b1
      simp only [List.map_cons, List.cons.injEq] at b1
      exact b1.1
    have hq : q < n := T.plain.A.path_lt T.plain.A.pos (hγ.path (q := q) (ss' := l'.map Prod.fst) (by rw [hsl]; simp [hpq]))
    unfold BDriver.handle
    simp only
    rcases a2.succ with ⟨b4, b5⟩ | ⟨b4, b5⟩
    · rw [if_pos b4]
      obtain ⟨k2, A, α, k3, k4⟩ := T.alt hq b2 (stream_head c s.lexeme) b3 b5
      have hcs : Chose P.t (c.sctl s).1 (c.sctl s).2 (s.ctry + 1)
          (P.t.redC (c.sctl s).1 (c.sctl s).2 (P.t.ctable.getD (s.ctry + 1) (-1)).toNat) := ⟨e, _, a1, b5, rfl⟩
      refine .inr ⟨⟨⟨hS.spell, hS.fits, B.base.two, B.base.bnd, by simp⟩, hS.lex, by simp, ?_, by simp [hpath], .inr hpath, ?_, by simp, ?_⟩,
        herr, hrec, ⟨fun _ => ⟨hpath, ?_, ?_, ?_⟩, fun h => by simp at h⟩, fun h => by simp at h, hN⟩
      · intro y hy
        simp only [List.mem_cons] at hy
        rcases hy with rfl | hy
        · exact ⟨hS.spell, hS.fits, hS.lex⟩
        · exact ⟨(hrest y hy).spell, (hrest y hy).fits, (hrest y hy).lex⟩
      · intro y hy
        cases hy
        exact hctx
      · intro r h
        cases h
        exact ⟨by simp, rfl, q, p.2, l', by rw [hsl, ← hpq], k2, A, α, k3, k4⟩
      · cases hch with
        | one h hd => exact .one hcs (.refl _)
        | cons h hd hl' => exact .cons hcs (.refl _) hl'
      · rcases hhope with hE | ⟨s', h1, ctry', k', h2, h3, h4⟩
        · exact .inl hE
        · right
          simp only [List.mem_cons] at h1
          rcases h1 with rfl | h1
          · rcases Nat.lt_or_ge (s'.ctry + 1) ctry' with h5 | h5
            · exact .inr ⟨{ s' with ctry := s'.ctry + 1 }, by simp, ctry', k', h5, h3, h4⟩
            · have : ctry' = s'.ctry + 1 := by omega
              subst this
              left
              have := hcs.unique h3
              rw [← this] at h4
              exact h4
          · exact .inr ⟨s', by simp [h1], ctry', k', h2, h3, h4⟩
      · cases hrs : rest with
        | nil =>
          rw [hrs] at hlast
          simp only [List.getLast?_singleton, Option.some.injEq] at hlast
          subst hlast
          exact ⟨_, rfl, hgood⟩
        | cons s' rest' =>
          rw [hrs] at hlast
          exact ⟨s0, by rw [List.getLast?_cons_cons] at hlast ⊢; exact hlast, hgood⟩
    · rw [if_neg (by omega)]
      have hE' : (∀ k, E k) ∨ Hope P.t E c rest := by
        rcases hhope with hE | ⟨s', h1, ctry', k', h2, h3, h4⟩
        · exact .inl hE
        · simp only [List.mem_cons] at h1
          rcases h1 with rfl | h1
          · obtain ⟨e', ch', c1, c2, -⟩ := h3
            rw [a1] at c1
            cases c1
            have := b5 _ _ c2
            omega
          · exact .inr ⟨s', h1, ctry', k', h2, h3, h4⟩
      cases hrs : rest with
      | cons s' rest' =>
        simp only
        have B' : BBase G Item Trans P.Raises bound { c with errctx := some c.memorize, lvp := s.lexeme, chr := none, stack := s.stack, saves := s' :: rest' } := by
          refine ⟨⟨hS.spell, hS.fits, B.base.two, B.base.bnd, by simp⟩, hS.lex, by simp, ?_, by simp [hpath], .inr hpath, ?_, by simp, ?_⟩
          · intro y hy
            have := hrest y (by rw [hrs]; exact hy)
            exact ⟨this.spell, this.fits, this.lex⟩
          · intro y hy
            cases hy
            exact hctx
          · intro r h
            simp only [hr] at h
            cases h
        have := ih { c with errctx := some c.memorize, lvp := s.lexeme, chr := none, stack := s.stack, saves := s' :: rest' }
          hrs.symm B' hr herr hrec hN (fun _ h => by cases h) (by rw [hrs]; simp) (fun _ => by
            rw [hrs] at hch hE' hlast ⊢
            refine ⟨hpath, ?_, hE', s0, ?_, hgood⟩
            · cases hch with
              | cons h hd hl => exact ⟨_, hl⟩
            · rw [List.getLast?_cons_cons] at hlast; exact hlast)
        rw [hrs] at this
        exact this
      | nil =>
        rw [hrs] at hE'
        have hE : ∀ k, E k := by
          rcases hE' with hE | ⟨s', h1, -⟩
          · exact hE
          · cases h1
        simp only
        cases hk : c.memorize.lexeme with
        | zero =>
          refine .inr (.inr (.inr (.inr ⟨rfl, hS.fits, hctx.2.2.1.resolve_right (by omega)⟩)))
        | succ k =>
          simp only
          have hlt : k < c.queue.length := by omega
          rw [List.getElem?_eq_getElem hlt]
          simp only
          exact inrecovery_report rfl (fun h => h.1 (by simp)) hE

/-! ### choices -/

theorem handle_bool {l : List (Saved V)} (b : Bool) (h : l ≠ []) (c : BCfg V) : P.handle l b c = P.handle l true c := by
  cases l with
  | nil => exact absurd rfl h
  | cons s l => unfold BDriver.handle; rfl

theorem BTabSound.reduce_inv (T : BTabSound G nsyms n Item Trans code P.t) (H : EOK P.t E) {fa : Nat → V → List V → V}
    (hA : ActsOK P fa E) (hf : f = fun r us => fa r (us.headD P.zero) us) {c : BCfg V}
    (B : BBase G Item Trans P.Raises bound c) (herr : c.errflag = 0) (hrec : c.recover = false) (hmax : P.max ≤ bound)
    {q : Nat} {u : V} {rest : List (Nat × V)} (hst : c.stack = (q, u) :: rest) {r A : Nat} {α : List Nat}
    (hr : G.rules[r]? = some (A, α)) (hi : Item q r α.length) (h0 : 0 < r)
    (hC : Ctrl G Trans code f u0 input0 P.t E c (P.t.redC (c.stack.map Prod.fst) c.proj.rest r))
    (hG : c.saves = [] → Good G Trans code f u0 input0 c.proj) (hN : Quiet c.log) :
    ROK G Item Trans code f u0 input0 P E bound (P.reduce c r) := by
  obtain ⟨γ, hγ⟩ := B.base.spell
  have hst' : c.stack.map Prod.fst = q :: rest.map Prod.fst := by rw [hst]; rfl
  obtain ⟨δ, s, below, q', hγ', hd, hδ, ht, hz, hA'⟩ := TabSound.shape (P := P.plain) T.plain (hst' ▸ hγ) hr hi h0
  rw [← hst'] at hd
  have hlen : ¬ c.stack.length ≤ α.length := by
    intro hle
    have : (c.stack.map Prod.fst).drop α.length = [] := List.drop_eq_nil_of_le (by simpa using hle)
    rw [this] at hd
    cases hd
  have B1 := B.start_red (.reduce r)
  have hnf := note_fields c (.reduce r)
  generalize hc1 : ({ c.note (.reduce r) with red := none } : BCfg V) = c1 at B1
  have hst1 : c1.stack = c.stack := by rw [← hc1, hnf]
  have hsav : c1.saves = c.saves := by rw [← hc1, hnf]
  have hred1 : c1.red = none := by rw [← hc1]
  have herr1 : c1.errflag = 0 := by rw [← hc1, hnf]; exact herr
  have hrec1 : c1.recover = false := by rw [← hc1, hnf]; exact hrec
  have htr1 : c1.trial = c.trial := by unfold BCfg.trial; rw [hsav]
  have hlog1 : c1.log = if c.trial then c.log else .reduce r :: c.log := by rw [← hc1, hnf]
  have hN1 : Quiet c1.log := by
    rw [hlog1]
    split
    · exact hN
    · exact hN.cons (by simp) (by simp)
  have hprojr : c1.proj.rest = c.proj.rest := by rw [← hc1, hnf]; rfl
  have hlike : Like c c1 := by
    rw [← hc1, hnf]
    exact ⟨rfl, rfl, fun _ _ _ => rfl, fun h => by simp [(trial_iff c).2 h], rfl, rfl⟩
  have hC1 : Ctrl G Trans code f u0 input0 P.t E c1 (P.t.redC (c1.stack.map Prod.fst) c1.proj.rest r) := by
    rw [hst1, hprojr]
    exact hC.like B hlike
  have hproj1 : c.saves = [] → c1.proj = { c.proj with log := .reduce r :: c.log } := by
    intro h
    rw [← hc1, hnf, trial_false h]
    rfl
  have hunf : P.reduce c r = match P.act c.trial r (if α.length = 0 then P.zero else (c.stack.map Prod.snd).getD (α.length - 1) P.zero)
        (c.stack.map Prod.snd) with
      | .val v => P.finish c1 α.length (P.t.lhs.getD r 0) v
      | .yyerror => P.handle c1.saves false { c1.note .raised with stack := c1.stack.drop α.length }
      | .yyaccept => c1.accept
      | .yyabort => .done (.std .abort) c1
      | .yyvalid v => if c1.trial then c1.valid else P.finish c1 α.length (P.t.lhs.getD r 0) v
      | .yyvalidNested v => if c1.saves.length = 1 then c1.valid else P.finish c1 α.length (P.t.lhs.getD r 0) v := by
    unfold BDriver.reduce
    simp only [T.plain.len r A α hr, Int.toNat_natCast]
    have hns : (c.note (.reduce r)).stack = c.stack := by rw [hnf]
    have hnv : (c.note (.reduce r)).saves = c1.saves := by rw [hnf, hsav]
    rw [hc1, hns, hnv, if_neg hlen, htr1, hst1]
    rfl
  have hfin : ∀ v, (c.saves = [] → GoodRes G Trans code f u0 input0 (P.finish c1 α.length (P.t.lhs.getD r 0) v).proj) →
      ROK G Item Trans code f u0 input0 P E bound (P.finish c1 α.length (P.t.lhs.getD r 0) v) := by
    intro v hv
    exact T.finish_inv H B1 hred1 herr1 hrec1 hmax (by rw [hst1]; exact hst) hr hi h0 v hC1 (fun h => hv (by rw [← hsav]; exact h)) hN1
  rw [hunf]
  by_cases htr : c.saves = []
  · have htf := trial_false htr
    have hv : ROK G Item Trans code f u0 input0 P E bound (P.finish c1 α.length (P.t.lhs.getD r 0)
        (fa r (if α.length = 0 then P.zero else (c.stack.map Prod.snd).getD (α.length - 1) P.zero)
          (((c.stack.map Prod.snd).take (P.t.len.getD r 0).toNat).reverse))) := by
      refine hfin _ (fun _ => ?_)
      have hb : Base Trans bound c.proj := ⟨B.base.spell, B.base.fits, B.base.two, B.base.bnd, B.base.chr⟩
      have hg := TabSound.reduce_good (P := P.final fa) (f := f) T.plain hb (fa := fa) (fun _ _ _ => rfl) hf (hG htr)
        (q := q) (u := u) (rest := rest) hst hr hi h0
      rw [finish_proj fa (by rw [hsav]; exact htr) B1.lvp, hproj1 htr]
      unfold Driver.reduce at hg
      have e1 : (P.final fa).t.len.getD r 0 = α.length := T.plain.len r A α hr
      have e2 : c.proj.stack = c.stack := rfl
      simp only [e1, Int.toNat_natCast, e2] at hg
      rw [if_neg hlen] at hg
      exact hg
    rw [htf]
    have hs1 : c1.trial = false := by rw [htr1, htf]
    have hs2 : ¬ c1.saves.length = 1 := by rw [hsav, htr]; simp
    rcases hA.final r (if α.length = 0 then P.zero else (c.stack.map Prod.snd).getD (α.length - 1) P.zero)
      (c.stack.map Prod.snd) with h | h | h | ⟨hE, h⟩
    · rw [h]; exact hv
    · rw [h]; simp only [hs1]; exact hv
    · rw [h]; simp only; rw [if_neg hs2]; exact hv
    · rw [h]
      simp only
      rw [hsav, htr]
      unfold BDriver.handle
      rw [if_neg (by simp)]
      have hsn : (c1.note .raised).saves = c1.saves := by rw [note_fields]
      refine inrecovery_report ?_ ?_ hE
      · exact hsn.trans (hsav.trans htr)
      · intro hq
        apply hq.2
        show Ev.raised ∈ (c1.note .raised).log
        rw [note_fields]
        simp [hs1]
  · have htt := (trial_iff c).2 htr
    have hs : c1.saves ≠ [] := by rw [hsav]; exact htr
    have htt1 : c1.trial = true := by rw [htr1, htt]
    rw [htt]
    have h2 := hA.trial r (if α.length = 0 then P.zero else (c.stack.map Prod.snd).getD (α.length - 1) P.zero)
      (c.stack.map Prod.snd)
    have hno : ∀ v, ROK G Item Trans code f u0 input0 P E bound (P.finish c1 α.length (P.t.lhs.getD r 0) v) :=
      fun v => hfin v (fun h => absurd h htr)
    rcases h2 with hE | ⟨v, h2⟩
    · have hval : ROK G Item Trans code f u0 input0 P E bound c1.valid := Inv.valid H B1 hred1 herr1 hrec1 hN1 hC1 hs (hE _)
      split
      · exact hno _
      · rename_i h
        have hn : c1.note .raised = c1 := by unfold BCfg.note; rw [htt1]; rfl
        rw [hn, handle_bool _ hs]
        obtain ⟨g1, g2, -, g4⟩ := hC1.trial hs
        refine T.handle_inv H _ _ rfl ?_ hred1 herr1 hrec1 hN1 (fun _ _ => .inl ⟨_, _, _, h⟩) (fun h => absurd h hs)
          (fun _ => ⟨g1, ⟨_, g2⟩, .inl hE, g4⟩)
        refine B1.mono (le_refl _) (le_refl _) rfl rfl rfl ⟨⟨δ, ?_⟩, ?_, B1.base.two, B1.base.bnd, B1.base.chr⟩ B1.lvp B1.prov hred1
        · simp only [hst1, List.map_drop, hd]; exact hδ
        · have := B1.base.fits
          simp only [List.length_drop]; omega
      · unfold BCfg.accept; rw [htt1]; exact hval
      · rename_i h
        exact .inr (.inr (.inr (.inl ⟨rfl, B1.base.fits, _, _, _, h⟩)))
      · rw [htt1]; exact hval
      · split
        · exact hval
        · exact hno _
    · rw [h2]; exact hno v

theorem enter_spec {d : BCfg V} (B : BBase G Item Trans P.Raises bound d) {x : Int} (hx : d.chr = some x) (e : Nat) :
    ∃ c2 : BCfg V, P.enter d e = some (c2, if P.t.ctable.getD e (-1) = -1 then e + 1 else e) ∧ c2.stack = d.stack ∧ c2.chr = none ∧
      c2.errflag = d.errflag ∧ c2.recover = d.recover ∧ c2.log = d.log ∧ c2.path = d.path ∧ c2.red = d.red ∧ c2.errctx = d.errctx ∧
      c2.size = d.size ∧
      c2.saves = ⟨d.stack, d.errflag, if P.t.ctable.getD e (-1) = -1 then e + 1 else e, c2.lvp⟩ :: d.saves ∧
      c2.lvp < c2.queue.length ∧ c2.stream c2.lvp = d.proj.pending ∧ c2.stream (c2.lvp + 1) = d.stream d.lvp ∧
      (d.saves ≠ [] → c2.queue = d.queue ∧ c2.input = d.input) := by
  have hx0 := B.base.chr x hx
  have hpend : d.proj.pending = if x = 0 then [] else (x, d.lval) :: d.stream d.lvp := by
    unfold Cfg.pending
    rw [show d.proj.chr = d.chr from rfl, hx]
    rfl
  unfold BDriver.enter
  simp only
  by_cases hc : d.saves.isEmpty = true ∧ d.lvp = d.queue.length
  · rw [if_pos hc]
    obtain ⟨h1, h2⟩ := hc
    have hs : d.saves = [] := by simpa using h1
    have hdrop : d.queue.drop d.lvp = [] := List.drop_eq_nil_of_le (by omega)
    refine ⟨_, rfl, rfl, rfl, rfl, rfl, rfl, rfl, rfl, rfl, rfl, rfl, by simp [hx], ?_, ?_, fun h => absurd hs h⟩
    · rw [hpend]
      unfold BCfg.stream tokensOf
      simp only [hx, List.drop_zero, hdrop, List.cons_append, List.nil_append, List.takeWhile_cons]
      by_cases h0 : x = 0
      · subst h0; simp
      · rw [if_neg h0, if_pos (by simp; omega)]
    · unfold BCfg.stream
      simp [hx, hdrop]
  · rw [if_neg hc]
    have hor : d.saves ≠ [] ∨ d.lvp < d.queue.length := by
      by_cases h : d.saves = []
      · right
        have := B.lvp
        rcases Nat.lt_or_ge d.lvp d.queue.length with h' | h'
        · exact h'
        · exact absurd ⟨by simp [h], by omega⟩ hc
      · exact .inl h
    obtain ⟨p, hp1, hp2, hp3, hp4⟩ := B.prov x hx hor
    simp only [hx]
    obtain ⟨k, hk⟩ : ∃ k, d.lvp = k + 1 := ⟨d.lvp - 1, by omega⟩
    rw [hk] at hp1
    simp only [Nat.add_sub_cancel] at hp1
    rw [hk]
    refine ⟨_, rfl, rfl, rfl, rfl, rfl, rfl, rfl, rfl, rfl, rfl, rfl, (List.getElem?_eq_some_iff.1 hp1).1, ?_, rfl, fun _ => ⟨rfl, rfl⟩⟩
    rw [hpend, hk]
    unfold BCfg.stream tokensOf
    simp only [drop_of_get hp1, List.cons_append, List.takeWhile_cons]
    by_cases h0 : x = 0
    · rw [if_pos h0, if_neg]
      simp
      rw [h0] at hp3
      split at hp3 <;> omega
    · have hpx : p.1 = x := by
        split at hp3
        · omega
        · exact hp3.symm
      rw [if_neg h0, if_pos (by simp; omega), ← hpx, hp4]

theorem BTabSound.choose_inv (T : BTabSound G nsyms n Item Trans code P.t) (H : EOK P.t E) {fa : Nat → V → List V → V}
    (hA : ActsOK P fa E) (hf : f = fun r us => fa r (us.headD P.zero) us) {c : BCfg V}
    (B : BBase G Item Trans P.Raises bound c) (hred : c.red = none) (herr : c.errflag = 0) (hrec : c.recover = false) (hN : Quiet c.log)
    (hmax : P.max ≤ bound) {q : Nat} {u : V} {rest : List (Nat × V)} (hst : c.stack = (q, u) :: rest)
    (hd : P.t.defred.getD q 0 = 0) {x : Int} (hx : 0 ≤ x) {e ctry : Nat} (he : P.t.conflictOn q x = some e) {ch : Choice}
    (ha : P.t.AltAt e ctry ch) {l : List Int} (hrest : c.proj.rest = x :: l)
    (hlv : c.chr = none → c.lvp + 1 ≤ c.queue.length)
    (hl : x ≠ 0 → (c.stream (if c.chr = none then c.lvp + 1 else c.lvp)).map Prod.fst ++ [0] = l)
    (hC : Ctrl G Trans code f u0 input0 P.t E c (P.t.moveC (c.stack.map Prod.fst) c.proj.rest ch))
    (hG : c.saves = [] → c.chr = some x ∧ Good G Trans code f u0 input0 c.proj) :
    ROK G Item Trans code f u0 input0 P E bound (P.choose c x e ctry) := by
  have hq := B.base.top T.plain.A hst
  obtain ⟨g0, g1⟩ := ha.get
  have halt := T.alt hq hd hx he ha
  unfold BDriver.choose
  simp only
  rw [if_neg (by omega)]
  cases ch with
  | shift s =>
    obtain ⟨g1, g2⟩ := g1
    obtain ⟨X, hX, hXne, hcode, ht⟩ := halt
    rw [if_pos g1.symm, g2]
    have hxne : x ≠ 0 := by
      intro h0
      exact hXne (T.plain.inj X 0 hX T.plain.wf.ntok (by rw [← hcode, h0, T.plain.code0]))
    have hll := B.lvp
    have B' : BBase G Item Trans P.Raises bound { c with lvp := if c.chr = none then c.lvp + 1 else c.lvp } := by
      refine B.mono (le_refl _) (le_refl _) rfl rfl rfl ⟨B.base.spell, B.base.fits, B.base.two, B.base.bnd, B.base.chr⟩ ?_ ?_ hred
      · simp only
        split
        · rename_i h; exact hlv h
        · exact hll
      · intro y hy hor
        simp only at hy hor ⊢
        rw [if_neg (by rw [hy]; simp)] at hor ⊢
        exact B.prov y hy hor
    refine T.shift_inv B' hred herr hrec hN hmax (by exact hst) hX hXne hcode ht (hl hxne) ?_ ?_
    · have := hC.like (c' := { c with lvp := if c.chr = none then c.lvp + 1 else c.lvp }) B
        ⟨rfl, rfl, fun _ _ _ => rfl, fun _ => rfl, rfl, rfl⟩
      rw [hrest] at this
      exact this
    · intro h
      obtain ⟨h1, h2⟩ := hG h
      refine ⟨h1, ?_⟩
      have : (BCfg.proj ({ c with lvp := if c.chr = none then c.lvp + 1 else c.lvp } : BCfg V)) = c.proj := by
        rw [if_neg (by rw [h1]; simp)]
      rw [this]
      exact h2
  | reduce r =>
    obtain ⟨g1, g2⟩ := g1
    obtain ⟨k1, A, α, k2, k3⟩ := halt
    rw [if_neg (by exact fun h => g1 h.symm), g2]
    exact T.reduce_inv H hA hf B herr hrec hmax hst k2 k3 k1 hC (fun h => (hG h).2) hN

theorem BTabSound.step_inv (T : BTabSound G nsyms n Item Trans code P.t) (H : EOK P.t E) {fa : Nat → V → List V → V}
    (hA : ActsOK P fa E) (hf : f = fun r us => fa r (us.headD P.zero) us) (hmax : P.max ≤ bound) {c : BCfg V}
    (I : Inv G Item Trans code f u0 input0 P.t E P.Raises bound c) : ROK G Item Trans code f u0 input0 P E bound (P.step c) := by
  obtain ⟨B, herr, hrec, hC, hG, hN⟩ := I
  unfold BDriver.step
  cases hred : c.red with
  | some r =>
    obtain ⟨h1, h2, q, u, rest, hst, h0, A, α, hr, hi⟩ := B.red r hred
    refine T.reduce_inv H hA hf B herr hrec hmax hst hr hi h0 ?_ (fun h => absurd h h1) hN
    unfold BCfg.kk at hC
    rw [hred] at hC
    exact hC
  | none =>
    rw [back_kk hred] at hC
    obtain ⟨q, u, rest, hst⟩ := B.stack_ne
    have hq := B.base.top T.plain.A hst
    simp only [hst]
    rw [if_neg (by rw [hrec]; simp)]
    have hss : c.stack.map Prod.fst = q :: rest.map Prod.fst := by rw [hst]; rfl
    by_cases hdr : P.t.defred.getD q 0 ≠ 0
    · rw [if_pos hdr]
      obtain ⟨A, α, hr, hi⟩ := T.plain.defred q hq hdr
      refine T.reduce_inv H hA hf B herr hrec hmax hst hr hi (Nat.pos_of_ne_zero hdr) (hC.step H ?_) hG hN
      unfold BCfg.ctl
      rw [hss]
      simp only [BTables.stepC]
      rw [if_pos hdr]
    · rw [if_neg hdr]
      have hd0 : P.t.defred.getD q 0 = 0 := by simpa using hdr
      -- after reading
      have BD := B.read hred
      obtain ⟨f1, f2, f3, f4, f5, f6, f7, f8, f9, f10, -⟩ := bread_fields c
      have hlike := Like.read c
      have hrp := read_proj c B.lvp
      obtain ⟨hrr, x, l, hx1, hx2, hx3, -⟩ := read_rest c.proj
      rw [← hrp] at hx1 hrr hx3
      have hCD := hC.like B hlike
      have hGD : c.read.saves = [] → Good G Trans code f u0 input0 c.read.proj := by
        intro h
        rw [hrp]
        exact (hG (by rw [← f6]; exact h)).read
      rw [← hrr] at hx2
      have hctl : c.ctl = .run (q :: rest.map Prod.fst) c.read.proj.rest := by
        unfold BCfg.ctl
        rw [hss, hrr]
      rw [hctl] at hCD
      have hstD : c.read.stack = (q, u) :: rest := by rw [f1, hst]
      have herrD : c.read.errflag = 0 := by rw [f2, herr]
      have hrecD : c.read.recover = false := by rw [f4, hrec]
      have hredD : c.read.red = none := by rw [f9, hred]
      have hND : Quiet c.read.log := by rw [f5]; exact hN
      clear hG hC hN B hlike hrp hrr hctl hst hss herr hrec hred f1 f2 f3 f4 f5 f6 f7 f8 f9 f10
      generalize c.read = d at *
      have hchr : d.chr = some x := hx1
      have hx0 : 0 ≤ x := BD.base.chr x hchr
      have hsd : d.stack.map Prod.fst = q :: rest.map Prod.fst := by rw [hstD]; rfl
      have hstr : x ≠ 0 → l = (d.stream d.lvp).map Prod.fst ++ [0] := hx3
      rw [hchr]
      simp only [Option.getD_some]
      cases hcf : P.t.conflictOn q x with
      | some e =>
        have hconf : P.t.stepC (.run (q :: rest.map Prod.fst) d.proj.rest) = .conf e := by
          simp only [BTables.stepC]
          rw [if_neg hdr, hx2]
          simp only [List.headD_cons, hcf]
        simp only
        cases hp : d.path with
        | cons p prest =>
          have hs : d.saves = [] := BD.one.resolve_right (by rw [hp]; simp)
          obtain ⟨ctl, hctl, hpt⟩ := hCD.normal hs
          rw [hp] at hpt
          simp only
          cases hpt with
          | @cons _ _ _ k1 hdet hch hpl =>
            have heq := hdet.eq_of_conf hconf
            simp only [Ctl.run.injEq] at heq
            obtain ⟨e1, e2⟩ := heq
            have hhead : (p.stack.map Prod.fst).head? = some q := by rw [← hctl p, e1]; rfl
            rw [if_pos hhead]
            obtain ⟨e', ch, a1, a2, rfl⟩ := hch.ex
            rw [e1, e2, hconf] at a1
            cases a1
            have BD' : BBase G Item Trans P.Raises bound { d with path := prest } := by
              refine ⟨⟨BD.base.spell, BD.base.fits, BD.base.two, BD.base.bnd, BD.base.chr⟩, BD.lvp, BD.prov, ?_, ?_, .inl hs, ?_, BD.noctx, ?_⟩
              · intro s h; rw [show BCfg.saves ({ d with path := prest } : BCfg V) = d.saves from rfl, hs] at h; cases h
              · intro s h
                have := BD.path s (by rw [hp]; simp; exact .inr h)
                exact ⟨this.spell, this.fits, this.lex⟩
              · exact BD.ctx
              · intro r h; rw [show BCfg.red ({ d with path := prest } : BCfg V) = d.red from rfl, hredD] at h; cases h
            refine T.choose_inv H hA hf BD' hredD herrD hrecD hND hmax (by exact hstD) hd0 hx0 hcf a2 (by exact hx2) ?_ ?_ ?_ ?_
            · intro h; exact absurd h (by simp [hchr])
            · intro h
              rw [if_neg (by simp [hchr])]
              exact (hstr h).symm
            · refine ⟨fun h => absurd hs h, fun _ => ⟨ctl, hctl, ?_⟩⟩
              rw [e1, e2] at hpl
              show PathTo P.t ctl Saved.ctry E prest (P.t.moveC (d.stack.map Prod.fst) d.proj.rest ch)
              rw [hsd]
              exact hpl
            · intro _
              exact ⟨hchr, hGD hs⟩
        | nil =>
          simp only
          obtain ⟨c2, hent, g1, g2, g3, g4, g5, g6, g7, g8, g9, g10, g11, g12, g13, g14⟩ := enter_spec (P := P) BD hchr e
          rw [hent]
          simp only
          obtain ⟨ch, ha, hfirst⟩ := T.first hq hd0 hx0 hcf
          generalize hct : (if P.t.ctable.getD e (-1) = -1 then e + 1 else e) = ctry at *
          have hr2 : c2.proj.rest = d.proj.rest := by
            unfold Cfg.rest
            rw [← g12]
            unfold Cfg.pending
            rw [show c2.proj.chr = c2.chr from rfl, g2]
            rfl
          have hss2 : c2.stack.map Prod.fst = q :: rest.map Prod.fst := by rw [g1]; exact hsd
          have hsN : c2.sctl ⟨d.stack, d.errflag, ctry, c2.lvp⟩ = (q :: rest.map Prod.fst, d.proj.rest) := by
            unfold BCfg.sctl
            simp only
            rw [g12, hsd]
            rfl
          have hsO : ∀ s ∈ d.saves, c2.sctl s = d.sctl s := by
            intro s hs
            have hne : d.saves ≠ [] := by intro h; rw [h] at hs; cases hs
            unfold BCfg.sctl BCfg.stream
            rw [(g14 hne).1, (g14 hne).2]
          have hchose : Chose P.t (q :: rest.map Prod.fst) d.proj.rest ctry (P.t.moveC (q :: rest.map Prod.fst) d.proj.rest ch) :=
            ⟨e, ch, hconf, ha, rfl⟩
          have B2 : BBase G Item Trans P.Raises bound c2 := by
            refine ⟨⟨by rw [g1]; exact BD.base.spell, by rw [g1, g9]; exact BD.base.fits, by rw [g9]; exact BD.base.two,
              by rw [g9]; exact BD.base.bnd, by rw [g2]; simp⟩, by omega, by rw [g2]; simp, ?_, ?_, .inr (by rw [g6, hp]), ?_, ?_, ?_⟩
            · intro s hs
              rw [g10] at hs
              simp only [List.mem_cons] at hs
              rcases hs with rfl | hs
              · exact ⟨BD.base.spell, by rw [g9]; exact BD.base.fits, by simp only; omega⟩
              · have hne : d.saves ≠ [] := by intro h; rw [h] at hs; cases hs
                exact (BD.saves s hs).mono (by rw [g9]) (by rw [(g14 hne).1])
            · intro s hs; rw [g6, hp] at hs; cases hs
            · intro y hy
              rw [g8] at hy
              have hne : d.saves ≠ [] := by intro h; rw [BD.noctx h] at hy; cases hy
              obtain ⟨k1, k2, k3, k4⟩ := BD.ctx y hy
              exact ⟨k1, by rw [g9]; exact k2, k3, by rw [(g14 hne).1]; exact k4⟩
            · intro h; rw [g10] at h; cases h
            · intro r h; rw [g7, hredD] at h; cases h
          refine T.choose_inv H hA hf B2 (by rw [g7]; exact hredD) (by rw [g3]; exact herrD) (by rw [g4]; exact hrecD)
            (by rw [g5]; exact hND) hmax (by rw [g1]; exact hstD) hd0 hx0 hcf ha (by rw [hr2]; exact hx2) (fun _ => g11) ?_ ?_ ?_
          · intro h
            rw [if_pos g2, g13]
            exact (hstr h).symm
          · rw [hss2, hr2]
            refine ⟨fun _ => ⟨by rw [g6, hp], ?_, ?_, ?_⟩, fun h => by rw [g10] at h; cases h⟩
            · rw [g10]
              by_cases hs : d.saves = []
              · rw [hs]
                exact .one (by rw [hsN]; exact hchose) (.refl _)
              · obtain ⟨-, h2, -⟩ := hCD.trial hs
                cases hds : d.saves with
                | nil => exact absurd hds hs
                | cons s' l' =>
                  rw [hds] at h2 hsO
                  refine .cons (by rw [hsN]; exact hchose) (.refl _) ?_
                  rw [hsN]
                  exact h2.congr hsO
            · have hEd : (∀ k, E k) ∨ E (.run (q :: rest.map Prod.fst) d.proj.rest) ∨ Hope P.t E d d.saves := by
                by_cases hs : d.saves = []
                · obtain ⟨ctl, -, h2⟩ := hCD.normal hs
                  exact .inr (.inl (h2.reach H))
                · exact (hCD.trial hs).2.2.1
              rcases hEd with h | h | ⟨s', h1, ctry', k', h2, h3, h4⟩
              · exact .inl h
              · rcases H.conf _ _ _ hconf h with h | ⟨ctry', k', h2, h3⟩
                · exact .inl h
                · right
                  obtain ⟨e', ch', c1, c2', -⟩ := h2.ex
                  rw [hconf] at c1
                  cases c1
                  rcases Nat.lt_or_ge ctry ctry' with h5 | h5
                  · right
                    rw [g10]
                    exact ⟨_, List.mem_cons_self, ctry', k', h5, by rw [hsN]; exact h2, h3⟩
                  · have := hfirst _ _ c2'
                    have : ctry' = ctry := by omega
                    subst this
                    left
                    rw [hchose.unique h2]
                    exact h3
              · right; right
                rw [g10]
                exact ⟨s', by simp [h1], ctry', k', h2, by rw [hsO s' h1]; exact h3, h4⟩
            · by_cases hs : d.saves = []
              · refine ⟨_, by rw [g10, hs]; rfl, ?_⟩
                refine (hGD hs).congr rfl ?_ ?_ ?_ ?_
                · exact g3
                · exact g4
                · exact g5
                · exact g12
              · obtain ⟨-, -, -, s0, h3, h4⟩ := hCD.trial hs
                refine ⟨s0, ?_, ?_⟩
                · rw [g10]
                  cases hds : d.saves with
                  | nil => exact absurd hds hs
                  | cons s' l' => rw [hds] at h3; rw [List.getLast?_cons_cons]; exact h3
                · refine h4.congr rfl ?_ ?_ ?_ ?_
                  · exact g3
                  · exact g4
                  · exact g5
                  · unfold BCfg.back Cfg.pending
                    simp only
                    rw [(g14 hs).1, (g14 hs).2]
          · intro h; rw [g10] at h; cases h
      | none =>
        simp only
        cases hsh : P.t.shiftOn q x with
        | some q' =>
          obtain ⟨X, hX, hXne, hcode, ht⟩ := T.plain.shift q hq _ _ hx0 hsh
          have hxne : x ≠ 0 := by
            intro h0
            exact hXne (T.plain.inj X 0 hX T.plain.wf.ntok (by rw [← hcode, h0, T.plain.code0]))
          refine T.shift_inv BD hredD herrD hrecD hND hmax hstD hX hXne hcode ht (hstr hxne).symm ?_ (fun h => ⟨hchr, hGD h⟩)
          refine hCD.step H ?_
          simp only [BTables.stepC]
          rw [if_neg hdr, hx2, hsd]
          simp only [List.headD_cons, hcf, hsh, List.tail_cons]
        | none =>
          simp only
          cases hre : P.t.reduceOn q x with
          | some r =>
            obtain ⟨h0, A, α, hr, hi⟩ := T.plain.reduce q hq _ _ hx0 hre
            refine T.reduce_inv H hA hf BD herrD hrecD hmax hstD hr hi h0 (hCD.step H ?_) hGD hND
            simp only [BTables.stepC]
            rw [if_neg hdr, hx2, hsd]
            simp only [List.headD_cons, hcf, hsh, hre]
          | none =>
            simp only
            rw [if_pos herrD]
            have herrC : P.t.stepC (.run (q :: rest.map Prod.fst) d.proj.rest) = .err := by
              simp only [BTables.stepC]
              rw [if_neg hdr, hx2]
              simp only [List.headD_cons, hcf, hsh, hre]
            refine T.handle_inv H _ d rfl BD hredD herrD hrecD hND ?_ ?_ ?_
            · intro hs _
              exact .inr (BD.prov x hchr (.inl hs)).choose_spec.2.1
            · intro hs
              obtain ⟨ctl, -, h2⟩ := hCD.normal hs
              rcases H.dich with h | h
              · exact h
              · exact absurd (h2.reach H) (h _ herrC)
            · intro hs
              obtain ⟨h1, h2, h3, h4⟩ := hCD.trial hs
              refine ⟨h1, ⟨_, h2⟩, ?_, h4⟩
              rcases h3 with h | h | h
              · exact .inl h
              · rcases H.dich with h' | h'
                · exact .inl h'
                · exact absurd h (h' _ herrC)
              · exact .inr h

end Verif.Byacc
