import Verif.Proofs.BtRun
import Verif.Proofs.BtPoss
/-
The tables for backtracking suit the parser with backtracking, and contain every licensed action.
-/
set_option autoImplicit false
namespace Verif.Byacc
open Spec Relation

section
variable {g : Gram} {G : CFG} {sp : SymPrec} {lemon : Bool} {e1 e2 : Int} {o : Generated} {sv : List Int} {t : BTables}

/-- a reduction that may be done -/
theorem GenB.red (K : GenB g G sp lemon e1 e2 o) {q X r : Nat} (h : Poss g G o q X (.reduce r)) :
    0 < r ∧ ∃ A α, G.rules[r]? = some (A, α) ∧ AItem g G o.aut q r α.length := by
  obtain ⟨⟨d, hi, hcm⟩, -⟩ := h
  have hr0 : r ≠ 0 := by
    rintro rfl
    exact no_accept_reduce K.A.ctx hi hcm
  obtain ⟨A, α, hr, rfl⟩ := hcm
  exact ⟨Nat.pos_of_ne_zero hr0, A, α, hr, hi⟩

theorem bTabSound (K : GenB g G sp lemon e1 e2 o) (hsv : SymVals g.ntokens g.nsyms sv) (h2 : 2 ≤ g.ntokens)
    (T : BTablesOK g G sv o t) :
    BTabSound G g.nsyms o.aut.nstates (AItem g G o.aut) (ShiftsTo o.aut) (fun X => sv.getD X 0) t := by
  have hnt := K.A.ctx.packs.ntok
  have hfin : ShiftsTo o.aut 0 (G.ntok + 1) t.final := by
    rw [T.final, K.final, K.A.parser, ← hnt]
    exact findFinalState_spec K.A.ctx
  have hred : ∀ q, q < o.aut.nstates → ∀ a ∈ o.parser.rows.getD q [], a.code = .REDUCE →
      ∃ r, 0 < r ∧ a.number = r + 2 ∧ ∃ A α, G.rules[r]? = some (A, α) ∧ AItem g G o.aut q r α.length := by
    intro q hq a ha hc
    have hp := (K.poss_of_row hq ha).1
    unfold Action.choice at hp
    rw [if_neg (by rw [hc]; simp)] at hp
    obtain ⟨h0, A, α, hr, hi⟩ := K.red hp
    exact ⟨_, h0, by omega, A, α, hr, hi⟩
  refine ⟨⟨K.A.ctx.A, K.A.ctx.wf, ?_, ?_, ?_, ?_, ?_, ?_, ?_, hfin, ?_, hsv.eof, ?_, ?_⟩, ?_⟩
  · intro s X h
    have := (K.A.ctx.aut.target _ _ _ h).2.2.1
    omega
  · intro q hq x y hx h
    obtain ⟨a, ha, ⟨h0, hc⟩, e1, e2⟩ := (T.shift q hq x y hx).1 h
    have hp := (K.poss_of_row hq ha).1
    unfold Action.choice at hp
    rw [if_pos hc] at hp
    refine ⟨a.symbol, ?_, ((K.A.ctx.A.ex q a.symbol hq).1 ⟨_, hp⟩).1, e1, by rw [e2]; exact hp⟩
    have := (K.rowOK q hq).sym a ha
    omega
  · intro q hq x r hx h
    obtain ⟨a, ha, ⟨h0, hc, -⟩, e1, e2⟩ := (T.reduce q hq x r hx).1 h
    obtain ⟨r', h1, h2, h3⟩ := hred q hq a ha hc
    have : r' = r := by omega
    subst this
    exact ⟨h1, h3⟩
  · intro q hq hne
    rcases T.defred q hq with ⟨h1, h2⟩ | ⟨r, h0, h1, h2⟩
    · rw [List.getD_eq_getElem?_getD, h2] at hne
      exact absurd rfl hne
    · have hd : t.defred.getD q 0 = r := by rw [List.getD_eq_getElem?_getD, h2]; rfl
      rw [hd]
      obtain ⟨k1, a, ha, hl, -⟩ := (K.defred hq (show 0 < r + 2 by omega)).1 h1
      obtain ⟨c1, c2⟩ := k1 a ha hl
      obtain ⟨r', h1, h2, h3⟩ := hred q hq a ha c1
      have : r' = r := by omega
      subst this
      exact h3
  · intro s A q hA hs
    rw [← hnt] at hA ⊢
    exact T.goto s A q hA hs
  · intro r A α hr
    rw [List.getD_eq_getElem?_getD, T.lhs r A α hr, ← hnt]; rfl
  · intro r A α hr
    rw [List.getD_eq_getElem?_getD, T.len r A α hr]; rfl
  · rw [T.errcode]
    exact hsv.nonneg 1 (by omega)
  · intro X hX
    exact hsv.nonneg X (by omega)
  · intro X Y hX hY
    exact hsv.inj X Y (by omega) (by omega)
  · intro q hq hd x e hx he
    obtain ⟨X, hX, hxX, sh, rules, hl, hne, ⟨s1, s2, s3, s4⟩⟩ := T.lists K hq hd hx he
    refine ⟨X, by omega, hxX, sh, rules, hl, s2, hne, ?_, ?_⟩
    · intro s hs
      obtain ⟨a, ha, rfl, -, hc⟩ := (s1 s).2 hs
      have hp := (K.poss_of_row hq ha).1
      rw [hc] at hp
      exact ⟨((K.A.ctx.A.ex q a.symbol hq).1 ⟨_, hp⟩).1, hp⟩
    · intro r hr
      obtain ⟨a, ha, rfl, -, hc⟩ := (s3 r).2 hr
      have hp := (K.poss_of_row hq ha).1
      rw [hc] at hp
      exact K.red hp

end

/-! ### the goals -/

theorem eok_true (t : BTables) : EOK t (fun _ => True) :=
  ⟨trivial, fun _ _ _ => ⟨fun _ => trivial, fun _ => trivial⟩, fun _ _ _ _ _ => .inl fun _ => trivial, fun _ _ _ _ _ _ => trivial,
    .inl fun _ => trivial⟩

theorem eok_win (t : BTables) : EOK t (Win t) := by
  refine ⟨.acc, fun k k' h => ⟨fun hw => hw.step h, fun hw => .next h hw⟩, ?_, fun ss ts ctry k' h hw => .conf ctry h hw,
    .inr fun k h hw => hw.not_err h⟩
  intro ss ts e h hw
  right
  cases hw with
  | next h' _ => rw [h'] at h; cases h
  | conf ctry h' hw' => exact ⟨ctry, _, h', hw'⟩

/-! ### the log only grows -/

section
variable {V : Type} {P : BDriver V}

def BRes.cfg : BRes V → BCfg V
  | .next c => c
  | .done _ c => c

theorem note_log (c : BCfg V) (e : Ev) : c.log <:+ (c.note e).log := by
  unfold BCfg.note
  split
  · exact List.suffix_refl _
  · exact List.suffix_cons _ _

theorem bread_log (c : BCfg V) : c.read.log = c.log := (bread_fields c).2.2.2.2.1

theorem lift_log (c : BCfg V) (r : Res V) (h : c.log <:+ r.cfg.log) : c.log <:+ (c.lift r).cfg.log := by
  cases r with
  | next d =>
    simp only [BCfg.lift, BRes.cfg]
    split
    · exact List.suffix_refl _
    · exact h
  | done _ d =>
    simp only [BCfg.lift, BRes.cfg]
    split
    · exact List.suffix_refl _
    · exact h

theorem binrecovery_log (c : BCfg V) : c.log <:+ c.inrecovery.cfg.log := lift_log c _ (inrecovery_log _)

theorem bvalid_log (c : BCfg V) : c.valid.cfg.log = c.log := by
  unfold BCfg.valid
  split
  · rfl
  · split <;> rfl

theorem baccept_log (c : BCfg V) : c.accept.cfg.log = c.log := by
  unfold BCfg.accept
  split
  · exact bvalid_log c
  · rfl

theorem handle_log : ∀ (l : List (Saved V)) (b : Bool) (c : BCfg V) (L : List Ev), L <:+ c.log → L <:+ (P.handle l b c).cfg.log
  | [], b, c, L, h => by
    unfold BDriver.handle
    split
    · exact h.trans ((List.suffix_cons Ev.report c.log).trans (binrecovery_log { c with log := .report :: c.log }))
    · exact h.trans (binrecovery_log c)
  | s :: rest, b, c, L, h => by
    have key : ∀ (d : BCfg V), (Ev.report :: c.log) <:+ d.log → L <:+ d.inrecovery.cfg.log := fun d hd =>
      h.trans ((List.suffix_cons Ev.report c.log).trans (hd.trans (binrecovery_log d)))
    rw [BDriver.handle.eq_def]
    simp only
    split
    · exact h
    · cases rest with
      | cons s' l =>
        simp only
        exact handle_log (s' :: l) true _ L h
      | nil =>
        simp only
        split
        · exact h
        · split
          · exact h
          · exact key _ (List.suffix_refl _)

theorem bfinish_log (c : BCfg V) (m : Nat) (yym : Int) (v : V) : c.log <:+ (P.finish c m yym v).cfg.log := by
  unfold BDriver.finish
  split
  · exact List.suffix_refl _
  · rename_i s u below hd
    simp only
    split
    · have hw := write_log ({ c.toCfg with stack := (s, u) :: below } : Cfg V) P.t.final v
      split
      · rename_i h d hd'
        rw [hd'] at hw
        show c.log <:+ d.log
        rw [show d.log = c.log from hw]
      · rename_i d hd'
        rw [hd'] at hw
        have hw' : d.log = c.log := hw
        split
        · rw [baccept_log, bread_log]
          show c.log <:+ d.log
          rw [hw']
        · show c.log <:+ (BCfg.read _).log
          rw [bread_log]
          show c.log <:+ d.log
          rw [hw']
    · refine lift_log { c with stack := (s, u) :: below } _ ?_
      rw [push_log]

theorem breduce_log (c : BCfg V) (r : Nat) : c.log <:+ (P.reduce c r).cfg.log := by
  have h0 := note_log c (.reduce r)
  unfold BDriver.reduce
  simp only
  generalize hc1 : ({ c.note (.reduce r) with red := none } : BCfg V) = c1
  have h1 : c.log <:+ c1.log := by rw [← hc1]; exact h0
  split
  · exact h1
  · split
    · exact h1.trans (bfinish_log c1 _ _ _)
    · exact handle_log _ _ _ _ (h1.trans (note_log c1 .raised))
    · rw [baccept_log]; exact h1
    · exact h1
    · split
      · rw [bvalid_log]; exact h1
      · exact h1.trans (bfinish_log c1 _ _ _)
    · split
      · rw [bvalid_log]; exact h1
      · exact h1.trans (bfinish_log c1 _ _ _)

theorem choose_log (c : BCfg V) (x : Int) (e ctry : Nat) : c.log <:+ (P.choose c x e ctry).cfg.log := by
  unfold BDriver.choose
  simp only
  split
  · exact List.suffix_refl _
  · split
    · refine lift_log { c with lvp := if c.chr = none then c.lvp + 1 else c.lvp } _ ?_
      rw [push_log]
      exact List.suffix_cons _ _
    · exact breduce_log _ _

theorem enter_log {c c' : BCfg V} {e ctry : Nat} (h : P.enter c e = some (c', ctry)) : c'.log = c.log := by
  unfold BDriver.enter at h
  simp only at h
  generalize hc1 : (if c.saves.isEmpty ∧ c.lvp = c.queue.length then
      ({ c with lvp := 0, chr := none, queue := match c.chr with | some x => [(x, c.lval)] | none => [] } : BCfg V)
    else c) = c1 at h
  have h1 : c1.log = c.log := by
    rw [← hc1]
    split <;> rfl
  split at h
  · simp only [Option.some.injEq, Prod.mk.injEq] at h
    rw [← h.1]; exact h1
  · split at h
    · cases h
    · simp only [Option.some.injEq, Prod.mk.injEq] at h
      rw [← h.1]; exact h1

theorem bstep_log (c : BCfg V) : c.log <:+ (P.step c).cfg.log := by
  unfold BDriver.step
  split
  · exact breduce_log _ _
  · split
    · exact List.suffix_refl _
    · split
      · exact lift_log c _ (step_log _)
      · split
        · exact breduce_log _ _
        · simp only
          generalize hc1 : c.read = c1
          have h1 : c1.log = c.log := by rw [← hc1]; exact bread_log c
          rw [← h1]
          split
          · split
            · rename_i rest _
              split
              · exact choose_log ({ c1 with path := rest } : BCfg V) _ _ _
              · exact List.suffix_refl _
            · split
              · exact List.suffix_refl _
              · rename_i he
                rw [← enter_log he]
                exact choose_log _ _ _ _
          · split
            · refine lift_log c1 _ ?_
              rw [push_log]
              exact List.suffix_cons _ _
            · split
              · exact breduce_log _ _
              · split
                · exact handle_log _ _ _ _ (List.suffix_refl _)
                · exact binrecovery_log _

/-- an invariant of every step -/
theorem brun_inv (Inv : BCfg V → Prop) (hstep : ∀ c c', Inv c → P.step c = .next c' → Inv c') :
    ∀ n c, Inv c → (∀ c', P.run n c = .next c' → Inv c') ∧
      (∀ h c', P.run n c = .done h c' → ∃ c0, Inv c0 ∧ P.step c0 = .done h c') := by
  intro n
  induction n with
  | zero =>
    intro c hc
    refine ⟨?_, ?_⟩
    · intro c' e; simp only [BDriver.run, BRes.next.injEq] at e; subst e; exact hc
    · intro h c' e; simp [BDriver.run] at e
  | succ n ih =>
    intro c hc
    unfold BDriver.run
    cases hs : P.step c with
    | next c1 => exact ih c1 (hstep c c1 hc hs)
    | done h1 c1 =>
      refine ⟨by simp, ?_⟩
      intro h c' e
      simp only [BRes.done.injEq] at e
      obtain ⟨rfl, rfl⟩ := e
      exact ⟨c, hc, hs⟩

end

section
variable {V : Type} {P : BDriver V} {G : CFG} {nsyms n : Nat} {Item : Nat → Nat → Nat → Prop} {Trans : Nat → Nat → Nat → Prop}
  {code : Nat → Int} {bound : Nat} {f : Nat → List V → V} {E : Ctl → Prop}

/-- at the start -/
theorem start_inv (size : Nat) (u : V) (input queue : List (Int × V)) (lvp : Nat) (hl : lvp ≤ queue.length)
    (h2 : 2 ≤ (P.plain.start size u input).size) (hb : (P.plain.start size u input).size ≤ bound)
    (hE : E (.run [0] ((tokensOf (queue.drop lvp ++ input)).map Prod.fst ++ [0]))) :
    Inv G Item Trans code f u (queue.drop lvp ++ input) P.t E P.Raises bound (P.start size u input queue lvp) := by
  refine ⟨⟨start_base P.plain size u input bound h2 hb, hl, ?_, ?_, ?_, .inl rfl, ?_, fun _ => rfl, ?_⟩, rfl, rfl, ?_, ?_, ?_⟩
  · intro x hx; simp [BDriver.start, Driver.start] at hx
  · intro s hs; simp [BDriver.start] at hs
  · intro s hs; simp [BDriver.start] at hs
  · intro s hs; simp [BDriver.start] at hs
  · intro s hs; simp [BDriver.start] at hs
  · refine ⟨fun h => absurd rfl h, fun _ => ⟨fun s => (s.stack.map Prod.fst, []), fun _ => rfl, ?_⟩⟩
    exact .nil hE
  · intro _
    exact ⟨rfl, rfl, [], [], [], [], .nil, rfl, .nil, rfl, rfl, rfl⟩
  · simp [BDriver.start, Driver.start, Quiet]

/-- what a parse with backtracking may come to -/
theorem BTabSound.run_ok (T : BTabSound G nsyms n Item Trans code P.t) (H : EOK P.t E) {fa : Nat → V → List V → V}
    (hA : ActsOK P fa E) (size : Nat) (u : V) (input queue : List (Int × V)) (lvp : Nat) (hl : lvp ≤ queue.length)
    (hsz : size = 0 ∨ 2 ≤ size) (hinit : 2 ≤ P.init)
    (hE : E (.run [0] ((tokensOf (queue.drop lvp ++ input)).map Prod.fst ++ [0]))) (k : Nat) :
    (∀ c, P.run k (P.start size u input queue lvp) = .next c → ((∀ k, E k) ∧ ¬ Quiet c.log) ∨
      (Quiet c.log ∧ c.stack.length ≤ c.size)) ∧
    (∀ h c, P.run k (P.start size u input queue lvp) = .done h c → ((∀ k, E k) ∧ ¬ Quiet c.log) ∨
      ((h = .std .accept ∧ Quiet c.log ∧ c.stack.length ≤ c.size ∧
        GoodRes G Trans code (fun r us => fa r (us.headD P.zero) us) u (queue.drop lvp ++ input) (.done .accept c.proj)) ∨
      (h = .std .overflow ∧ c.stack.length = c.size ∧ P.max ≤ c.size) ∨
      (h = .std .abort ∧ c.stack.length ≤ c.size ∧ ∃ r d st, P.act true r d st = .yyabort) ∨
      (h = .badRead ∧ c.stack.length ≤ c.size ∧ P.Raises))) := by
  have h2 : 2 ≤ (P.plain.start size u input).size := by
    simp only [Driver.start, BDriver.plain]; split <;> omega
  let B := max (P.plain.start size u input).size P.max
  let I : BCfg V → Prop := fun c => ((∀ k, E k) ∧ ¬ Quiet c.log) ∨
    Inv G Item Trans code (fun r us => fa r (us.headD P.zero) us) u (queue.drop lvp ++ input) P.t E P.Raises B c
  have h0 : I (P.start size u input queue lvp) := .inr (start_inv size u input queue lvp hl h2 (Nat.le_max_left _ _) hE)
  have hstep : ∀ c c', I c → P.step c = .next c' → I c' := by
    rintro c c' (⟨ha, hr⟩ | hi) hs
    · have := bstep_log (P := P) c
      rw [hs] at this
      exact .inl ⟨ha, fun hq => hr (hq.mono this)⟩
    · have := T.step_inv H hA rfl (Nat.le_max_right _ _) hi
      rw [hs] at this
      exact this
  obtain ⟨r1, r2⟩ := brun_inv I hstep k _ h0
  refine ⟨?_, ?_⟩
  · intro c hc
    rcases r1 c hc with h | h
    · exact .inl h
    · exact .inr ⟨h.quiet, h.base.base.fits⟩
  · intro h c hc
    obtain ⟨c0, hc0, hs⟩ := r2 h c hc
    rcases hc0 with ⟨ha, hr⟩ | hi
    · have := bstep_log (P := P) c0
      rw [hs] at this
      exact .inl ⟨ha, fun hq => hr (hq.mono this)⟩
    · have := T.step_inv H hA rfl (Nat.le_max_right _ _) hi
      rw [hs] at this
      exact this

end

/-! ### completeness -/

section
variable {G : CFG} {nsyms n : Nat} {Item Trans : _} {code : Nat → Int} {t : BTables}

/-- Tables that contain every action licensed by the grammar, alone or in a list. -/
structure BTabComplete (G : CFG) (Trans : Nat → Nat → Nat → Prop) (code : Nat → Int) (t : BTables) : Prop where
  shift : ∀ (q X y : Nat) (γ : List Nat), Path Trans 0 γ q → X < G.ntok → Trans q X y → t.defred.getD q 0 = 0 ∧
    ((t.conflictOn q (code X) = none ∧ t.shiftOn q (code X) = some y) ∨
      ∃ e ctry, t.conflictOn q (code X) = some e ∧ t.AltAt e ctry (.shift y))
  reduce : ∀ (q r A : Nat) (α γ z : List Nat) (X : Nat), Path Trans 0 γ q → G.rules[r]? = some (A, α) →
    Ctx G byaccInit γ r α.length z → Fst G z X → 0 < r ∧ (t.defred.getD q 0 = r ∨
      (t.defred.getD q 0 = 0 ∧
        ((t.conflictOn q (code X) = none ∧ t.shiftOn q (code X) = none ∧ t.reduceOn q (code X) = some r) ∨
          ∃ e ctry, t.conflictOn q (code X) = some e ∧ t.AltAt e ctry (.reduce r))))

/-- Licensed moves to the goal are a way to win. -/
theorem lic_win (T : BTabSound G nsyms n Item Trans code t) (TC : BTabComplete G Trans code t) {rs : List Nat}
    {a b : List Nat × List Nat} (h : Lic G byaccInit rs a b) (hb : b = ([G.ntok + 1], [0])) :
    ∀ ss, Spell Trans a.1.reverse ss → (∀ X ∈ a.2, X < G.ntok) → (∀ pre v, a.2 = pre ++ 0 :: v → v = []) →
      (a.1 = [G.ntok + 1] → a.2.head? ≠ some 0) → Win t (.run ss (a.2.map code)) := by
  induction h with
  | refl c =>
    intro ss _ _ _ hg
    subst hb
    exact absurd rfl (hg rfl)
  | @shift rs γ v z α r d A X c hz hr hX hlt h ih =>
    intro ss hs htok hend hg
    simp only at hs htok hend hg ⊢
    cases ss with
    | nil => exact absurd rfl hs.ne_nil
    | cons q tl =>
    have hpath : Path Trans 0 γ q := by simpa using hs.path rfl
    have hq := T.plain.A.path_lt T.plain.A.pos hpath
    have hX0 : X ≠ 0 := by
      rintro rfl
      have hv : v = [] := hend [] v rfl
      subst hv
      have := h.nil_end
      rw [hb] at this
      simp at this
    obtain ⟨y, hy⟩ := (T.plain.A.ex q X hq).2 ⟨hX0, r, d, (T.plain.A.item_valid hpath r d).2 ⟨z, hz⟩, A, α, hr, hX⟩
    have hw := ih hb (y :: q :: tl) (by
      simp only [List.reverse_append, List.reverse_cons, List.reverse_nil, List.nil_append, List.cons_append]
      exact .cons hs hy) (fun Y hY => htok Y (by simp only at hY; simp [hY])) (fun pre v' e => hend (X :: pre) v' (by
        simp only at e; rw [e]; rfl)) (by
      intro e
      exfalso
      simp only at e
      have hγ : γ = [] := by
        have := congrArg List.length e
        simp only [List.length_append, List.length_cons, List.length_nil] at this
        exact List.eq_nil_of_length_eq_zero (by omega)
      subst hγ
      simp only [List.nil_append, List.cons.injEq, and_true] at e
      omega)
    simp only at hw
    obtain ⟨hdef, hc⟩ := TC.shift q X y γ hpath hlt hy
    rcases hc with ⟨c1, c2⟩ | ⟨e, ctry, c1, c2⟩
    · refine .next ?_ hw
      simp only [BTables.stepC, hdef, ne_eq, not_true_eq_false, if_false, List.map_cons, List.headD_cons, c1, c2, List.tail_cons]
    · refine .conf ctry ⟨e, .shift y, ?_, c2, rfl⟩ hw
      simp only [BTables.stepC, hdef, ne_eq, not_true_eq_false, if_false, List.map_cons, List.headD_cons, c1]
  | @reduce rs δ v z α r A X c hz hr hf h ih =>
    intro ss hs htok hend hg
    simp only at hs htok hend hg ⊢
    cases ss with
    | nil => exact absurd rfl hs.ne_nil
    | cons q tl =>
    have hpath : Path Trans 0 (δ ++ α) q := by simpa using hs.path rfl
    have hi : Item q r α.length := (T.plain.A.item_valid hpath r α.length).2 ⟨z, hz⟩
    obtain ⟨h0, hcase⟩ := TC.reduce q r A α (δ ++ α) z X hpath hr hz hf
    let D : Driver Unit := { t := t.toTables, act := fun _ d _ => .val d, zero := (), init := 0, max := 0 }
    obtain ⟨δ', s, below, q', hγ', hd, hδ, htr, hzero, hA⟩ := TabSound.shape (P := D) T.plain hs hr hi h0
    have hδ' : δ' = δ.reverse := by
      rw [List.reverse_append] at hγ'
      exact (List.append_cancel_left hγ').symm
    subst hδ'
    have hlhs : t.lhs.getD r 0 = (A : Int) - G.ntok - 1 := T.plain.lhs r A α hr
    have hfl : (s = 0 ∧ t.lhs.getD r 0 = 0) ↔ (s = 0 ∧ A = G.ntok + 1) := by
      rw [hlhs]
      constructor <;> rintro ⟨a, b⟩ <;> exact ⟨a, by omega⟩
    have hw : Win t (t.redC (q :: tl) ((X :: v).map code) r) := by
      unfold Tables.redC
      rw [T.plain.len r A α hr, Int.toNat_natCast, hd]
      simp only
      have hsp : Spell Trans (δ ++ [A]).reverse (q' :: s :: below) := by
        simpa using Spell.cons hδ htr
      by_cases hfin : s = 0 ∧ A = G.ntok + 1
      · rw [if_pos (hfl.2 hfin)]
        split
        · exact .acc
        · rename_i hne
          have hq' : q' = t.final := by
            rw [hfin.1, hfin.2] at htr
            exact T.plain.A.det htr T.plain.final
          rw [← hq']
          refine ih hb (q' :: s :: below) hsp htok hend ?_
          intro _ e
          apply hne
          simp only [List.head?_cons, Option.some.injEq] at e
          subst e
          simp [T.plain.code0]
      · rw [if_neg (by rw [hfl]; exact hfin), hlhs, T.plain.goto s A q' hA htr]
        refine ih hb (q' :: s :: below) hsp htok hend ?_
        intro e
        exfalso
        apply hfin
        simp only at e
        have hδnil : δ = [] := by
          have := congrArg List.length e
          simp only [List.length_append, List.length_cons, List.length_nil] at this
          exact List.eq_nil_of_length_eq_zero (by omega)
        subst hδnil
        simp only [List.nil_append, List.cons.injEq, and_true] at e
        refine ⟨?_, e⟩
        have hp0 : Path Trans 0 [] s := by simpa using hδ.path rfl
        generalize hg0 : ([] : List Nat) = g0 at hp0
        cases hp0 with
        | nil => rfl
        | snoc => simp at hg0
    rcases hcase with hdef | ⟨hdef, ⟨c1, c2, c3⟩ | ⟨e, ctry, c1, c2⟩⟩
    · refine .next ?_ hw
      simp only [BTables.stepC, hdef]
      rw [if_pos (by omega)]
    · refine .next ?_ hw
      simp only [BTables.stepC, hdef, ne_eq, not_true_eq_false, if_false, List.map_cons, List.headD_cons, c1, c2, c3]
    · refine .conf ctry ⟨e, .reduce r, ?_, c2, rfl⟩ hw
      simp only [BTables.stepC, hdef, ne_eq, not_true_eq_false, if_false, List.map_cons, List.headD_cons, c1]

end

end Verif.Byacc
