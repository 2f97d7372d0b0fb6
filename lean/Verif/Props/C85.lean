import Verif.Props.C84
import Verif.Props.C18
/-
C85 — the parser with backtracking does not reject sentences (byacc/btyaccpar.skel, option -B).
-/
set_option autoImplicit false
namespace Verif.Byacc
open Spec

/-- Without precedences the tables contain everything that is licensed. -/
theorem bTabComplete (lp : Bool) (ntokens nsyms : Nat) (rs : List SrcRule)
    (h : UserRules ntokens nsyms (rs.map SrcRule.rule)) (g : Gram)
    (hg : g = packGrammar lp ntokens nsyms (rs.map SrcRule.p) (encPitem rs))
    (sp : SymPrec) (lemon : Bool) (e1 e2 : Int) (hsp : ∀ p ∈ sp.prec, p = 0) (hrp : ∀ p ∈ g.rprec, p = 0)
    (sv : List Int) (hsv : SymVals ntokens nsyms sv) {o : Generated}
    (ho : generateB g sp lemon e1 e2 = some o) {t : BTables} (ht : outputTablesB g sv o = .ok t) :
    BTabComplete (augCFG ntokens (rs.map SrcRule.rule)) (ShiftsTo o.aut) (fun X => sv.getD X 0) t := by
  obtain ⟨o', ho', -, -, hC⟩ := C83_conflict_lists_partial lp ntokens nsyms rs h g hg sp lemon e1 e2 sv hsv
  rw [ho] at ho'
  cases ho'
  obtain ⟨o', ho', -, K⟩ := generateB_ok lp ntokens nsyms rs h g hg sp lemon e1 e2
  rw [ho] at ho'
  cases ho'
  have hz : ∀ (l : List Int) (i : Nat), (∀ p ∈ l, p = 0) → l.getD i 0 = 0 := by
    intro l i hl
    rw [List.getD_eq_getElem?_getD]
    cases hi : l[i]? with
    | none => rfl
    | some p => exact hl p (List.mem_of_getElem? hi)
  have hnd : ∀ X a b, ¬ Decides g sp lemon X a b := by
    intro X a b
    cases a <;> cases b <;> simp only [Decides, not_false_eq_true]
    · rintro ⟨-, h⟩
      rw [hz _ _ hrp] at h
      omega
    · rintro ⟨-, -, h, -⟩
      rw [hz _ _ hrp] at h
      omega
  set G := augCFG ntokens (rs.map SrcRule.rule) with hG
  have key : ∀ (q X : Nat) (γ : List Nat) (a : Choice), Path (ShiftsTo o.aut) 0 γ q → X < ntokens → MayDo G o.aut γ q X a →
      (a = .reduce (t.defred.getD q 0)) ∨ (t.defred.getD q 0 = 0 ∧
        ((t.conflictOn q (sv.getD X 0) = none ∧ (∀ s, t.shiftOn q (sv.getD X 0) = some s ↔ MayDo G o.aut γ q X (.shift s)) ∧
            (∀ r, t.reduceOn q (sv.getD X 0) = some r ↔ MayDo G o.aut γ q X (.reduce r)) ∧ ∀ b, MayDo G o.aut γ q X b → b = a) ∨
          ∃ e ctry, t.conflictOn q (sv.getD X 0) = some e ∧ t.AltAt e ctry a)) := by
    intro q X γ a hp hX ha
    obtain ⟨h1, h2, -⟩ := hC t ht γ q hp
    by_cases hd : t.defred.getD q 0 = 0
    · right
      refine ⟨hd, ?_⟩
      obtain ⟨h3, h4⟩ := h2 hd X hX (fun a b _ _ => hnd X a b)
      by_cases hm : ∃ a b, MayDo G o.aut γ q X a ∧ MayDo G o.aut γ q X b ∧ a ≠ b
      · right
        obtain ⟨e, sh, rules, g1, g2, ⟨s1, s2, s3, s4⟩, -⟩ := h3 hm
        obtain ⟨k1, k2⟩ := altAt_of_lists g2
        cases a with
        | shift s =>
          refine ⟨e, e, g1, rfl, ?_⟩
          rw [k1]
          exact (s1 s).1 ha
        | reduce r =>
          obtain ⟨i, hi⟩ := List.getElem?_of_mem ((s3 r).1 ha)
          exact ⟨e, e + 1 + i, g1, i, by rw [k2]; exact hi, rfl⟩
      · left
        obtain ⟨g1, g2, g3⟩ := h4 hm
        refine ⟨g1, g2, g3, fun b hb => ?_⟩
        by_contra hne
        exact hm ⟨b, a, hb, ha, hne⟩
    · left
      exact h1 hd (fun X _ a b _ _ => hnd X a b) X hX a ha
  refine ⟨?_, ?_⟩
  · intro q X y γ hp hX ht
    rcases key q X γ (.shift y) hp hX ht with h | ⟨hd, ⟨g1, g2, -, -⟩ | h⟩
    · cases h
    · exact ⟨hd, .inl ⟨g1, (g2 y).2 ht⟩⟩
    · exact ⟨hd, .inr h⟩
  · intro q r A α γ z X hp hr hz hf
    have hX : X < ntokens := Fst_tok_lt hf
    have ha : MayDo G o.aut γ q X (.reduce r) := ⟨A, α, hr, γ, fun r' d' => Iff.rfl, z, hz, first_iff.2 hf⟩
    have hr0 : 0 < r := by
      have hp' := ha
      rw [K.mayDo hp] at hp'
      exact (K.red hp').1
    refine ⟨hr0, ?_⟩
    rcases key q X γ (.reduce r) hp hX ha with h | ⟨hd, ⟨g1, g2, g3, g4⟩ | h⟩
    · left
      simp only [Choice.reduce.injEq] at h
      exact h.symm
    · right
      refine ⟨hd, .inl ⟨g1, ?_, (g3 r).2 ha⟩⟩
      cases hs : t.shiftOn q (sv.getD X 0) with
      | none => rfl
      | some s => have := g4 _ ((g2 s).1 hs); cases this
    · exact .inr ⟨hd, .inr h⟩

/-- C85: if no precedence is used, the parser generated with -B, given a sentence, never reports a
syntax error, whatever conflicts the grammar has; if it stops, it has accepted or it has run out of stack, the stack
being full at its largest size.  (What is accepted is said in C84.)  The actions compute values, or
execute `YYVALID` outside trials; actions in brackets compute values.

Partial: it may fail to stop, and it may run out of stack however large the stack, see
`C85_overflow_violated`; with precedences a sentence may be rejected, see `C85_precedence_violated`. -/
theorem C85_backtrack_complete_partial (lp : Bool) (ntokens nsyms : Nat) (rs : List SrcRule)
    (h : UserRules ntokens nsyms (rs.map SrcRule.rule)) (h2 : 2 ≤ ntokens) (g : Gram)
    (hg : g = packGrammar lp ntokens nsyms (rs.map SrcRule.p) (encPitem rs))
    (sp : SymPrec) (lemon : Bool) (e1 e2 : Int) (hsp : ∀ p ∈ sp.prec, p = 0) (hrp : ∀ p ∈ g.rprec, p = 0)
    (sv : List Int) (hsv : SymVals ntokens nsyms sv) :
    ∃ o, generateB g sp lemon e1 e2 = some o ∧ ∀ t, outputTablesB g sv o = .ok t →
      ∀ (V : Type) (P : BDriver V) (fa : Nat → V → List V → V), P.t = t → BPureActs P fa →
      (∀ r d st, P.act false r d st ≠ .yyerror) → (∀ r d st, ∃ v, P.act true r d st = .val v) → 2 ≤ P.init →
      ∀ (w : List (Nat × V)), (augCFG ntokens (rs.map SrcRule.rule)).Sentence (ntokens + 1) (w.map Prod.fst) →
      ∀ (size : Nat) (u : V) (input queue : List (Int × V)) (lvp : Nat), (size = 0 ∨ 2 ≤ size) → lvp ≤ queue.length →
        tokensOf (queue.drop lvp ++ input) = w.map (fun p => (sv.getD p.1 0, p.2)) →
        ∀ n,
          (∀ c, P.run n (P.start size u input queue lvp) = .next c → Ev.report ∉ c.log ∧ Ev.raised ∉ c.log) ∧
          (∀ r c, P.run n (P.start size u input queue lvp) = .done r c →
            (r = .std .accept ∧ Ev.report ∉ c.log ∧ Ev.raised ∉ c.log) ∨
            (r = .std .overflow ∧ c.stack.length = c.size ∧ P.max ≤ c.size)) := by
  obtain ⟨o, ho, hp, K⟩ := generateB_ok lp ntokens nsyms rs h g hg sp lemon e1 e2
  have hnt : g.ntokens = ntokens := K.A.ctx.packs.ntok
  have hns : g.nsyms = nsyms := by rw [hg]; rfl
  have hsv' : SymVals g.ntokens g.nsyms sv := by rw [hnt, hns]; exact hsv
  refine ⟨o, ho, ?_⟩
  intro t ht V P fa hPt hact hne htr hinit w hw size u input queue lvp hsz hl hin n
  have T := bTabSound K hsv' (by omega) (outputTablesB_ok K hsv' ht)
  have TC := bTabComplete lp ntokens nsyms rs h g hg sp lemon e1 e2 hsp hrp sv hsv ho ht
  subst hPt
  have hA : ActsOK P fa (Win P.t) := by
    refine ⟨fun r d st => ?_, fun r d st => .inr (htr r d st)⟩
    have := hact r d st
    simp only [List.mem_cons, List.not_mem_nil, or_false] at this
    rcases this with h | h | h | h
    · exact .inl h
    · exact .inr (.inl h)
    · exact .inr (.inr (.inl h))
    · exact absurd h (hne r d st)
  have hy : Yields _ [ntokens + 1] (w.map Prod.fst) := yields_iff.2 hw
  obtain ⟨ps, vs, hb⟩ := hy.builds (fun _ _ => u) w rfl
  have hacc : (augCFG ntokens (rs.map SrcRule.rule)).rules[0]? = some (ntokens, [ntokens + 1, 0]) := rfl
  have hctx : Ctx (augCFG ntokens (rs.map SrcRule.rule)) byaccInit [] 0 0 [] := .init rfl
  have hlic := hb.licensed (v := []) (β' := [0]) (t := 0) hctx hacc rfl (.tok h.1)
  have hne0 : ∀ X ∈ w.map Prod.fst, X ≠ 0 := yields_ne_zero (wf_aug h) hy (by
    intro X hX
    simp only [List.mem_singleton] at hX
    subst hX
    exact ⟨by omega, by simp [augCFG]⟩)
  have hwin := lic_win T TC hlic rfl [0] .nil (by
      intro X hX
      simp only [List.mem_append, List.mem_singleton] at hX
      rcases hX with hX | rfl
      · exact hw.1 X hX
      · exact h.1) (by
      intro pre v e
      simp only at e
      rcases List.eq_nil_or_concat v with rfl | ⟨v', x, rfl⟩
      · rfl
      · exfalso
        have e' : w.map Prod.fst ++ [0] = (pre ++ 0 :: v') ++ [x] := by rw [e]; simp
        have := (List.append_inj' e' rfl).1
        exact hne0 0 (by rw [this]; simp) rfl) (by intro e; simp at e)
  have hstart : Win P.t (.run [0] ((tokensOf (queue.drop lvp ++ input)).map Prod.fst ++ [0])) := by
    rw [hin]
    have he : (w.map (fun p => (sv.getD p.1 0, p.2))).map Prod.fst ++ [0] = (w.map Prod.fst ++ [0]).map (fun X => sv.getD X 0) := by
      simp only [List.map_append, List.map_map, List.map_cons, List.map_nil, hsv.eof]
      rfl
    rw [he]
    exact hwin
  have hnall : ¬ ∀ k, Win P.t k := fun h => (h (.run [] [])).not_err rfl
  obtain ⟨r1, r2⟩ := T.run_ok (eok_win P.t) hA size u input queue lvp hl hsz hinit hstart n
  refine ⟨?_, ?_⟩
  · intro c hc
    rcases r1 c hc with h | h
    · exact absurd h.1 hnall
    · exact h.1
  · intro r c hc
    rcases r2 r c hc with h | ⟨h0, hq, -⟩ | h | ⟨-, -, r, d, st, h⟩ | ⟨-, -, r, d, st, h⟩
    · exact absurd h.1 hnall
    · exact .inl ⟨h0, hq⟩
    · exact .inr h
    · obtain ⟨v, hv⟩ := htr r d st
      rw [hv] at h; cases h
    · obtain ⟨v, hv⟩ := htr r d st
      rw [hv] at h; cases h

/-- the premises of C85 for the example of C84, and a sentence of its grammar -/
example : c84SP.prec.all (· == 0) ∧ c84G.rprec.all (· == 0) ∧ c84T.isSome ∧
    (∀ (t : BTables) (r : Nat) (d : Int) (st : List Int), (c84P t c84Act).act false r d st ≠ .yyerror ∧
      ∃ v, (c84P t c84Act).act true r d st = .val v) :=
  ⟨by decide +kernel, by decide +kernel, by decide +kernel, fun t r d st => ⟨by simp [c84P, c84Act], d, by simp [c84P, c84Act]⟩⟩

example : (augCFG 6 (c84Rules.map SrcRule.rule)).Sentence 7 [2, 3, 5] := by
  refine yields_iff.1 ?_
  exact .var (α := [9, 3, 5]) (w₁ := [2, 3, 5]) (w₂ := []) (by decide)
    (.var (α := [2]) (w₁ := [2]) (w₂ := [3, 5]) (by decide) (.tok (by decide) .nil) (.tok (by decide) (.tok (by decide) .nil))) .nil

/-- The grammar `s: b s 'x' | c 'y'; b: ; c: ;` (`$end` 0, error 1, 'x' 2, 'y' 3, `$accept` 4, s 5, b 6, c 7). -/
def c85B (i : Nat) : Bucket := ⟨i, decide (i < 4), 0, .TOKEN⟩
def c85Rules : List SrcRule :=
  [⟨c85B 5, [c85B 6, c85B 5, c85B 2], UNDEFINED, .TOKEN⟩, ⟨c85B 5, [c85B 7, c85B 3], UNDEFINED, .TOKEN⟩,
   ⟨c85B 6, [], UNDEFINED, .TOKEN⟩, ⟨c85B 7, [], UNDEFINED, .TOKEN⟩]
def c85G : Gram := packGrammar false 4 8 (c85Rules.map SrcRule.p) (encPitem c85Rules)
def c85SP : SymPrec := ⟨List.replicate 8 0, List.replicate 8 .TOKEN⟩
def c85SV : List Int := [0, 256, 120, 121, -1, 0, 1, 2]
def c85T : Option BTables :=
  (genWithB 20 c85G c85SP false (-1) (-1)).bind fun o =>
    match outputTablesB c85G c85SV o with | .ok t => some t | _ => none

/-- in the loop of `C85_overflow_violated` -/
structure C85Loop {V : Type} (c : BCfg V) : Prop where
  top : ∃ q v rest, c.stack = (q, v) :: rest ∧ (q = 0 ∨ q = 2)
  fits : c.stack.length ≤ c.size
  two : 2 ≤ c.size
  red : c.red = none
  recover : c.recover = false
  path : c.path = []
  chr : c.chr = none
  tok : (c.saves = [] ∧ c.queue = [] ∧ c.lvp = 0 ∧ ∃ x rest, c.input = (121, x) :: rest) ∨
    (c.saves ≠ [] ∧ ∃ x, c.queue[c.lvp]? = some (121, x))

/-- C85, a sentence may exhaust any stack: in the grammar above `b` may stand for nothing any number of times in front
of a sentence.  On the sentence `y` the parser tries that first, again and again: whatever the sizes of the stack and
the actions in braces, if it stops it has run out of stack. -/
theorem C85_overflow_violated : ∃ t, c85T = some t ∧ (augCFG 4 (c85Rules.map SrcRule.rule)).Sentence 5 [3] ∧
    ∀ (V : Type) (P : BDriver V), P.t = t → (∀ r d st, ∃ v, P.act true r d st = .val v) → 2 ≤ P.init →
      ∀ (size : Nat) (u v : V) (n : Nat) (r : BHalt) (c : BCfg V), (size = 0 ∨ 2 ≤ size) →
        P.run n (P.start size u [(121, v)] [] 0) = .done r c → r = .std .overflow := by
  refine Option.isSome_iff_exists.1 (show c85T.isSome = true by decide +kernel) |>.imp fun t ht => ⟨ht, ?_, ?_⟩
  · refine yields_iff.1 ?_
    exact .var (α := [7, 3]) (w₁ := [3]) (w₂ := []) (by decide)
      (.var (α := []) (w₁ := []) (w₂ := [3]) (by decide) .nil (.tok (by decide) .nil)) .nil
  · have hev : (c85T.map fun t => decide ((t.defred.getD 0 0, t.defred.getD 2 0) = (0, 0) ∧
        (t.conflictOn 0 121, t.conflictOn 2 121) = (some 0, some 0) ∧ (t.ctable.getD 0 (-1), t.ctable.getD 1 (-1)) = (-1, 3) ∧
        (t.len.getD 3 0, t.lhs.getD 3 0) = (0, 1) ∧ (t.gotoOf 0 1, t.gotoOf 2 1) = (2, 2))) = some true := by decide +kernel
    rw [ht] at hev
    simp only [Option.map_some, Option.some.injEq, decide_eq_true_eq, Prod.mk.injEq] at hev
    obtain ⟨⟨d0, d2⟩, ⟨c0, c2⟩, ⟨t0, t1⟩, ⟨l3, h3⟩, g0, g2⟩ := hev
    intro V P hPt hval hinit size u v n r c hsz hrun
    subst hPt
    have hstep : ∀ c : BCfg V, C85Loop c → (∃ c', P.step c = .next c' ∧ C85Loop c') ∨ ∃ c', P.step c = .done (.std .overflow) c' := by
      rintro c ⟨⟨q, v, rest, hst, hq⟩, hfit, h2, hred, hrec, hpath, hchr, htok⟩
      have hdq : P.t.defred.getD q 0 = 0 := by rcases hq with rfl | rfl <;> assumption
      have hcq : P.t.conflictOn q 121 = some 0 := by rcases hq with rfl | rfl <;> assumption
      have hgq : P.t.gotoOf q 1 = 2 := by rcases hq with rfl | rfl <;> assumption
      -- reading and entering the choice
      have henter : ∃ d : BCfg V, P.enter c.read 0 = some (d, 1) ∧ c.read.chr = some 121 ∧ c.read.path = [] ∧ d.stack = c.stack ∧ d.size = c.size ∧
          d.recover = false ∧ d.path = [] ∧ d.chr = none ∧ d.saves ≠ [] ∧ ∃ x, d.queue[d.lvp]? = some (121, x) := by
        rcases htok with ⟨s1, s2, s3, x, l, s4⟩ | ⟨s1, x, s2⟩
        · have hr : c.read = { c with chr := some 121, lval := x, input := l } := by
            unfold BCfg.read
            rw [hchr, s2, s3]
            simp only [List.getElem?_nil]
            rw [trial_false s1]
            unfold Cfg.read
            rw [hchr, s4]
            simp
          rw [hr]
          refine ⟨{ c with chr := none, lval := x, input := l, lvp := 0, queue := [(121, x)], saves := [⟨c.stack, c.errflag, 1, 0⟩] }, ?_, rfl,
            hpath, rfl, rfl, hrec, hpath, rfl, by simp, x, rfl⟩
          unfold BDriver.enter
          simp only [t0, s1, s2, s3]
          simp
        · have hr : c.read = { c with chr := some 121, lval := x, lvp := c.lvp + 1 } := by
            unfold BCfg.read
            rw [hchr, s2]
            simp
          rw [hr]
          refine ⟨{ c with chr := none, lval := x, saves := ⟨c.stack, c.errflag, 1, c.lvp⟩ :: c.saves }, ?_, rfl,
            hpath, rfl, rfl, hrec, hpath, rfl, by simp, x, s2⟩
          unfold BDriver.enter
          have hse : c.saves.isEmpty = false := by cases h : c.saves with
            | nil => exact absurd h s1
            | cons => rfl
          simp only [t0, hse]
          simp
      obtain ⟨d, he, hrc, hrp, e1, e2, e3, e4, e5, e6, e7⟩ := henter
      have htd : d.trial = true := (trial_iff d).2 e6
      have hstepd : P.step c = P.reduce d 3 := by
        unfold BDriver.step
        rw [hred, hst]
        simp only
        rw [if_neg (by rw [hrec]; simp), if_neg (by rw [hdq]; simp)]
        simp only [hrc, Option.getD_some, hcq, hrp, he]
        unfold BDriver.choose
        simp only [t1]
        simp
      have hnote : d.note (.reduce 3) = d := by unfold BCfg.note; rw [htd]; rfl
      obtain ⟨v', hv'⟩ := hval 3 P.zero (d.stack.map Prod.snd)
      have hredd : P.reduce d 3 = ({ d with red := none } : BCfg V).lift (P.plain.push d.toCfg 2 v') := by
        unfold BDriver.reduce
        simp only [hnote, l3]
        have htd' : BCfg.trial ({ d with red := none } : BCfg V) = true := htd
        rw [if_neg (by rw [e1, hst]; simp), htd']
        have h00 : (if Int.toNat 0 = 0 then P.zero else (d.stack.map Prod.snd).getD (Int.toNat 0 - 1) P.zero) = P.zero := rfl
        rw [h00, hv']
        simp only [h3]
        unfold BDriver.finish
        have hds : List.drop (Int.toNat 0) ({ d with red := none } : BCfg V).stack = (q, v) :: rest := by
          rw [show Int.toNat 0 = 0 from rfl, List.drop_zero]
          exact e1.trans hst
        rw [hds]
        simp only [hgq]
        rw [if_neg (by omega)]
        have : ((q, v) :: rest) = d.stack := by rw [e1, hst]
        rw [this]
      rw [hstepd, hredd]
      rcases lift_push (P := P) ({ d with red := none } : BCfg V) d.toCfg 2 v' (by rw [e1, e2]; exact hfit) (by rw [e2]; exact h2) with
        ⟨m, f1, f2, f3, f4⟩ | ⟨c', f1, -⟩
      · left
        refine ⟨_, f1, ⟨⟨2, v', d.stack, rfl, .inr rfl⟩, ?_, ?_, rfl, e3, e4, e5, .inr ⟨e6, e7⟩⟩⟩
        · simpa using f3
        · have : d.size ≤ m := f2
          show 2 ≤ m
          omega
      · exact .inr ⟨c', f1⟩
    have hstart : C85Loop (P.start size u [(121, v)] [] 0) := by
      have h2 : 2 ≤ (P.plain.start size u [(121, v)]).size := by
        simp only [Driver.start, BDriver.plain]; split <;> omega
      refine ⟨⟨0, u, [], rfl, .inl rfl⟩, ?_, h2, rfl, rfl, rfl, rfl, .inl ⟨rfl, rfl, rfl, v, [], rfl⟩⟩
      show 1 ≤ (P.plain.start size u [(121, v)]).size
      omega
    obtain ⟨cl, hcl, hs⟩ := (brun_inv C85Loop (by
      intro c c' hc hs
      rcases hstep c hc with ⟨c1, h1, h2⟩ | ⟨c1, h1⟩
      · rw [h1] at hs; cases hs; exact h2
      · rw [h1] at hs; cases hs) n _ hstart).2 r c hrun
    rcases hstep cl hcl with ⟨c1, h1, h2⟩ | ⟨c1, h1⟩
    · rw [h1] at hs; cases hs
    · rw [h1] at hs; cases hs; rfl

def c83T : Option BTables :=
  (genWithB 30 c83G c83SP false (-1) (-1)).bind fun o =>
    match outputTablesB c83G c83SV o with | .ok t => some t | _ => none

/-- C85, precedences may lose sentences: in the grammar of `C83_violated` the sentence `c x w` is accepted by the parser
made without -B and rejected by the one made with -B. -/
theorem C85_precedence_violated : (augCFG 7 (c83Rules.map SrcRule.rule)).Sentence 8 [2, 3, 5] ∧
    ((genWith 30 c83G c83SP false (-1) (-1)).bind fun o =>
      match outputTables 3 c83G c83SV o with
      | .ok t => (outcome (calcP t) 40 0 [(99, 1), (120, 2), (119, 3)]).map (fun r => (r.1, r.2.2))
      | _ => none) = some (.accept, [.reduce 3, .shift 119, .shift 120, .reduce 5, .shift 99]) ∧
    (c83T.bind fun t => bOutcome (c84P t c84Act) 40 0 [(99, 1), (120, 2), (119, 3)] [] 0) =
      some ⟨.std .abort, [0], [.pop, .pop, .report, .shift 99], [(120, 2), (119, 3)], 2⟩ := by
  refine ⟨?_, by decide +kernel, by decide +kernel⟩
  refine yields_iff.1 ?_
  exact .var (α := [10, 3, 5]) (w₁ := [2, 3, 5]) (w₂ := []) (by decide)
    (.var (α := [2]) (w₁ := [2]) (w₂ := [3, 5]) (by decide) (.tok (by decide) .nil) (.tok (by decide) (.tok (by decide) .nil))) .nil

/-- The grammar `s: error a 'x' 'p' | error b 'x' 'q'; a: 'i'; b: 'i';` (numbers as in C84). -/
def c85eRules : List SrcRule :=
  [⟨c84B 7, [c84B 1, c84B 8, c84B 3, c84B 4], UNDEFINED, .TOKEN⟩, ⟨c84B 7, [c84B 1, c84B 9, c84B 3, c84B 5], UNDEFINED, .TOKEN⟩,
   ⟨c84B 8, [c84B 2], UNDEFINED, .TOKEN⟩, ⟨c84B 9, [c84B 2], UNDEFINED, .TOKEN⟩]
def c85eG : Gram := packGrammar false 6 10 (c85eRules.map SrcRule.p) (encPitem c85eRules)
def c85eT : Option BTables :=
  (genWithB 20 c85eG c84SP false (-1) (-1)).bind fun o =>
    match outputTablesB c85eG c84SV o with | .ok t => some t | _ => none

/-- C85 does not extend to what follows an error: while fewer than three tokens have been shifted since an error, a failure in
a trial is not followed by another alternative (`if (yyerrflag != 0) goto yyinrecovery`, byacc/btyaccpar.skel:671).
In the grammar above, the input `i x p` is recovered from, by the first alternative, and `i x q` is not. -/
theorem C85_recovery_violated :
    (c85eT.bind fun t => (bOutcome (c84P t c84Act) 60 0 [(105, 1), (120, 2), (112, 3)] [] 0).map fun r => (r.halt, r.log)) =
      some (.std .accept, [.reduce 1, .shift 112, .shift 120, .reduce 3, .shift 105, .errShift, .report]) ∧
    (c85eT.bind fun t => (bOutcome (c84P t c84Act) 60 0 [(105, 1), (120, 2), (113, 3)] [] 0).map fun r => (r.halt, r.log)) =
      some (.std .abort, [.shift 105, .errShift, .report]) := by decide +kernel

end Verif.Byacc
