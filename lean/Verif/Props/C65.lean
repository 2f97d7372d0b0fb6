import Verif.Proofs.Prefix
import Verif.Props.C18
import Mathlib.Data.List.TakeWhile
/-
C65 — a syntax error is reported at the first token that cannot continue the input (byacc).
-/
set_option autoImplicit false
namespace Verif.Byacc
open Spec

section
variable {V : Type} {G : CFG} {nsyms n : Nat} {Item Trans : _} {code : Nat → Int} {P : Driver V} {f : Nat → List V → V}

/-- reading, reducing and accepting shift nothing -/
theorem TabSound.reduce_shifts (T : TabSound G nsyms n Item Trans code P.t) {bound : Nat} {c : Cfg V} (B : Base Trans bound c)
    {fa : Nat → V → List V → V} (hact : PureActs P fa)
    {q : Nat} {u : V} {rest : List (Nat × V)} (hst : c.stack = (q, u) :: rest) {r A : Nat} {α : List Nat}
    (hr : G.rules[r]? = some (A, α)) (hi : Item q r α.length) (h0 : 0 < r) :
    shifts (P.reduce c r).cfg.log = shifts c.log := by
  obtain ⟨γ, hγ⟩ := B.spell
  have hst' : c.stack.map Prod.fst = q :: rest.map Prod.fst := by rw [hst]; rfl
  obtain ⟨δ, s, below, q', hγ', hd, hδ, ht, hz, hA⟩ := T.shape (hst' ▸ hγ) hr hi h0
  rw [← hst'] at hd
  have hlen : ¬ c.stack.length ≤ α.length := by
    intro hle
    have : (c.stack.map Prod.fst).drop α.length = [] := List.drop_eq_nil_of_le (by simpa using hle)
    rw [this] at hd
    cases hd
  unfold Driver.reduce
  simp only [T.len r A α hr, Int.toNat_natCast]
  rw [if_neg hlen, hact]
  simp only
  rw [finish_log]
  rfl

/-- one step before the first error shifts nothing or the next token of the input -/
theorem TabSound.step_shifts (T : TabSound G nsyms n Item Trans code P.t) {bound : Nat} {c : Cfg V} (B : Base Trans bound c)
    {fa : Nat → V → List V → V} (hact : PureActs P fa)
    {u0 : V} {input : List (Int × V)} (H : Good G Trans code f u0 input c) :
    .report ∈ (P.step c).cfg.log ∨ shifts (P.step c).cfg.log = shifts c.log ∨
    ∃ q u tl X y v l, c.stack = (q, u) :: tl ∧ X < G.ntok ∧ X ≠ 0 ∧ Trans q X y ∧ c.pending = (code X, v) :: l ∧
      shifts (P.step c).cfg.log = code X :: shifts c.log := by
  unfold Driver.step
  split
  · exact .inr (.inl rfl)
  rename_i q u rest hst
  have hq := B.top T.A hst
  rw [if_neg (by rw [H.recover]; simp)]
  split
  · rename_i hne
    obtain ⟨A, α, hr, hi⟩ := T.defred q hq hne
    exact .inr (.inl (T.reduce_shifts B hact hst hr hi (Nat.pos_of_ne_zero hne)))
  · obtain ⟨f1, f2, f3, f4, f5, f6⟩ := read_fields c
    have BR := B.read
    have HR := H.read
    obtain ⟨x, hx, hx0⟩ := read_chr_nonneg c B.chr
    have hst' : c.read.stack = (q, u) :: rest := by rw [f1, hst]
    simp only [hx, Option.getD_some]
    split
    · rename_i q' hsh
      obtain ⟨X, hX, hXne, hcode, ht⟩ := T.shift q hq _ _ hx0 hsh
      have hxne : x ≠ 0 := by
        intro e
        refine hXne (T.inj X 0 hX T.wf.ntok ?_)
        rw [← hcode, e, T.code0]
      right; right
      refine ⟨q, u, rest, X, q', c.read.lval, tokensOf c.read.input, hst, hX, hXne, ht, ?_, ?_⟩
      · rw [← read_pending]
        unfold Cfg.pending
        rw [hx]
        simp [hxne, ← hcode]
      · rw [push_log]
        simp only [shifts, List.filterMap_cons, f5, hcode]
    · split
      · rename_i r hre
        obtain ⟨h0, A, α, hr, hi⟩ := T.reduce q hq _ _ hx0 hre
        have := T.reduce_shifts BR hact hst' hr hi h0
        rw [f5] at this
        exact .inr (.inl this)
      · left
        rw [if_pos HR.errflag]
        unfold Cfg.inrecovery
        simp only [HR.errflag]
        rw [if_pos (by omega)]
        simp [Res.cfg]

end

/-- C65, first half: the parser generated from any grammar (with or without conflicts) in which
every nonterminal derives some string of tokens: as long as no syntax error has been reported,
the tokens shifted so far are the first tokens of the input and begin some sentence of the
grammar. -/
theorem C65_prefix (lp : Bool) (ntokens nsyms : Nat) (rs : List SrcRule)
    (h : UserRules ntokens nsyms (rs.map SrcRule.rule)) (h2 : 2 ≤ ntokens) (g : Gram)
    (hg : g = packGrammar lp ntokens nsyms (rs.map SrcRule.p) (encPitem rs))
    (hprod : ∀ A, ntokens < A → A < nsyms → ∃ w, (augCFG ntokens (rs.map SrcRule.rule)).Sentence A w)
    (sp : SymPrec) (lemon : Bool) (srExpect rrExpect : Int) (sv : List Int) (hsv : SymVals ntokens nsyms sv)
    (per : Nat) (hper : per = 2 ∨ per = 3) :
    ∃ o, generate g sp lemon srExpect rrExpect = some o ∧ ∀ t, outputTables per g sv o = .ok t →
      ∀ (V : Type) (P : Driver V) (fa : Nat → V → List V → V), P.t = t → PureActs P fa → 2 ≤ P.init →
      ∀ (size : Nat) (u : V) (input : List (Int × V)) (n : Nat), (size = 0 ∨ 2 ≤ size) →
        let log := (P.run n (P.start size u input)).cfg.log
        Ev.report ∉ log →
        ∃ w x : List Nat, (shifts log).reverse = w.map (sv.getD · 0) ∧
          w.map (sv.getD · 0) <+: (tokensOf input).map Prod.fst ∧
          (augCFG ntokens (rs.map SrcRule.rule)).Sentence (ntokens + 1) (w ++ x) := by
  obtain ⟨o, ho, K⟩ := generate_ok lp ntokens nsyms rs h g hg sp lemon srExpect rrExpect
  have hnt : g.ntokens = ntokens := K.ctx.packs.ntok
  have hns : g.nsyms = nsyms := by rw [hg]; rfl
  refine ⟨o, ho, ?_⟩
  intro t ht V P fa hPt hact hinit size u input n hsz log hrep
  let G := augCFG ntokens (rs.map SrcRule.rule)
  have hwf : WF G nsyms := wf_aug h
  have hG : G.ntok = ntokens := rfl
  have hsv' : SymVals g.ntokens g.nsyms sv := by rw [hnt, hns]; exact hsv
  have TO := outputTables_ok K (by omega) hsv' ht
  have T := tabSound K hsv' (by omega) TO
  rw [← hPt] at T
  let f : Nat → List V → V := fun r vs => fa r (vs.headD P.zero) vs
  let Inv : Cfg V → Prop := fun c => Base (ShiftsTo o.aut) (max (P.start size u input).size P.max) c ∧
    (.report ∈ c.log ∨ Good G (ShiftsTo o.aut) (fun X => sv.getD X 0) f u input c)
  have hs2 : 2 ≤ (P.start size u input).size := by
    simp only [Driver.start]; split <;> omega
  have hstart : Inv (P.start size u input) := by
    refine ⟨start_base P size u input _ hs2 (Nat.le_max_left _ _), .inr ⟨rfl, rfl, [], [], [], [], .nil, rfl, .nil, rfl, rfl, rfl⟩⟩
  have hstep : ∀ c c', Inv c → P.step c = .next c' → Inv c' := by
    rintro c c' ⟨B, H⟩ hs
    have hb := T.step_base B (Nat.le_max_right _ _)
    rw [hs] at hb
    refine ⟨hb, ?_⟩
    rcases H with H | H
    · have := step_log (P := P) c
      rw [hs] at this
      exact .inl (this.subset H)
    · have := T.step_good B hact (f := f) rfl H
      rw [hs] at this
      exact this
  -- symbols of the rules derive tokens
  have hQ : ∀ A α, (A, α) ∈ G.rules → ∀ X ∈ α, ∃ w, Yields G [X] w := by
    intro A α hm X hX
    obtain ⟨r, hr⟩ := List.getElem?_of_mem hm
    rcases Nat.lt_or_ge X ntokens with hlt | hge
    · exact ⟨[X], .tok hlt .nil⟩
    · have hXn : X < nsyms := (hwf.lhs hr).2.2 X hX
      have hne : X ≠ ntokens := by
        rcases Nat.eq_zero_or_pos r with rfl | h0
        · rw [hwf.acc] at hr
          simp only [Option.some.injEq, Prod.mk.injEq] at hr
          rw [← hr.2] at hX
          simp only [List.mem_cons, List.not_mem_nil, or_false, hG] at hX
          omega
        · exact ((hwf.user r A α h0 hr).2.2 X hX).2.2
      obtain ⟨w, hw⟩ := hprod X (by omega) hXn
      exact ⟨w, yields_iff.2 hw⟩
  -- what spells a path and derives tokens without `$end` begins a sentence
  have hvia : ∀ (γ w : List Nat) (q : Nat), Path (ShiftsTo o.aut) 0 γ q → Yields G γ w → (∀ X ∈ w, X ≠ 0) →
      ∃ x, G.Sentence (ntokens + 1) (w ++ x) := by
    intro γ w q hp hy hne
    obtain ⟨r, d, z, A, α, hz, hr⟩ := IsAuto.item_ex T.A ⟨0, _, _, rfl, hwf.acc⟩ hp
    obtain ⟨x, hx⟩ := Ctx.viable (S := [ntokens + 1, 0]) (by
      rintro r rfl A α hr
      rw [hwf.acc] at hr
      simp only [Option.some.injEq, Prod.mk.injEq] at hr
      rw [← hr.2, hG]
      simp only [byaccInit, List.append_nil]
      exact .refl) hQ (by simp [byaccInit]) hz hr hy
    obtain ⟨w1, w2, e, h1, h2⟩ := Yields.split (a := [ntokens + 1]) (b := [0]) hx
    have hw2 : w2 = [0] := by
      cases h2 with
      | tok _ h2 => cases h2; rfl
      | var hr =>
        obtain ⟨r, hr⟩ := List.getElem?_of_mem hr
        have := (hwf.lhs hr).1
        have := hwf.ntok
        omega
    subst hw2
    -- `w` is a prefix of `w1`
    have hpre : w <+: w1 := by
      have h3 : w <+: w1 ++ [0] := ⟨x, e⟩
      rcases List.prefix_concat_iff.1 h3 with h4 | h4
      · exfalso
        exact hne 0 (by rw [h4]; simp) rfl
      · exact h4
    obtain ⟨x', rfl⟩ := hpre
    exact ⟨x', yields_iff.1 h1⟩
  have hgood : ∀ c, Good G (ShiftsTo o.aut) (fun X => sv.getD X 0) f u input c →
      ∃ γ w, (∃ l, c.pending = l ∧ (tokensOf input).map Prod.fst = w.map (sv.getD · 0) ++ l.map Prod.fst) ∧
        shifts c.log = (w.map (sv.getD · 0)).reverse ∧ Spell (ShiftsTo o.aut) γ.reverse (c.stack.map Prod.fst) ∧
        Yields G γ w ∧ ∀ X ∈ w, X ≠ 0 := by
    intro c H
    obtain ⟨γ, rs', w, vs, h1, h2, h3, h4, h5, h6⟩ := H.trees
    refine ⟨γ, w.map Prod.fst, ⟨_, rfl, ?_⟩, ?_, h1, h3.yields, ?_⟩
    · rw [h6]; simp
    · rw [h5]; simp
    · intro X hX e
      obtain ⟨p, hp, rfl⟩ := List.mem_map.1 hX
      have : (sv.getD p.1 0, p.2) ∈ tokensOf input := by
        rw [h6]
        exact List.mem_append_left _ (List.mem_map.2 ⟨p, hp, rfl⟩)
      have := List.mem_takeWhile_imp this
      rw [e, hsv.eof] at this
      simp at this
  have hcfg : ∀ c, Good G (ShiftsTo o.aut) (fun X => sv.getD X 0) f u input c →
      ∃ w x : List Nat, (shifts c.log).reverse = w.map (sv.getD · 0) ∧
          w.map (sv.getD · 0) <+: (tokensOf input).map Prod.fst ∧ G.Sentence (ntokens + 1) (w ++ x) := by
    intro c H
    obtain ⟨γ, w, ⟨l, -, h1⟩, h2, h3, h4, h5⟩ := hgood c H
    cases hst : c.stack.map Prod.fst with
    | nil => exact absurd hst h3.ne_nil
    | cons q ss =>
    obtain ⟨x, hx⟩ := hvia γ w q (by simpa using h3.path hst) h4 h5
    exact ⟨w, x, by rw [h2]; simp, ⟨_, h1.symm⟩, hx⟩
  have hrun := run_inv Inv hstep n _ hstart
  cases hres : P.run n (P.start size u input) with
  | next c =>
    obtain ⟨-, H⟩ := hrun.1 c hres
    simp only [log, hres, Res.cfg] at hrep ⊢
    exact hcfg c (H.resolve_left hrep)
  | done e c =>
    obtain ⟨c0, ⟨B, H⟩, hs⟩ := hrun.2 e c hres
    simp only [log, hres, Res.cfg] at hrep ⊢
    have hlog := step_log (P := P) c0
    rw [hs] at hlog
    have H := H.resolve_left (fun hm => hrep (hlog.subset hm))
    rcases T.step_shifts B hact H with h1 | h1 | ⟨q, u', tl, X, y, v, l, e1, e2, e3, e4, e5, e6⟩
    · rw [hs] at h1; exact absurd h1 hrep
    · rw [hs] at h1
      have := hcfg c0 H
      rw [← h1] at this
      exact this
    · rw [hs] at e6
      obtain ⟨γ, w, ⟨l', hl', h1⟩, h2, h3, h4, h5⟩ := hgood c0 H
      rw [e5] at hl'
      subst hl'
      have hp : Path (ShiftsTo o.aut) 0 (γ ++ [X]) y := by
        have := h3.path (q := q) (ss' := tl.map Prod.fst) (by rw [e1]; rfl)
        rw [List.reverse_reverse] at this
        exact this.snoc e4
      obtain ⟨x, hx⟩ := hvia (γ ++ [X]) (w ++ [X]) y hp (h4.append (.tok e2 .nil)) (by
        intro Y hY
        rcases List.mem_append.1 hY with hY | hY
        · exact h5 Y hY
        · simp only [List.mem_singleton] at hY; rw [hY]; exact e3)
      refine ⟨w ++ [X], x, ?_, ?_, hx⟩
      · rw [show shifts c.log = sv.getD X 0 :: shifts c0.log from e6, h2]
        simp
      · rw [h1]
        exact ⟨l.map Prod.fst, by simp⟩

/-- C65, second half: if no precedence is used and no conflicts are reported, then when the first
syntax error is reported (after `k` tokens were shifted), no sentence of the grammar begins with
the first `k + 1` tokens of the input; here the end of the input, code 0, counts as a token that
follows every sentence. -/
theorem C65_error (lp : Bool) (ntokens nsyms : Nat) (rs : List SrcRule)
    (h : UserRules ntokens nsyms (rs.map SrcRule.rule)) (h2 : 2 ≤ ntokens) (g : Gram)
    (hg : g = packGrammar lp ntokens nsyms (rs.map SrcRule.p) (encPitem rs))
    (sp : SymPrec) (lemon : Bool) (srExpect rrExpect : Int)
    (hsp : ∀ p ∈ sp.prec, p = 0) (hrp : ∀ p ∈ g.rprec, p = 0)
    (sv : List Int) (hsv : SymVals ntokens nsyms sv) (per : Nat) (hper : per = 2 ∨ per = 3) :
    ∃ o, generate g sp lemon srExpect rrExpect = some o ∧
      (o.parser.SRtotal = 0 → o.parser.RRtotal = 0 → ∀ t, outputTables per g sv o = .ok t →
      ∀ (V : Type) (P : Driver V), P.t = t → (∀ r d st, ∃ v, P.act r d st = .val v) → 2 ≤ P.init →
      ∀ (size : Nat) (u : V) (input : List (Int × V)) (n : Nat), (size = 0 ∨ 2 ≤ size) →
        ∀ later before, (P.run n (P.start size u input)).cfg.log = later ++ .report :: before →
        ∀ w, (augCFG ntokens (rs.map SrcRule.rule)).Sentence (ntokens + 1) w →
          ¬ ((tokensOf input).map Prod.fst ++ [0]).take ((shifts before).length + 1) <+: w.map (sv.getD · 0) ++ [0]) := by
  obtain ⟨o, ho, -, hiff⟩ := C11_no_precedence lp ntokens nsyms rs h g hg sp lemon srExpect rrExpect hsp hrp
  obtain ⟨o', ho', K⟩ := generate_ok lp ntokens nsyms rs h g hg sp lemon srExpect rrExpect
  rw [ho] at ho'
  simp only [Option.some.injEq] at ho'
  subst ho'
  have hnt : g.ntokens = ntokens := K.ctx.packs.ntok
  have hns : g.nsyms = nsyms := by rw [hg]; rfl
  refine ⟨o, ho, ?_⟩
  intro hSR hRR t ht V P hPt hval hinit size u input n hsz later before hlog w hw hpre
  have hsv' : SymVals g.ntokens g.nsyms sv := by rw [hnt, hns]; exact hsv
  have TO := outputTables_ok K (by omega) hsv' ht
  have T := tabSound K hsv' (by omega) TO
  have TC := tabComplete K hsv' TO (hiff.1 (by omega))
  have hy : Yields _ [ntokens + 1] w := yields_iff.2 hw
  obtain ⟨ps, vs, hb⟩ := hy.builds (fun _ _ => u) (w.map fun X => (X, u)) (by rw [List.map_map]; exact List.map_id w)
  have hacc : (augCFG ntokens (rs.map SrcRule.rule)).rules[0]? = some (ntokens, [ntokens + 1, 0]) := rfl
  have hctx : Ctx (augCFG ntokens (rs.map SrcRule.rule)) byaccInit [] 0 0 [] := .init rfl
  have hlic := hb.licensed (v := []) (β' := [0]) (t := 0) hctx hacc rfl (.tok h.1)
  have hs2 : 2 ≤ (P.start size u input).size := by
    simp only [Driver.start]; split <;> omega
  have hne : ∀ X ∈ w, X ≠ 0 := yields_ne_zero (wf_aug h) hy (by
    intro X hX
    simp only [List.mem_singleton] at hX
    subst hX
    exact ⟨by omega, by simp [augCFG]⟩)
  have hmap : (w.map fun X => (X, u)).map Prod.fst = w := by rw [List.map_map]; exact List.map_id w
  rw [hmap] at hlic
  -- the first `k + 1` tokens of the input, as symbols of the sentence
  have hcodes : w.map (sv.getD · 0) ++ [0] = (w ++ [0]).map (sv.getD · 0) := by
    rw [List.map_append]; simp only [List.map_cons, List.map_nil, hsv.eof]
  rw [hcodes] at hpre
  obtain ⟨l2, hl2⟩ := hpre
  have hlen := congrArg List.length hl2
  obtain ⟨v1, v2, e1, e2, -⟩ := List.map_eq_append_iff.1 hl2.symm
  have hrest : (P.start size u input).rest = v1.map (sv.getD · 0) ++
      ((tokensOf input).map Prod.fst ++ [0]).drop ((shifts before).length + 1) := by
    rw [e2, List.take_append_drop]
    rfl
  have := prefix_sim T TC hPt hval (Nat.le_max_right (P.start size u input).size P.max) hlic rfl (by
      rw [List.dropLast_concat]
      exact fun hm => hne 0 hm rfl) n v1 v2 (P.start size u input) _ e1
    (start_base P size u input _ hs2 (Nat.le_max_left _ _))
    ⟨.nil, rfl, rfl, by intro e; simp at e⟩ hrest before (by rw [hlog]; exact List.suffix_append _ _) (by simp [Driver.start])
  obtain ⟨hv2, hle⟩ := this
  have hv1 := congrArg List.length e2
  simp only [Driver.start, shifts, List.filterMap_nil, List.length_nil, List.length_map, List.length_take, List.length_append,
    List.length_cons] at hle hv1
  -- all of the input, with the end marker, was in the sentence
  have hall : ((tokensOf input).map Prod.fst ++ [0]).take ((shifts before).length + 1) = (tokensOf input).map Prod.fst ++ [0] := by
    apply List.take_of_length_le
    simp only [List.length_append, List.length_map, List.length_cons, List.length_nil, shifts]
    omega
  rw [hall] at e2
  obtain ⟨v1', z, rfl, -, hz⟩ := List.map_eq_append_iff.1 e2
  obtain ⟨y, rfl, hy0⟩ : ∃ y, z = [y] ∧ sv.getD y 0 = 0 := by
    cases z with
    | nil => simp at hz
    | cons y z => simp at hz; exact ⟨y, by rw [hz.2], by rw [List.getD_eq_getElem?_getD]; exact hz.1⟩
  cases hl : v2.reverse with
  | nil => exact hv2 (by simpa using hl)
  | cons l ls =>
    have e3 : v2 = ls.reverse ++ [l] := by have := congrArg List.reverse hl; simpa using this
    rw [e3, ← List.append_assoc] at e1
    have e4 := (List.append_inj' e1 rfl).1
    have hm : y ∈ w := by rw [e4]; simp
    have : y = 0 := hsv.inj y 0 (hw.1 y hm) h.1 (by rw [hy0, hsv.eof])
    exact hne y hm this

/-- In the grammar `s: 'a' s 'b' | ;` every nonterminal derives a string of tokens. -/
example : ∀ A, 4 < A → A < 6 → ∃ w, (augCFG 4 (c18Rules.map SrcRule.rule)).Sentence A w := by
  intro A h1 h2
  obtain rfl : A = 5 := by omega
  exact ⟨[], by simp, .single (.mk [] [] (A := 5) (α := []) (by simp [augCFG, c18Rules, SrcRule.rule, c18B]))⟩

/-- `aab` and then the end: the error is reported when all three tokens are shifted (`aabb` is a
sentence, `aab` is not).  `aba`: the error is at the last token, after a reduction of the empty
rule and of `ab`. -/
example : (c18T.bind fun t => outcome (calcP t) 20 0 [(97, 5), (97, 6), (98, 7)]).map (fun r => (r.1, r.2.2)) =
      some (.abort, [.pop, .pop, .report, .reduce 1, .shift 98, .reduce 2, .shift 97, .shift 97]) ∧
    (c18T.bind fun t => outcome (calcP t) 20 0 [(97, 5), (98, 6), (97, 7)]).map (fun r => (r.1, r.2.2)) =
      some (.abort, [.pop, .report, .reduce 1, .shift 98, .reduce 2, .shift 97]) := by decide +kernel

end Verif.Byacc
