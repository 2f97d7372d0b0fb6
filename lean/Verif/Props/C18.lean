import Verif.Props.C17
import Verif.Props.C11
/-
C18 — the generated parser is complete for conflict-free grammars.
-/
set_option autoImplicit false
namespace Verif.Byacc
open Spec

/-- no sentence of the user's grammar contains `$end` -/
theorem yields_ne_zero {G : CFG} {nsyms : Nat} (hwf : WF G nsyms) {β w : List Nat} (h : Yields G β w) :
    (∀ X ∈ β, X ≠ 0 ∧ X ≠ G.ntok) → ∀ t ∈ w, t ≠ 0 := by
  induction h with
  | nil => simp
  | tok ht _ ih =>
    intro hβ t hm
    rcases List.mem_cons.1 hm with rfl | hm
    · exact (hβ _ (by simp)).1
    · exact ih (fun X hX => hβ X (by simp [hX])) t hm
  | @var A α β w1 w2 hr _ _ ih1 ih2 =>
    intro hβ t hm
    rcases List.mem_append.1 hm with hm | hm
    · refine ih1 ?_ t hm
      intro X hX
      obtain ⟨r, hr⟩ := List.getElem?_of_mem hr
      rcases Nat.eq_zero_or_pos r with rfl | h0
      · rw [hwf.acc] at hr
        simp only [Option.some.injEq, Prod.mk.injEq] at hr
        exact absurd hr.1.symm (hβ A (by simp)).2
      · have := (hwf.user r A α h0 hr).2.2 X hX
        exact ⟨by omega, this.2.2⟩
    · exact ih2 (fun X hX => hβ X (by simp [hX])) t hm

/-- C18: if no precedence is used and no conflicts are reported, the generated parser accepts every
sentence of the grammar, without reporting an error, provided the actions compute values only and
the stack may grow far enough (`D` cells; `YYINITSTACKSIZE` and a kept stack have at least 2). -/
theorem C18_complete (lp : Bool) (ntokens nsyms : Nat) (rs : List SrcRule)
    (h : UserRules ntokens nsyms (rs.map SrcRule.rule)) (h2 : 2 ≤ ntokens) (g : Gram)
    (hg : g = packGrammar lp ntokens nsyms (rs.map SrcRule.p) (encPitem rs))
    (sp : SymPrec) (lemon : Bool) (srExpect rrExpect : Int)
    (hsp : ∀ p ∈ sp.prec, p = 0) (hrp : ∀ p ∈ g.rprec, p = 0)
    (sv : List Int) (hsv : SymVals ntokens nsyms sv) (per : Nat) (hper : per = 2 ∨ per = 3) :
    ∃ o, generate g sp lemon srExpect rrExpect = some o ∧
      (o.parser.SRtotal = 0 → o.parser.RRtotal = 0 → ∀ t, outputTables per g sv o = .ok t →
      ∀ (V : Type) (w : List (Nat × V)),
        (augCFG ntokens (rs.map SrcRule.rule)).Sentence (ntokens + 1) (w.map Prod.fst) →
        ∃ D, ∀ P : Driver V, P.t = t → (∀ r d st, ∃ v, P.act r d st = .val v) → 2 ≤ P.init → D ≤ P.max →
        ∀ (size : Nat) (u : V) (input : List (Int × V)), (size = 0 ∨ 2 ≤ size) →
          tokensOf input = w.map (fun p => (sv.getD p.1 0, p.2)) →
          ∃ n c, P.run n (P.start size u input) = .done .accept c ∧ Ev.report ∉ c.log) := by
  obtain ⟨o, ho, -, hiff⟩ := C11_no_precedence lp ntokens nsyms rs h g hg sp lemon srExpect rrExpect hsp hrp
  obtain ⟨o', ho', K⟩ := generate_ok lp ntokens nsyms rs h g hg sp lemon srExpect rrExpect
  rw [ho] at ho'
  simp only [Option.some.injEq] at ho'
  subst ho'
  have hnt : g.ntokens = ntokens := K.ctx.packs.ntok
  have hns : g.nsyms = nsyms := by rw [hg]; rfl
  refine ⟨o, ho, ?_⟩
  intro hSR hRR t ht V w hw
  have hsv' : SymVals g.ntokens g.nsyms sv := by rw [hnt, hns]; exact hsv
  have TO := outputTables_ok K (by omega) hsv' ht
  have T := tabSound K hsv' (by omega) TO
  have TC := tabComplete K hsv' TO (hiff.1 (by omega))
  have hy : Yields _ [ntokens + 1] (w.map Prod.fst) := yields_iff.2 hw
  -- any semantic values will do for the tree
  by_cases hV : Nonempty V
  swap
  · refine ⟨0, ?_⟩
    intro P _ _ _ _ size u
    exact absurd ⟨u⟩ hV
  obtain ⟨v0⟩ := hV
  obtain ⟨ps, vs, hb⟩ := hy.builds (fun _ _ => v0) w rfl
  have hacc : (augCFG ntokens (rs.map SrcRule.rule)).rules[0]? = some (ntokens, [ntokens + 1, 0]) := rfl
  have hctx : Ctx (augCFG ntokens (rs.map SrcRule.rule)) byaccInit [] 0 0 [] := .init rfl
  have hlic := hb.licensed (v := []) (β' := [0]) (t := 0) hctx hacc rfl (.tok h.1)
  obtain ⟨D, hD⟩ := simulate (V := V) T TC hlic rfl
  refine ⟨D, ?_⟩
  intro P hPt hval hinit hDm size u input hsz hin
  have hs2 : 2 ≤ (P.start size u input).size := by
    simp only [Driver.start]; split <;> omega
  have hne : ∀ X ∈ w.map Prod.fst, X ≠ 0 := yields_ne_zero (wf_aug h) hy (by
    intro X hX
    simp only [List.mem_singleton] at hX
    subst hX
    exact ⟨by omega, by simp [augCFG]⟩)
  obtain ⟨k, c, hk, hlog⟩ := hD P hPt hval hDm (P.start size u input) (max (P.start size u input).size P.max)
    (start_base P size u input _ hs2 (Nat.le_max_left _ _)) (Nat.le_max_right _ _)
    { spell := .nil, errflag := rfl, recover := rfl
      rest := by
        show (tokensOf input).map Prod.fst ++ [0] = _
        rw [hin]
        simp only [List.map_append, List.map_map, List.map_cons, List.map_nil, hsv.eof]
        rfl
      toks := by
        intro X hX
        simp only [List.mem_append, List.mem_singleton] at hX
        rcases hX with hX | rfl
        · exact hw.1 X hX
        · exact h.1
      goal := by intro e; simp at e }
  exact ⟨k, c, hk, fun hr => by simpa [Driver.start] using hlog hr⟩

/-- Example `s: 'a' s 'b' | ;` (`$end` 0, error 1, 'a' 2, 'b' 3, `$accept` 4, s 5). -/
def c18B (i : Nat) : Bucket := ⟨i, decide (i < 4), 0, .TOKEN⟩
def c18Rules : List SrcRule := [⟨c18B 5, [c18B 2, c18B 5, c18B 3], UNDEFINED, .TOKEN⟩, ⟨c18B 5, [], UNDEFINED, .TOKEN⟩]
def c18G : Gram := packGrammar false 4 6 (c18Rules.map SrcRule.p) (encPitem c18Rules)
def c18SP : SymPrec := ⟨[0, 0, 0, 0, 0, 0], List.replicate 6 .TOKEN⟩
def c18SV : List Int := [0, 256, 97, 98, -1, 0]
def c18T : Option Tables :=
  (genWith 20 c18G c18SP false (-1) (-1)).bind fun o =>
    match outputTables 3 c18G c18SV o with | .ok t => some t | _ => none

example : UserRules 4 6 (c18Rules.map SrcRule.rule) := by
  refine ⟨by decide, by decide, ?_⟩
  intro A α h
  simp [c18Rules, SrcRule.rule, c18B] at h
  rcases h with ⟨rfl, rfl⟩ | ⟨rfl, rfl⟩ <;> simp

example : (genWith 20 c18G c18SP false (-1) (-1)).map (fun o => (o.parser.SRtotal, o.parser.RRtotal)) = some (0, 0) ∧
    c18SP.prec.all (· == 0) ∧ c18G.rprec.all (· == 0) := by decide +kernel

/-- `aabb` is accepted. -/
example : (c18T.bind fun t => outcome (calcP t) 20 0 [(97, 5), (97, 6), (98, 7), (98, 8)]) =
    some (.accept, [13, 0], [.reduce 1, .shift 98, .reduce 1, .shift 98, .reduce 2, .shift 97, .shift 97]) := by
  decide +kernel

end Verif.Byacc
