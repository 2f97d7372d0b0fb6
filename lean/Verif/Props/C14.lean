import Verif.Props.C20
import Verif.Props.C11
/-
C14 — a nonassociative operator makes chained use a syntax error (byacc).
-/
set_option autoImplicit false
namespace Verif.Byacc
open Spec

/-- C14, the part that holds: in a state *without default reduction*, if the shift on token `X` is
nonassociative and some reduction on `X` has the same precedence, and none a higher one, then the
generated tables have no action on `X`; the parser reports a syntax error there.
Missing: states with a default reduction, for which it is false (`C14_violated`). -/
theorem C14_nonassoc_partial (lp : Bool) (ntokens nsyms : Nat) (rs : List SrcRule)
    (h : UserRules ntokens nsyms (rs.map SrcRule.rule)) (g : Gram)
    (hg : g = packGrammar lp ntokens nsyms (rs.map SrcRule.p) (encPitem rs))
    (sp : SymPrec) (lemon : Bool) (srExpect rrExpect : Int) (sv : List Int) (hsv : SymVals ntokens nsyms sv)
    (per : Nat) (hper : per = 2 ∨ per = 3) :
    ∃ o, generate g sp lemon srExpect rrExpect = some o ∧ ∀ t, outputTables per g sv o = .ok t →
      ∀ (q : Nat) (row : List Action), o.parser.rows[q]? = some row → ∀ s ∈ row, ∀ r ∈ row,
        s.code = .SHIFT → r.code = .REDUCE → r.symbol = s.symbol → s.assoc = .NONASSOC → 0 < s.prec → r.prec = s.prec →
        (∀ r' ∈ row, r'.code = .REDUCE → r'.symbol = s.symbol → r'.prec ≤ s.prec) →
        t.defred.getD q 0 = 0 →
        t.shiftOn q (sv.getD s.symbol 0) = none ∧ t.reduceOn q (sv.getD s.symbol 0) = none ∧
        ∀ (V : Type) (P : Driver V) (c : Cfg V) (v : V) (below : List (Nat × V)), P.t = t →
          c.stack = (q, v) :: below → c.recover = false → c.errflag = 0 → c.chr = some (sv.getD s.symbol 0) →
          ∃ c', P.step c = .next c' ∧ c'.log = .report :: c.log ∧ c'.recover = true := by
  obtain ⟨o, ho, K⟩ := generate_ok lp ntokens nsyms rs h g hg sp lemon srExpect rrExpect
  obtain ⟨o', ho', -, hk⟩ := C10_kept lp ntokens nsyms rs h g hg sp lemon srExpect rrExpect
  rw [ho] at ho'
  simp only [Option.some.injEq] at ho'
  subst ho'
  have hnt : g.ntokens = ntokens := K.ctx.packs.ntok
  have hns : g.nsyms = nsyms := by rw [hg]; rfl
  refine ⟨o, ho, ?_⟩
  intro t ht q row hrow s hs r hr hsc hrc hX hna hp0 hpe hmax hdef
  have hsv' : SymVals g.ntokens g.nsyms sv := by rw [hnt, hns]; exact hsv
  have T := outputTables_ok K (by omega) hsv' ht
  have hq : q < o.aut.nstates := by rw [← K.rows_len]; exact (List.getElem?_eq_some_iff.mp hrow).1
  have hrd : o.parser.rows.getD q [] = row := by rw [List.getD_eq_getElem?_getD, hrow]; rfl
  have hlt : s.symbol < g.ntokens := (K.rowOK q hq).sym s (by rw [hrd]; exact hs)
  obtain ⟨hk, -⟩ := hk q row hrow
  have hin : ∀ z ∈ row, z.symbol = s.symbol → z.supp 0 ∈ competitors (unmarked row) s.symbol := by
    intro z hz hzx
    refine List.mem_filter.mpr ⟨List.mem_map.mpr ⟨z, hz, rfl⟩, ?_⟩
    simpa [Action.supp] using hzx
  have hdead : ∀ x ∈ row, x.symbol = s.symbol → x.suppressed ≠ 0 := by
    intro x hx hxs h0
    have := (hk x hx).1 h0
    rw [hxs] at this
    rcases this with ⟨xc, k⟩ | ⟨xc, ⟨-, -, k⟩, -⟩
    · -- the shift is unique
      have hcan : Cancels { x with suppressed := 0 } (r.supp 0) := by
        have hxx : x.prec = s.prec ∧ x.assoc = s.assoc := by
          have e1 : x.supp 0 ∈ o.acts g sp q := by
            rw [← (K.row q hq).same]
            refine List.mem_map.mpr ⟨x, ?_, rfl⟩
            have := K.rows q hq
            rw [hrow] at this
            simp only [Option.some.injEq] at this
            rw [← this]; exact hx
          have e2 : s.supp 0 ∈ o.acts g sp q := by
            rw [← (K.row q hq).same]
            refine List.mem_map.mpr ⟨s, ?_, rfl⟩
            have := K.rows q hq
            rw [hrow] at this
            simp only [Option.some.injEq] at this
            rw [← this]; exact hs
          rcases (K.mem q hq _).1 e1 with ⟨X, y, -, -, f1⟩ | ⟨r1, y, -, -, -, f1⟩
          · rcases (K.mem q hq _).1 e2 with ⟨X', y', -, -, f2⟩ | ⟨r1, y', -, -, -, f2⟩
            · have a1 : x.symbol = X := congrArg Action.symbol f1
              have a2 : s.symbol = X' := congrArg Action.symbol f2
              have hXX : X = X' := by rw [← a1, ← a2, hxs]
              subst hXX
              exact ⟨(congrArg Action.prec f1).trans (congrArg Action.prec f2).symm,
                (congrArg Action.assoc f1).trans (congrArg Action.assoc f2).symm⟩
            · have : s.code = .REDUCE := congrArg Action.code f2
              rw [hsc] at this; cases this
          · have : x.code = .REDUCE := congrArg Action.code f1
            have xc' : x.code = .SHIFT := xc
            rw [xc'] at this; cases this
        refine ⟨?_, ?_, ?_, ?_, ?_⟩
        · show 0 < x.prec; rw [hxx.1]; exact hp0
        · show 0 < r.prec; rw [hpe]; exact hp0
        · show x.prec = r.prec; rw [hxx.1, hpe]
        · show x.assoc ≠ .LEFT; rw [hxx.2, hna]; simp
        · show x.assoc ≠ .RIGHT; rw [hxx.2, hna]; simp
      exact (k (r.supp 0) (hin r hr hX) hrc).2 hcan
    · have hov := k (s.supp 0) (hin s hs rfl) hsc
      obtain ⟨-, -, ov | ⟨-, ov⟩⟩ := hov
      · have h1 : s.prec < x.prec := ov
        have h2 := hmax x hx xc hxs
        omega
      · have h1 : s.assoc = .LEFT := ov
        rw [hna] at h1; cases h1
  have hsym : ∀ a ∈ row, sv.getD s.symbol 0 = sv.getD a.symbol 0 → a.symbol = s.symbol := by
    intro a ha e
    exact (hsv'.inj s.symbol a.symbol hlt ((K.rowOK q hq).sym a (by rw [hrd]; exact ha)) e).symm
  have h1 : t.shiftOn q (sv.getD s.symbol 0) = none := by
    cases hsh : t.shiftOn q (sv.getD s.symbol 0) with
    | none => rfl
    | some y =>
      obtain ⟨a, ha, ⟨a0, -⟩, ae, -⟩ := (T.shift q hq _ _ (hsv'.nonneg _ hlt)).1 hsh
      rw [hrd] at ha
      exact absurd a0 (hdead a ha (hsym a ha ae))
  have h2 : t.reduceOn q (sv.getD s.symbol 0) = none := by
    cases hsh : t.reduceOn q (sv.getD s.symbol 0) with
    | none => rfl
    | some y =>
      obtain ⟨a, ha, ⟨a0, -⟩, ae, -⟩ := (T.reduce q hq _ _ (hsv'.nonneg _ hlt)).1 hsh
      rw [hrd] at ha
      exact absurd a0 (hdead a ha (hsym a ha ae))
  refine ⟨h1, h2, ?_⟩
  intro V P c v below hPt hst hrec he hchr
  subst hPt
  have := C20_no_action P c q v below _ hst hrec hdef hchr h1 h2 (by omega)
  rw [he] at this
  simp only [if_neg (show ¬ (0 : Nat) = 3 by omega), if_true] at this
  exact ⟨_, this, rfl, rfl⟩

/-- C14 is violated: for `e: e '<' e | N` with `%nonassoc '<'` both actions on '<' after `e '<' e` are
dropped, but the state keeps its reduction at the end of the input, which becomes its default
reduction, and the parser accepts `N < N < N` without any report. -/
theorem C14_violated : UserRules 4 6 (c10Rules.map SrcRule.rule) ∧
    ∃ (o : Generated) (t : Tables) (row : List Action) (s r : Action),
      generate c10G c10SP false (-1) (-1) = some o ∧ outputTables 3 c10G [0, 256, 60, 257, -1, 0] o = .ok t ∧
      o.parser.rows[4]? = some row ∧ s ∈ row ∧ r ∈ row ∧ s.code = .SHIFT ∧ r.code = .REDUCE ∧ s.symbol = 2 ∧ r.symbol = 2 ∧
      s.assoc = .NONASSOC ∧ 0 < s.prec ∧ r.prec = s.prec ∧
      ∃ c, (calcP t).run 20 ((calcP t).start 0 0 [(257, 1), (60, 0), (257, 1), (60, 0), (257, 1)]) = .done .accept c ∧
        c.log = [.reduce 1, .reduce 2, .shift 257, .shift 60, .reduce 1, .reduce 2, .shift 257, .shift 60, .reduce 2, .shift 257] := by
  refine ⟨c10_user, ?_⟩
  have hev : (genWith 20 c10G c10SP false (-1) (-1)).bind (fun o =>
      match outputTables 3 c10G [0, 256, 60, 257, -1, 0] o with
      | .ok t => (match (calcP t).run 20 ((calcP t).start 0 0 [(257, 1), (60, 0), (257, 1), (60, 0), (257, 1)]) with
          | .done .accept c => some (o.parser.rows[4]?, c.log)
          | _ => none)
      | _ => none) = some (some [
        { symbol := 0, number := 3, prec := 1, code := .REDUCE, assoc := .NONASSOC, suppressed := 0 },
        { symbol := 2, number := 3, prec := 1, code := .SHIFT, assoc := .NONASSOC, suppressed := 2 },
        { symbol := 2, number := 3, prec := 1, code := .REDUCE, assoc := .NONASSOC, suppressed := 2 }],
      [.reduce 1, .reduce 2, .shift 257, .shift 60, .reduce 1, .reduce 2, .shift 257, .shift 60, .reduce 2, .shift 257]) := by
    decide +kernel
  cases hg : genWith 20 c10G c10SP false (-1) (-1) with
  | none => rw [hg] at hev; simp at hev
  | some o =>
    rw [hg] at hev
    simp only [Option.bind_some] at hev
    split at hev
    · rename_i t ht
      split at hev
      · rename_i c hc
        simp only [Option.some.injEq, Prod.mk.injEq] at hev
        refine ⟨o, t, _, _, _, generate_of_genWith hg (by decide), ht, hev.1, List.mem_cons_of_mem _ List.mem_cons_self,
          List.mem_cons_of_mem _ (List.mem_cons_of_mem _ List.mem_cons_self), rfl, rfl, rfl, rfl, rfl, by decide, rfl, c, hc, hev.2⟩
      · cases hev
    · cases hev

/-- Example of a state without default reduction: `e: e '<' e | e '?' | N` (the state after `e '<' e`
can still shift '?'), where `N < N < N` is reported. -/
def c14B (i : Nat) : Bucket := ⟨i, decide (i < 5), if i = 2 then 1 else 0, if i = 2 then .NONASSOC else .TOKEN⟩
def c14Rules : List SrcRule := [⟨c14B 6, [c14B 6, c14B 2, c14B 6], UNDEFINED, .TOKEN⟩, ⟨c14B 6, [c14B 6, c14B 3], UNDEFINED, .TOKEN⟩,
  ⟨c14B 6, [c14B 4], UNDEFINED, .TOKEN⟩]
def c14G : Gram := packGrammar false 5 7 (c14Rules.map SrcRule.p) (encPitem c14Rules)
def c14SP : SymPrec := ⟨[0, 0, 1, 0, 0, 0, 0], [.TOKEN, .TOKEN, .NONASSOC, .TOKEN, .TOKEN, .TOKEN, .TOKEN]⟩

example : (genWith 20 c14G c14SP false (-1) (-1)).bind (fun o =>
      match outputTables 3 c14G [0, 256, 60, 63, 257, -1, 0] o with
      | .ok t => (outcome (calcP t) 20 0 [(257, 1), (60, 0), (257, 1), (60, 0), (257, 1)])
      | _ => none) =
    some (.abort, [0], [.pop, .pop, .pop, .report, .reduce 3, .shift 257, .shift 60, .reduce 3, .shift 257]) := by decide +kernel

end Verif.Byacc
