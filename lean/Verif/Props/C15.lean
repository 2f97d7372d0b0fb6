import Verif.Proofs.Tables
/-
C15 — packed tables; C52 — default gotos (byacc/output.c, table access of byacc/yaccpar.skel).
-/
set_option autoImplicit false
namespace Verif.Byacc
open Spec

/-- C15: the packed arrays, cut off at `high` as they are emitted, answer exactly the entries of
each vector.  `VecOK` says that a vector has as many entries as its tally and at most one entry
for each (non-negative) column. -/
theorem C15_lookup (nstates : Nat) (vs : List Vec) (hvs : ∀ v ∈ vs, VecOK v) (p : Pack)
    (hp : packTable nstates vs (sortActions vs) = .ok p) (t : Tables)
    (htab : t.table = p.table.take (p.high + 1)) (hchk : t.check = p.check.take (p.high + 1)) (hsz : t.size = p.high) :
    p.base.length = vs.length ∧ t.table.length = t.size + 1 ∧ t.check.length = t.size + 1 ∧
    ∀ (i : Nat) (v : Vec) (b : Int), vs[i]? = some v → p.base[i]? = some b →
      ∀ x : Int, 0 ≤ x →
        (∀ y, t.probe b x = some y ↔ (x, y) ∈ v.ents) ∧ (t.probe b x = none ↔ ∀ y, (x, y) ∉ v.ents) := by
  have hok : ∀ k, VecOK (vs.getD k {}) := by
    intro k
    rw [List.getD_eq_getElem?_getD]
    cases h : vs[k]? with
    | none => exact .empty
    | some v => exact hvs v (List.mem_of_getElem? h)
  rcases packTable_spec (vs := vs) nstates hok with h | ⟨h, -⟩ | ⟨p', h, H⟩
  · rw [h] at hp; cases hp
  · rw [h] at hp; cases hp
  rw [h] at hp
  simp only [Out.ok.injEq] at hp
  subst hp
  have hl1 := H.sized.t
  have hl2 := H.sized.c
  have hh := H.highlt
  refine ⟨H.baselen, ?_, ?_, ?_⟩
  · rw [htab, List.length_take, hsz]; omega
  · rw [hchk, List.length_take, hsz]; omega
  intro i v b hv hb x hx
  have key : ∀ y, t.probe b x = some y ↔ (x, y) ∈ v.ents := by
    intro y
    have := probe_iff H hok (sortActions_spec vs).2 htab hchk hsz i x hx y
    rw [Pack.baseAt, List.getD_eq_getElem?_getD, hb, entsAt, List.getD_eq_getElem?_getD, hv] at this
    exact this
  refine ⟨key, ?_⟩
  constructor
  · intro h y hy
    rw [(key y).2 hy] at h
    cases h
  · intro h
    cases hpr : t.probe b x with
    | none => rfl
    | some y => exact absurd ((key y).1 hpr) (h y)

/-- Three vectors, the first and the last alike, the second overlapping. -/
def c15Vs : List Vec :=
  [⟨3, 43, [(0, 5), (42, 6), (41, 9)]⟩, ⟨2, 2, [(41, 7), (42, 8)]⟩, {}, ⟨3, 43, [(0, 5), (42, 6), (41, 9)]⟩]

example : ∀ v ∈ c15Vs, VecOK v := by
  intro v hv
  simp only [c15Vs, List.mem_cons, List.not_mem_nil, or_false] at hv
  rcases hv with rfl | rfl | rfl | rfl
  · exact ⟨rfl, by decide, by decide⟩
  · exact ⟨rfl, by decide, by decide⟩
  · exact .empty
  · exact ⟨rfl, by decide, by decide⟩

example : (match packTable 2 c15Vs (sortActions c15Vs) with
    | .ok p => some (p.base, p.high, p.table.take 5, p.check.take 5) | _ => none) =
    some ([1, -39, 0, 1], 43, [0, 5, 7, 8, 0], [-1, 0, 41, 42, -1]) := by decide +kernel

/-- C15 for a generated parser (`PER_STATE` 2 or 3): with the token codes `sv`, the shift lookup in
a state finds exactly the remaining shift actions of the state, the reduce lookup exactly the
remaining reduce actions other than the default reduction (the emitted rule numbers are 2 lower),
and the default reduction is emitted as such; `yylhs` and `yylen` describe the rules. -/
theorem C15_generated (lp : Bool) (ntokens nsyms : Nat) (rs : List SrcRule)
    (h : UserRules ntokens nsyms (rs.map SrcRule.rule)) (g : Gram)
    (hg : g = packGrammar lp ntokens nsyms (rs.map SrcRule.p) (encPitem rs))
    (sp : SymPrec) (lemon : Bool) (srExpect rrExpect : Int) (sv : List Int) (hsv : SymVals ntokens nsyms sv)
    (per : Nat) (hper : per = 2 ∨ per = 3) :
    ∃ o, generate g sp lemon srExpect rrExpect = some o ∧ ∀ t, outputTables per g sv o = .ok t →
      (∀ (q : Nat) (row : List Action), o.parser.rows[q]? = some row →
        (∀ (x : Int), 0 ≤ x → ∀ y,
          (t.shiftOn q x = some y ↔
            ∃ a ∈ row, a.suppressed = 0 ∧ a.code = .SHIFT ∧ x = sv.getD a.symbol 0 ∧ a.number = y) ∧
          (t.reduceOn q x = some y ↔
            ∃ a ∈ row, a.suppressed = 0 ∧ a.code = .REDUCE ∧ o.parser.defred[q]? ≠ some a.number ∧
              x = sv.getD a.symbol 0 ∧ a.number = y + 2)) ∧
        (∀ r, 0 < r → (t.defred[q]? = some r ↔ o.parser.defred[q]? = some (r + 2)))) ∧
      (∀ (r A : Nat) (α : List Nat), (augCFG ntokens (rs.map SrcRule.rule)).rules[r]? = some (A, α) →
        t.lhs[r]? = some ((A : Int) - ntokens - 1) ∧ t.len[r]? = some (α.length : Int)) ∧
      t.final = o.parser.final ∧ t.errcode = sv.getD 1 0 := by
  obtain ⟨o, ho, K⟩ := generate_ok lp ntokens nsyms rs h g hg sp lemon srExpect rrExpect
  have hnt : g.ntokens = ntokens := K.ctx.packs.ntok
  have hns : g.nsyms = nsyms := by rw [hg]; rfl
  refine ⟨o, ho, ?_⟩
  intro t ht
  have T := outputTables_ok K (by omega) (by rw [hnt, hns]; exact hsv) ht
  refine ⟨?_, ?_, T.final, T.errcode⟩
  · intro q row hrow
    have hq : q < o.aut.nstates := by rw [← K.rows_len]; exact (List.getElem?_eq_some_iff.mp hrow).1
    have hrow' : o.parser.rows.getD q [] = row := by rw [List.getD_eq_getElem?_getD, hrow]; rfl
    have hdl : q < o.parser.defred.length := by
      have : o.parser.defred = o.parser.rows.map soleReduction := by rw [K.parser]; rfl
      rw [this, List.length_map, K.rows_len]
      exact hq
    have hd : o.parser.defred[q]? = some (o.parser.defred.getD q 0) := by
      rw [List.getD_eq_getElem?_getD, List.getElem?_eq_getElem hdl]; rfl
    refine ⟨?_, ?_⟩
    · intro x hx y
      rw [T.shift q hq x y hx, T.reduce q hq x y hx, hrow', hd]
      simp only [Option.some.injEq, ne_eq, Action.isSh, Action.isRe]
      constructor
      · constructor
        · rintro ⟨a, h1, ⟨h2, h3⟩, h4, h5⟩; exact ⟨a, h1, h2, h3, h4, h5.symm⟩
        · rintro ⟨a, h1, h2, h3, h4, h5⟩; exact ⟨a, h1, ⟨h2, h3⟩, h4, h5.symm⟩
      · constructor
        · rintro ⟨a, h1, ⟨h2, h3, h4⟩, h5, h6⟩; exact ⟨a, h1, h2, h3, fun e => h4 e.symm, h5, h6.symm⟩
        · rintro ⟨a, h1, h2, h3, h4, h5, h6⟩; exact ⟨a, h1, ⟨h2, h3, fun e => h4 e.symm⟩, h5, h6.symm⟩
    · intro r hr
      rw [hd]
      rcases T.defred q hq with ⟨h1, h2⟩ | ⟨r', h0, h1, h2⟩
      · rw [h1, h2]; simp only [Option.some.injEq]; omega
      · rw [h1, h2]; simp only [Option.some.injEq]; omega
  · intro r A α hr
    have h1 := T.lhs r A α hr
    have h2 := T.len r A α hr
    rw [hnt] at h1
    exact ⟨h1, h2⟩

/-- Codes for the example of C09: `$end` 0, error 256, '+' 43, '*' 42, N 257. -/
def c15SV : List Int := [0, 256, 43, 42, 257, -1, 0]

example : SymVals 5 7 c15SV :=
  ⟨by decide, by
    have : ∀ i < 5, ∀ j < 5, c15SV.getD i 0 = c15SV.getD j 0 → i = j := by decide
    exact fun i j hi hj => this i hi j hj, by decide, by
    intro A h1 h2
    have : A = 5 ∨ A = 6 := by omega
    rcases this with rfl | rfl <;> decide⟩

def c15T : Option Tables :=
  (genWith 20 c09G c09SP false (-1) (-1)).bind fun o =>
    match outputTables 3 c09G c15SV o with | .ok t => some t | _ => none

/-- In the state after `e '+' e`: shift on '*', reduce by the first rule on '+' and at the end. -/
example : c15T.map (fun t => ([t.shiftOn 5 42, t.shiftOn 5 43, t.shiftOn 5 0, t.shiftOn 5 257],
    [t.reduceOn 5 42, t.reduceOn 5 43, t.reduceOn 5 0, t.reduceOn 5 257], t.defred)) =
    some ([some 4, none, none, none], [none, some 1, some 1, none], [0, 3, 0, 0, 0, 0, 2]) := by decide +kernel

/-- C52: the default goto of nonterminal `A` is the target of most of its transitions (the lowest
such state; 0 if there are none), and the goto lookup gives the target of every transition. -/
theorem C52_default_goto (lp : Bool) (ntokens nsyms : Nat) (rs : List SrcRule)
    (h : UserRules ntokens nsyms (rs.map SrcRule.rule)) (g : Gram)
    (hg : g = packGrammar lp ntokens nsyms (rs.map SrcRule.p) (encPitem rs))
    (sp : SymPrec) (lemon : Bool) (srExpect rrExpect : Int) (sv : List Int) (hsv : SymVals ntokens nsyms sv)
    (per : Nat) (hper : per = 2 ∨ per = 3) :
    ∃ o, generate g sp lemon srExpect rrExpect = some o ∧ ∀ t, outputTables per g sv o = .ok t →
      ∀ A, ntokens < A → A < nsyms →
        (∀ s q, ShiftsTo o.aut s A q → t.gotoOf s ((A : Int) - ntokens - 1) = q) ∧
        ∃ (d : Nat) (trans : List (Nat × Nat)), t.dgoto[A - ntokens - 1]? = some d ∧
          trans.Nodup ∧ (∀ s q, (s, q) ∈ trans ↔ ShiftsTo o.aut s A q) ∧
          (trans = [] → d = 0) ∧
          (∀ q, trans.countP (fun p => p.2 == q) ≤ trans.countP (fun p => p.2 == d)) ∧
          (∀ q, q < d → trans.countP (fun p => p.2 == q) < trans.countP (fun p => p.2 == d)) := by
  obtain ⟨o, ho, K⟩ := generate_ok lp ntokens nsyms rs h g hg sp lemon srExpect rrExpect
  have hnt : g.ntokens = ntokens := K.ctx.packs.ntok
  have hns : g.nsyms = nsyms := by rw [hg]; rfl
  refine ⟨o, ho, ?_⟩
  intro t ht A hA hA'
  have hsv' : SymVals g.ntokens g.nsyms sv := by rw [hnt, hns]; exact hsv
  have T := outputTables_ok K (by omega) hsv' ht
  refine ⟨fun s q hs => by rw [← hnt]; exact T.goto s A q (by omega) hs, ?_⟩
  obtain ⟨v1, v2, v3, v4, v5, v6, v7⟩ := vectors_spec K (per := per) (by omega) hsv'
  have hdg : t.dgoto = (vectors per g sv o).1 := by
    unfold outputTables at ht
    simp only at ht
    cases hp : packTable o.aut.nstates (vectors per g sv o).2 (sortActions (vectors per g sv o).2) with
    | ok p =>
      rw [hp] at ht
      simp only [Out.bind] at ht
      split at ht
      · cases ht
      · simp only [Out.ok.injEq] at ht
        rw [← ht]
    | _ => rw [hp] at ht; cases ht
  have hi : A - ntokens - 1 < g.nsyms - (g.ntokens + 1) := by omega
  obtain ⟨c1, c2⟩ := K.column hi
  rw [show g.ntokens + 1 + (A - ntokens - 1) = A by omega] at c1 c2
  have hv := (v7 _ hi).1
  rw [show g.ntokens + 1 + (A - ntokens - 1) = A by omega] at hv
  obtain ⟨d1, d2⟩ := defaultGoto_spec o.aut.nstates (columnOf g (setGotoMap g o.aut) A)
    (fun p hp => (K.ctx.A.lt _ _ _ ((c1 p.1 p.2).1 hp)).2)
  refine ⟨_, columnOf g (setGotoMap g o.aut) A, by rw [hdg]; exact hv, ?_, c1, d1, ?_, ?_⟩
  · exact c2.imp (fun h e => by subst e; omega)
  · intro q
    by_cases hne : columnOf g (setGotoMap g o.aut) A = []
    · rw [hne]; simp
    · exact (d2 hne).2.1 q
  · intro q hq
    by_cases hne : columnOf g (setGotoMap g o.aut) A = []
    · rw [d1 hne] at hq; omega
    · exact (d2 hne).2.2 q hq

/-- Transitions on `e`: from 0 to 2, from 3 to 5, from 4 to 6. -/
example : c15T.map (fun t => (t.dgoto, [t.gotoOf 0 0, t.gotoOf 3 0, t.gotoOf 4 0])) =
    some ([2], [2, 5, 6]) := by decide +kernel

end Verif.Byacc
