import Verif.Byacc.Verbose
import Verif.Props.C11
import Verif.Proofs.Vectors
/-
C25, C26, C61: the verbose report (byacc/verbose.c).
-/
set_option autoImplicit false
namespace Verif.Byacc
open Spec

/-! ## C25 -/

theorem conflictLoop_spec (g : Gram) (fin : Bool) (row : List Action) (done rest : List Action) (st : PCSt)
    (hrow : row = done ++ rest)
    (hst : st.symbol = -1 ∨ ∃ x ∈ done, (x.symbol : Int) = st.symbol ∧ x.number = st.number ∧ (x.code = .SHIFT ↔ st.shift = true))
    (l : CLine) (hl : l ∈ conflictLoop g fin st rest) :
    ∃ (pre mid post : List Action) (x p : Action), row = pre ++ x :: (mid ++ p :: post) ∧ x.symbol = p.symbol ∧ p.suppressed = 1 ∧
      l = conflictLine g fin ⟨x.symbol, x.number, x.code == .SHIFT⟩ p := by
  induction rest generalizing done st with
  | nil => simp [conflictLoop] at hl
  | cons p rest ih =>
    have hrow' : row = (done ++ [p]) ++ rest := by rw [hrow]; simp
    have hst' : st.symbol = -1 ∨ ∃ x ∈ done ++ [p], (x.symbol : Int) = st.symbol ∧ x.number = st.number ∧ (x.code = .SHIFT ↔ st.shift = true) := by
      rcases hst with h | ⟨x, hx, h⟩
      · exact .inl h
      · exact .inr ⟨x, by simp [hx], h⟩
    rw [conflictLoop] at hl
    split at hl
    · exact ih _ _ hrow' hst' hl
    · split at hl
      · exact ih _ _ hrow' (.inr ⟨p, by simp, rfl, rfl, by cases p.code <;> simp⟩) hl
      · rename_i hsym
        split at hl
        · rename_i hs1
          rcases List.mem_cons.1 hl with rfl | hl
          · rcases hst with h | ⟨x, hx, h1, h2, h3⟩
            · rw [h] at hsym; simp only [ne_eq, not_not] at hsym; omega
            · obtain ⟨pre, mid, rfl⟩ := List.append_of_mem hx
              refine ⟨pre, mid, rest, x, p, by rw [hrow]; simp, ?_, hs1, ?_⟩
              · simp only [ne_eq, not_not] at hsym; omega
              · have : st = ⟨x.symbol, x.number, x.code == .SHIFT⟩ := by
                  cases st
                  simp only at h1 h2 h3
                  subst h1 h2
                  simp only [PCSt.mk.injEq, true_and]
                  rw [Bool.eq_iff_iff, ← h3]; simp
                rw [this]
          · exact ih _ _ hrow' hst' hl
        · exact ih _ _ hrow' hst' hl

/-- A reduction by the rule printed with number `r` is an action of the row on token `X`. -/
def ReducesIn (row : List Action) (r X : Nat) : Prop :=
  ∃ x ∈ row, x.code = .REDUCE ∧ x.symbol = X ∧ x.number = r + 2

/-- A shift of token `X` to state `s` is an action of the row. -/
def ShiftsIn (row : List Action) (X s : Nat) : Prop :=
  ∃ x ∈ row, x.code = .SHIFT ∧ x.symbol = X ∧ x.number = s

/-- What a line says, except for the left side of the first rule of a reduce/reduce conflict: rule
`r` of the report is rule `r` of the grammar (rule 0 is the added one). -/
def LineTrue (G : CFG) (row : List Action) (fin : Prop) : CLine → Prop
  | .accept r lhs => fin ∧ (∃ α, G.rules[r]? = some (lhs, α)) ∧ ReducesIn row r 0
  | .sr s r lhs X => (∃ α, G.rules[r]? = some (lhs, α)) ∧ ReducesIn row r X ∧ ShiftsIn row X s
  | .rr r1 _ r2 l2 X => r1 < r2 ∧ (∃ α, G.rules[r2]? = some (l2, α)) ∧ (∃ A α, G.rules[r1]? = some (A, α)) ∧
      ReducesIn row r1 X ∧ ReducesIn row r2 X

/-- C25 (partial): in every generated report, each line of a conflict names actions its state really has,
with the numbers of their rules, and the left side printed last is the one of the rule it is printed
with.  Missing for the full claim: the left side printed first for a reduce/reduce conflict; it is
always the one of the rule two places before. -/
theorem C25_lines_partial (lp : Bool) (ntokens nsyms : Nat) (rs : List SrcRule)
    (h : UserRules ntokens nsyms (rs.map SrcRule.rule)) (g : Gram)
    (hg : g = packGrammar lp ntokens nsyms (rs.map SrcRule.p) (encPitem rs))
    (sp : SymPrec) (lemon : Bool) (srExpect rrExpect : Int) :
    ∃ o, generate g sp lemon srExpect rrExpect = some o ∧
      ∀ (q : Nat) (row : List Action), o.parser.rows[q]? = some row →
        ∀ l ∈ printConflicts g (q == o.parser.final) row,
          LineTrue (augCFG ntokens (rs.map SrcRule.rule)) row (q = o.parser.final) l ∧
          ∀ r1 l1 r2 l2 X, l = .rr r1 l1 r2 l2 X →
            ∀ r, r1 = r + 2 → ∃ α, (augCFG ntokens (rs.map SrcRule.rule)).rules[r]? = some (l1, α) := by
  obtain ⟨o, ho, K⟩ := generate_ok lp ntokens nsyms rs h g hg sp lemon srExpect rrExpect
  refine ⟨o, ho, ?_⟩
  intro q row hrow l hl
  have hq : q < o.aut.nstates := by rw [← K.rows_len]; exact (List.getElem?_eq_some_iff.mp hrow).1
  have hrow' := K.rows q hq
  rw [hrow] at hrow'
  simp only [Option.some.injEq] at hrow'
  have hsame := (K.row q hq).same
  rw [← hrow'] at hsame
  have hsorted : row.Pairwise RowOrder := by
    have := K.sorted q hq
    rw [← hsame, List.pairwise_map] at this
    exact this
  have hred : ∀ x ∈ row, x.code = .REDUCE → ∃ r A α, x.number = r + 2 ∧
      (augCFG ntokens (rs.map SrcRule.rule)).rules[r]? = some (A, α) ∧ g.lhs x.number = A := by
    intro x hx hc
    have hm : x.supp 0 ∈ o.acts g sp q := by rw [← hsame]; exact List.mem_map.2 ⟨x, hx, rfl⟩
    rcases (K.mem q hq _).mp hm with ⟨X, t, _, _, e⟩ | ⟨r, t, ⟨d, hA, hC⟩, _, _, e⟩
    · have : x.code = .SHIFT := by have := congrArg Action.code e; exact this
      rw [this] at hc; cases hc
    · have hn : x.number = r + 2 := congrArg Action.number e
      obtain ⟨A, α, hr, _⟩ := hC
      exact ⟨r, A, α, hn, hr, by rw [hn]; exact K.ctx.packs.lhs r A α hr⟩
  obtain ⟨pre, mid, post, x, p, e, hxp, hp1, rfl⟩ := conflictLoop_spec g _ row [] row _ (by simp) (.inl rfl) l hl
  have hx : x ∈ row := by rw [e]; simp
  have hp : p ∈ row := by rw [e]; simp
  have hord : RowOrder x p := by
    rw [e, List.pairwise_append] at hsorted
    exact (List.pairwise_cons.1 hsorted.2.1).1 p (by simp)
  have hpc : p.code = .REDUCE ∧ (x.code = .REDUCE → x.number < p.number) := by
    rcases hord with h | ⟨_, ⟨h1, h2⟩ | ⟨h1, h2, h3⟩⟩
    · omega
    · exact ⟨h2, fun h => by rw [h1] at h; cases h⟩
    · exact ⟨h2, fun _ => h3⟩
  obtain ⟨r, A, α, hn, hr, hl⟩ := hred p hp hpc.1
  have hR : ∀ y ∈ row, ∀ r, y.code = .REDUCE → y.number = r + 2 → ReducesIn row r y.symbol := by
    intro y hy r hc hn; exact ⟨y, hy, hc, rfl, hn⟩
  unfold conflictLine
  simp only
  split
  · rename_i hf
    simp only [Bool.and_eq_true, beq_iff_eq] at hf
    refine ⟨⟨hf.1, ⟨α, by rw [hn, Nat.add_sub_cancel, ← hn, hl]; exact hr⟩, ?_⟩, by intro _ _ _ _ _ h; cases h⟩
    have : p.symbol = 0 := by omega
    rw [← this, hn, Nat.add_sub_cancel]
    exact hR p hp r hpc.1 hn
  · split
    · rename_i hs
      have hs : x.code = .SHIFT := by simpa using hs
      refine ⟨⟨⟨α, by rw [hn, Nat.add_sub_cancel, ← hn, hl]; exact hr⟩, ?_, x, hx, hs, hxp, rfl⟩, by intro _ _ _ _ _ h; cases h⟩
      rw [hn, Nat.add_sub_cancel]
      exact hR p hp r hpc.1 hn
    · rename_i hs
      have hs : x.code = .REDUCE := by cases h : x.code with | SHIFT => simp [h] at hs | REDUCE => rfl
      obtain ⟨r', A', α', hn', hr', _⟩ := hred x hx hs
      have hlt := hpc.2 hs
      refine ⟨⟨by omega, ⟨α, by rw [hn, Nat.add_sub_cancel, ← hn, hl]; exact hr⟩, ⟨A', α', by rw [hn', Nat.add_sub_cancel]; exact hr'⟩, ?_, ?_⟩, ?_⟩
      · rw [hn', Nat.add_sub_cancel, ← hxp]; exact hR x hx r' hs hn'
      · rw [hn, Nat.add_sub_cancel]; exact hR p hp r hpc.1 hn
      · intro r1 l1 r2 l2 X he k hk
        simp only [CLine.rr.injEq] at he
        obtain ⟨e1, e2, -⟩ := he
        have hk' : k < (augCFG ntokens (rs.map SrcRule.rule)).rules.length := by
          have := (List.getElem?_eq_some_iff.mp hr').1
          omega
        obtain ⟨B, β⟩ : ∃ B : Nat × List Nat, (augCFG ntokens (rs.map SrcRule.rule)).rules[k]? = some B := ⟨_, List.getElem?_eq_getElem hk'⟩
        have := K.ctx.packs.lhs k B.1 B.2 (by rw [β])
        refine ⟨B.2, ?_⟩
        rw [β, ← e2, e1, hk, this]

/-- `s : a | b ;  a : 'x' ;  b : 'x' ;` — tokens `$end`, `error`, `'x'`; s is 4, a is 5, b is 6. -/
def c25B (i : Nat) : Bucket := ⟨i, decide (i < 3), 0, .TOKEN⟩
def c25Rules : List SrcRule := [⟨c25B 4, [c25B 5], UNDEFINED, .TOKEN⟩, ⟨c25B 4, [c25B 6], UNDEFINED, .TOKEN⟩,
  ⟨c25B 5, [c25B 2], UNDEFINED, .TOKEN⟩, ⟨c25B 6, [c25B 2], UNDEFINED, .TOKEN⟩]
def c25G : Gram := packGrammar false 3 7 (c25Rules.map SrcRule.p) (encPitem c25Rules)
def c25SP : SymPrec := ⟨List.replicate 7 0, List.replicate 7 .TOKEN⟩

/-- All lines of the report. -/
def allLines (g : Gram) (p : Parser) : List CLine :=
  (p.rows.zipIdx).flatMap fun (row, q) => printConflicts g (q == p.final) row

/-- C25 is violated: for the only conflict of this grammar the report names `s` as the left side of
rule 3, which is `a : 'x'`. -/
theorem C25_violated : UserRules 3 7 (c25Rules.map SrcRule.rule) ∧
    (augCFG 3 (c25Rules.map SrcRule.rule)).rules[3]? = some (5, [2]) ∧
    ∃ o, generate c25G c25SP false (-1) (-1) = some o ∧ o.parser.RRtotal = 1 ∧
      allLines c25G o.parser = [.rr 3 4 4 6 0] := by
  refine ⟨⟨by decide, by decide, ?_⟩, rfl, ?_⟩
  · intro A α h
    simp [c25Rules, SrcRule.rule, c25B] at h
    rcases h with ⟨rfl, rfl⟩ | ⟨rfl, rfl⟩ | ⟨rfl, rfl⟩ | ⟨rfl, rfl⟩ <;> simp
  · have hev : (genWith 20 c25G c25SP false (-1) (-1)).map (fun o => (o.parser.RRtotal, allLines c25G o.parser)) =
        some (1, [.rr 3 4 4 6 0]) := by decide +kernel
    obtain ⟨o, h1, h2⟩ := some_of_map hev
    simp only [Prod.mk.injEq] at h2
    exact ⟨o, generate_of_genWith h1 (by decide), h2⟩

/-- The dangling else, `s : 'i' s | 'i' s 'e' s | 'x'` (tokens 2, 3, 4; s is 6), has one shift/reduce conflict: shift to
state 5 or reduce by rule 1 on `'e'`. -/
def c25eB (i : Nat) : Bucket := ⟨i, decide (i < 5), 0, .TOKEN⟩
def c25eRules : List SrcRule := [⟨c25eB 6, [c25eB 2, c25eB 6], UNDEFINED, .TOKEN⟩,
  ⟨c25eB 6, [c25eB 2, c25eB 6, c25eB 3, c25eB 6], UNDEFINED, .TOKEN⟩, ⟨c25eB 6, [c25eB 4], UNDEFINED, .TOKEN⟩]
def c25eG : Gram := packGrammar false 5 7 (c25eRules.map SrcRule.p) (encPitem c25eRules)

example : (genWith 20 c25eG c25SP false (-1) (-1)).map (fun o => (o.parser.SRtotal, o.parser.RRtotal, allLines c25eG o.parser)) =
    some (1, 0, [.sr 5 1 6 3]) := by decide +kernel

/-! ## C61 -/

/-- Lines reporting a shift/reduce conflict. -/
def CLine.isSR : CLine → Bool
  | .rr .. => false
  | _ => true

/-- One round of the loop at byacc/verbose.c:131-172. -/
def pcNext (g : Gram) (fin : Bool) (c : PCSt × List CLine) (p : Action) : PCSt × List CLine :=
  if p.suppressed = 2 then c
  else if (p.symbol : Int) ≠ c.1.symbol then (⟨p.symbol, p.number, p.code == .SHIFT⟩, c.2)
  else if p.suppressed = 1 then (c.1, c.2 ++ [conflictLine g fin c.1 p])
  else c

theorem conflictLoop_fold (g : Gram) (fin : Bool) (acts : List Action) : ∀ (st : PCSt) (ls : List CLine),
    (acts.foldl (pcNext g fin) (st, ls)).2 = ls ++ conflictLoop g fin st acts := by
  induction acts with
  | nil => intro st ls; simp [conflictLoop]
  | cons p acts ih =>
    intro st ls
    rw [List.foldl_cons, conflictLoop]
    unfold pcNext
    split
    · exact ih _ _
    · split
      · exact ih _ _
      · split
        · refine (ih _ _).trans ?_; simp
        · exact ih _ _

/-- Counts agree and the loop of the report has remembered the preferred action. -/
def Agrees (g : Gram) (fin : Bool) (c : CR) : Prop :=
  let d := (c.visited.foldl (pcNext g fin) (⟨-1, 0, false⟩, []))
  d.1.symbol = c.symbol ∧ (∀ q, c.pref = some q → d.1.number = q.number ∧ d.1.shift = (q.code == .SHIFT)) ∧
  (c.pref = none → c.symbol = -1) ∧
  d.2.countP (·.isSR) = c.sr ∧ d.2.countP (fun l => !l.isSR) = c.rr

theorem pcNext_first (g : Gram) (fin : Bool) (d : PCSt × List CLine) (p : Action) (h2 : p.suppressed ≠ 2)
    (hs : (p.symbol : Int) ≠ d.1.symbol) : pcNext g fin d p = (⟨p.symbol, p.number, p.code == .SHIFT⟩, d.2) := by
  rw [pcNext, if_neg h2, if_pos hs]

theorem pcNext_line (g : Gram) (fin : Bool) (d : PCSt × List CLine) (p : Action)
    (hs : (p.symbol : Int) = d.1.symbol) : pcNext g fin d (p.supp 1) = (d.1, d.2 ++ [conflictLine g fin d.1 (p.supp 1)]) := by
  rw [pcNext, if_neg (by simp [Action.supp]), if_neg (by simpa [Action.supp] using hs), if_pos (by rfl)]

theorem agrees_step (lemon : Bool) (g : Gram) (fin : Bool) (c : CR) (p : Action) (h0 : p.suppressed = 0)
    (h : (∃ x ∈ c.visited, x.suppressed = 2) ∨ Agrees g fin c) :
    (∃ x ∈ (crStep lemon fin c p).visited, x.suppressed = 2) ∨ Agrees g fin (crStep lemon fin c p) := by
  -- a mark 2 is never taken back
  have keep2 : ∀ (c' : CR) (p' : Action), c'.before = c.before → c'.between = c.between ++ [p'] →
      (c'.pref = c.pref ∨ ∃ q, c.pref = some q ∧ c'.pref = some (q.supp 2)) →
      (∃ x ∈ c.visited, x.suppressed = 2) → ∃ x ∈ c'.visited, x.suppressed = 2 := by
    intro c' p' e1 e2 e3 ⟨x, hx, h2⟩
    simp only [CR.visited, List.mem_append, Option.mem_toList] at hx
    rcases e3 with e3 | ⟨q, e3, e4⟩
    · refine ⟨x, ?_, h2⟩
      simp only [CR.visited, e1, e2, e3, List.mem_append, Option.mem_toList]
      rcases hx with hx | hx | hx <;> simp [hx]
    · exact ⟨q.supp 2, by simp [CR.visited, e4], rfl⟩
  have repl2 : ∀ (q : Action), c.pref = some q → ∃ x ∈ (c.replace q p).visited, x.suppressed = 2 := by
    intro q _
    exact ⟨q.supp 2, by simp [CR.replace, CR.visited], rfl⟩
  have kept2 : ∃ x ∈ (c.keep (p.supp 2)).visited, x.suppressed = 2 :=
    ⟨p.supp 2, by simp [CR.keep, CR.visited], rfl⟩
  have vis : (c.keep (p.supp 1)).visited = c.visited ++ [p.supp 1] := by simp [CR.keep, CR.visited]
  have vis' : (c.keep p).visited = c.visited ++ [p] := by simp [CR.keep, CR.visited]
  by_cases hs : (p.symbol : Int) ≠ c.symbol
  · rw [crStep, if_pos hs]
    rcases h with ⟨x, hx, h2⟩ | ⟨a1, a2, a3, a4, a5⟩
    · exact .inl ⟨x, by simp only [CR.visited] at hx ⊢; simp only [List.mem_append] at hx ⊢; exact .inl hx, h2⟩
    · right
      have ev : (CR.visited { c with before := c.visited, pref := some p, between := [], symbol := p.symbol }) = c.visited ++ [p] := by
        simp [CR.visited]
      unfold Agrees
      simp only [ev]
      rw [List.foldl_append]
      simp only [List.foldl_cons, List.foldl_nil]
      rw [pcNext_first g fin _ p (by omega) (by rw [a1]; exact hs)]
      exact ⟨rfl, fun q hq => by cases hq; exact ⟨rfl, rfl⟩, by simp, a4, a5⟩
  · have hs' : (p.symbol : Int) = c.symbol := by simpa using hs
    rw [crStep, if_neg hs]
    -- the three places where a conflict is counted
    have count : ∀ (sr rr : Nat), (Agrees g fin c →
          ∀ d, d = c.visited.foldl (pcNext g fin) (⟨-1, 0, false⟩, []) →
            (conflictLine g fin d.1 (p.supp 1)).isSR = true ∧ sr = c.sr + 1 ∧ rr = c.rr ∨
            (conflictLine g fin d.1 (p.supp 1)).isSR = false ∧ sr = c.sr ∧ rr = c.rr + 1) →
        (∃ x ∈ (CR.visited { c.keep (p.supp 1) with sr := sr, rr := rr }), x.suppressed = 2) ∨
          Agrees g fin { c.keep (p.supp 1) with sr := sr, rr := rr } := by
      intro sr rr hcount
      rcases h with h | h
      · exact .inl (keep2 _ (p.supp 1) rfl rfl (.inl rfl) h)
      · right
        have hc := hcount h _ rfl
        obtain ⟨a1, a2, a3, a4, a5⟩ := h
        have ev : (CR.visited { c.keep (p.supp 1) with sr := sr, rr := rr }) = c.visited ++ [p.supp 1] := vis
        unfold Agrees
        simp only [ev]
        rw [List.foldl_append]
        simp only [List.foldl_cons, List.foldl_nil]
        rw [pcNext_line g fin _ p (by rw [a1]; exact hs')]
        refine ⟨a1, a2, a3, ?_, ?_⟩ <;> simp only [List.countP_append, a4, a5, List.countP_singleton] <;>
          rcases hc with ⟨e1, e2, e3⟩ | ⟨e1, e2, e3⟩ <;> simp [e1, e2, e3]
    split
    · rename_i hf
      refine count (c.sr + 1) c.rr ?_
      intro ha d hd
      refine .inl ⟨?_, rfl, rfl⟩
      rw [conflictLine, if_pos (by rw [hd, ha.1]; exact hf)]; rfl
    · rename_i hf
      split
      · rename_i hp
        rcases h with h | h
        · exact .inl (keep2 _ p rfl rfl (.inl rfl) h)
        · exfalso
          have := h.2.2.1 hp
          omega
      · rename_i q hq
        have hfin : ∀ d : PCSt, d.symbol = c.symbol → (fin && d.symbol == 0) = false := by
          intro d hd; rw [hd]; simpa using hf
        split
        · rename_i hsh
          split
          · split
            · exact .inl (repl2 q hq)
            · split
              · exact .inl kept2
              · split
                · exact .inl (repl2 q hq)
                · split
                  · exact .inl kept2
                  · exact .inl ⟨q.supp 2, by simp [CR.keep, CR.visited], rfl⟩
          · refine count (c.sr + 1) c.rr ?_
            intro ha d hd
            refine .inl ⟨?_, rfl, rfl⟩
            have e := (ha.2.1 q hq).2
            rw [← hd, hsh] at e
            rw [conflictLine, if_neg (by rw [hfin d.1 (by rw [hd]; exact ha.1)]; simp), if_pos (by rw [e]; rfl)]; rfl
        · rename_i hsh
          split
          · exact .inl (repl2 q hq)
          · split
            · exact .inl kept2
            · refine count c.sr (c.rr + 1) ?_
              intro ha d hd
              refine .inr ⟨?_, rfl, rfl⟩
              have e := (ha.2.1 q hq).2
              have hr : q.code = .REDUCE := by cases h : q.code with | SHIFT => exact absurd h hsh | REDUCE => rfl
              rw [← hd, hr] at e
              rw [conflictLine, if_neg (by rw [hfin d.1 (by rw [hd]; exact ha.1)]; simp), if_neg (by rw [e]; simp)]; rfl

theorem agrees_row (lemon : Bool) (g : Gram) (fin : Bool) (acts : List Action) (h0 : ∀ p ∈ acts, p.suppressed = 0) :
    (∃ x ∈ (crRow lemon fin acts).visited, x.suppressed = 2) ∨ Agrees g fin (crRow lemon fin acts) := by
  unfold crRow
  have : ∀ (acts : List Action) (c : CR), (∀ p ∈ acts, p.suppressed = 0) →
      (∃ x ∈ c.visited, x.suppressed = 2) ∨ Agrees g fin c →
      (∃ x ∈ (acts.foldl (crStep lemon fin) c).visited, x.suppressed = 2) ∨ Agrees g fin (acts.foldl (crStep lemon fin) c) := by
    intro acts
    induction acts with
    | nil => intro c _ h; exact h
    | cons p acts ih =>
      intro c h0 h
      exact ih _ (fun q hq => h0 q (by simp [hq])) (agrees_step lemon g fin c p (h0 p (by simp)) h)
  refine this acts _ h0 (.inr ?_)
  unfold Agrees
  simp [CR.visited]

/-- C61 (partial): in every generated parser, a state none of whose actions was discarded by precedence gets one
line for each conflict counted: as many lines for shift/reduce conflicts as shift/reduce conflicts counted and as
many for reduce/reduce conflicts.  Missing for the full claim: states where precedence discarded an
action (there it fails). -/
theorem C61_lines_partial (lp : Bool) (ntokens nsyms : Nat) (rs : List SrcRule)
    (h : UserRules ntokens nsyms (rs.map SrcRule.rule)) (g : Gram)
    (hg : g = packGrammar lp ntokens nsyms (rs.map SrcRule.p) (encPitem rs))
    (sp : SymPrec) (lemon : Bool) (srExpect rrExpect : Int) :
    ∃ o, generate g sp lemon srExpect rrExpect = some o ∧
      ∀ (q : Nat) (row : List Action), o.parser.rows[q]? = some row → (∀ x ∈ row, x.suppressed ≠ 2) →
        o.parser.SRconflicts[q]? = some ((printConflicts g (q == o.parser.final) row).countP (·.isSR)) ∧
        o.parser.RRconflicts[q]? = some ((printConflicts g (q == o.parser.final) row).countP (fun l => !l.isSR)) := by
  obtain ⟨o, ho, K⟩ := generate_ok lp ntokens nsyms rs h g hg sp lemon srExpect rrExpect
  refine ⟨o, ho, ?_⟩
  intro q row hrow h2
  have hq : q < o.aut.nstates := by rw [← K.rows_len]; exact (List.getElem?_eq_some_iff.mp hrow).1
  have hrow' := K.rows q hq
  rw [hrow] at hrow'
  simp only [Option.some.injEq] at hrow'
  have h0 : ∀ p ∈ o.acts g sp q, p.suppressed = 0 := by
    intro p hp
    rcases (K.mem q hq p).1 hp with ⟨X, t, _, _, rfl⟩ | ⟨r, t, _, _, _, rfl⟩ <;> rfl
  rcases agrees_row lemon g (q == o.parser.final) _ h0 with ⟨x, hx, h⟩ | ⟨_, _, _, a4, a5⟩
  · rw [← hrow'] at hx
    exact absurd h (h2 x hx)
  · rw [← hrow', conflictLoop_fold] at a4 a5
    simp only [List.nil_append] at a4 a5
    have hacts : ((List.range o.aut.nstates).map (parseActions g sp o.aut o.look)).getD q [] = o.acts g sp q := by
      rw [List.getD_eq_getElem?_getD, List.getElem?_map, List.getElem?_range hq]; rfl
    have hfin : findFinalState g o.aut = o.parser.final := by rw [K.parser]; rfl
    constructor
    · rw [printConflicts, a4]
      conv_lhs => rw [K.parser]
      simp only [makeParser, List.getElem?_map, List.getElem?_range hq, Option.map_some, hacts, hfin]
    · rw [printConflicts, a5]
      conv_lhs => rw [K.parser]
      simp only [makeParser, List.getElem?_map, List.getElem?_range hq, Option.map_some, hacts, hfin]

/-- `%nonassoc '<'` and `e : e '<' e | f | 'n' ;  f : e '<' e %prec Z ;` — tokens `$end`, `error`, `'<'`, `'n'`, `Z`; e is 6,
f is 7. -/
def c61B (i : Nat) : Bucket := ⟨i, decide (i < 5), if i = 2 then 1 else 0, if i = 2 then .NONASSOC else .TOKEN⟩
def c61Rules : List SrcRule := [⟨c61B 6, [c61B 6, c61B 2, c61B 6], UNDEFINED, .TOKEN⟩, ⟨c61B 6, [c61B 7], UNDEFINED, .TOKEN⟩,
  ⟨c61B 6, [c61B 3], UNDEFINED, .TOKEN⟩, ⟨c61B 7, [c61B 6, c61B 2, c61B 6], 0, .TOKEN⟩]
def c61G : Gram := packGrammar false 5 8 (c61Rules.map SrcRule.p) (encPitem c61Rules)
def c61SP : SymPrec := ⟨(List.replicate 8 0).set 2 1, (List.replicate 8 .TOKEN).set 2 .NONASSOC⟩

/-- C61 is violated: the shift of `'<'` and the reduction by rule 1 are both discarded because of
`%nonassoc`, then the reduction by rule 4 is counted as a shift/reduce conflict but no line is printed for it. -/
theorem C61_violated : UserRules 5 8 (c61Rules.map SrcRule.rule) ∧
    ∃ o, generate c61G c61SP false (-1) (-1) = some o ∧ o.parser.SRtotal = 1 ∧
      (allLines c61G o.parser).countP (·.isSR) = 0 := by
  refine ⟨⟨by decide, by decide, ?_⟩, ?_⟩
  · intro A α h
    simp [c61Rules, SrcRule.rule, c61B] at h
    rcases h with ⟨rfl, rfl⟩ | ⟨rfl, rfl⟩ | ⟨rfl, rfl⟩ | ⟨rfl, rfl⟩ <;> simp
  · have hev : (genWith 20 c61G c61SP false (-1) (-1)).map (fun o => (o.parser.SRtotal, (allLines c61G o.parser).countP (·.isSR))) =
        some (1, 0) := by decide +kernel
    obtain ⟨o, h1, h2⟩ := some_of_map hev
    simp only [Prod.mk.injEq] at h2
    exact ⟨o, generate_of_genWith h1 (by decide), h2⟩

/-! ## C26 -/

theorem insertNull_spec (i : Nat) (l : List Nat) (h : l.Pairwise (· < ·)) :
    (insertNull i l).Pairwise (· < ·) ∧ ∀ x, x ∈ insertNull i l ↔ x = i ∨ x ∈ l := by
  induction l with
  | nil => simp [insertNull]
  | cons a l ih =>
    obtain ⟨h1, h2⟩ := List.pairwise_cons.1 h
    obtain ⟨i1, i2⟩ := ih h2
    rw [insertNull]
    split
    · refine ⟨List.pairwise_cons.2 ⟨?_, i1⟩, ?_⟩
      · intro x hx
        rcases (i2 x).1 hx with rfl | hx
        · omega
        · exact h1 x hx
      · intro x
        simp only [List.mem_cons, i2]
        tauto
    · split
      · refine ⟨List.pairwise_cons.2 ⟨?_, h⟩, by simp⟩
        intro x hx
        rcases List.mem_cons.1 hx with rfl | hx
        · omega
        · have := h1 x hx; omega
      · refine ⟨h, ?_⟩
        intro x
        simp only [List.mem_cons]
        constructor
        · tauto
        · rintro (rfl | h) <;> [left; exact h]; omega

theorem nullRules_spec (g : Gram) (acts : List Action) :
    (nullRules g acts).Pairwise (· < ·) ∧ ∀ k, k ∈ nullRules g acts ↔
      g.rhs k + 1 = g.rhs (k + 1) ∧ ∃ p ∈ acts, p.code = .REDUCE ∧ (p.suppressed = 0 ∨ p.suppressed = 1) ∧ p.number = k := by
  unfold nullRules
  induction acts using List.reverseRecOn with
  | nil => simp
  | append_singleton acts p ih =>
    obtain ⟨i1, i2⟩ := ih
    rw [List.foldl_append]
    simp only [List.foldl_cons, List.foldl_nil]
    have other : ¬ (p.code = .REDUCE ∧ (p.suppressed = 0 ∨ p.suppressed = 1)) ∨ ¬ (g.rhs p.number + 1 = g.rhs (p.number + 1)) →
        ∀ k, (g.rhs k + 1 = g.rhs (k + 1) ∧ ∃ x ∈ acts, x.code = .REDUCE ∧ (x.suppressed = 0 ∨ x.suppressed = 1) ∧ x.number = k) ↔
          (g.rhs k + 1 = g.rhs (k + 1) ∧ ∃ x ∈ acts ++ [p], x.code = .REDUCE ∧ (x.suppressed = 0 ∨ x.suppressed = 1) ∧ x.number = k) := by
      intro hno k
      constructor
      · rintro ⟨h, x, hx, hr⟩; exact ⟨h, x, by simp [hx], hr⟩
      · rintro ⟨h, x, hx, h1, h2, h3⟩
        rw [List.mem_append, List.mem_singleton] at hx
        rcases hx with hx | rfl
        · exact ⟨h, x, hx, h1, h2, h3⟩
        · subst h3
          rcases hno with hno | hno
          · exact absurd ⟨h1, h2⟩ hno
          · exact absurd h hno
    split
    · rename_i hp
      split
      · rename_i he
        obtain ⟨j1, j2⟩ := insertNull_spec p.number _ i1
        refine ⟨j1, ?_⟩
        intro k
        rw [j2, i2]
        constructor
        · rintro (rfl | ⟨h, x, hx, hr⟩)
          · exact ⟨he, p, by simp, hp.1, hp.2, rfl⟩
          · exact ⟨h, x, by simp [hx], hr⟩
        · rintro ⟨h, x, hx, h1, h2, h3⟩
          rw [List.mem_append, List.mem_singleton] at hx
          rcases hx with hx | rfl
          · exact .inr ⟨h, x, hx, h1, h2, h3⟩
          · exact .inl h3.symm
      · rename_i he
        exact ⟨i1, fun k => (i2 k).trans (other (.inr he) k)⟩
    · rename_i hp
      exact ⟨i1, fun k => (i2 k).trans (other (.inl hp) k)⟩

theorem crRow_marks (lemon fin : Bool) (acts : List Action) (h0 : ∀ p ∈ acts, p.suppressed = 0) :
    ∀ x ∈ (crRow lemon fin acts).visited, x.suppressed ≤ 2 := by
  unfold crRow
  suffices h : ∀ (acts : List Action) (c : CR), (∀ p ∈ acts, p.suppressed = 0) → (∀ x ∈ c.visited, x.suppressed ≤ 2) →
      ∀ x ∈ (acts.foldl (crStep lemon fin) c).visited, x.suppressed ≤ 2 from h acts _ h0 (by simp [CR.visited])
  intro acts
  induction acts with
  | nil => intro c _ h; exact h
  | cons p acts ih =>
    intro c h0 h
    refine ih _ (fun q hq => h0 q (by simp [hq])) ?_
    have hp := h0 p (by simp)
    have hk : ∀ n, n ≤ 2 → ∀ x ∈ c.visited ++ [p.supp n], x.suppressed ≤ 2 := by
      intro n hn x hx
      rw [List.mem_append, List.mem_singleton] at hx
      rcases hx with hx | rfl
      · exact h x hx
      · exact hn
    have hr : ∀ q, c.pref = some q → ∀ x ∈ (c.replace q p).visited, x.suppressed ≤ 2 := by
      intro q hq x hx
      simp only [CR.visited, CR.replace, Option.toList_some, List.append_nil, List.mem_append, List.mem_cons, List.not_mem_nil, or_false] at hx
      rcases hx with (hx | rfl | hx) | rfl
      · exact h x (by simp [CR.visited, hx])
      · simp [Action.supp]
      · exact h x (by simp [CR.visited, hx])
      · omega
    have e : ∀ y, (c.keep y).visited = c.visited ++ [y] := by intro y; simp [CR.keep, CR.visited]
    have e1 : ∀ y sr rr, (CR.visited { c.keep y with sr := sr, rr := rr }) = c.visited ++ [y] := by
      intro y _ _; simp [CR.keep, CR.visited]
    have hself : p = p.supp 0 := by rw [supp_zero hp]
    unfold crStep
    split
    · have : (CR.visited { c with before := c.visited, pref := some p, between := [], symbol := p.symbol }) = c.visited ++ [p] := by
        simp [CR.visited]
      rw [this, hself]; exact hk 0 (by omega)
    · split
      · rw [e1]; exact hk 1 (by omega)
      · split
        · rw [e, hself]; exact hk 0 (by omega)
        · rename_i q hq
          split
          · split
            · split
              · exact hr q hq
              · split
                · rw [e]; exact hk 2 (by omega)
                · split
                  · exact hr q hq
                  · split
                    · rw [e]; exact hk 2 (by omega)
                    · intro x hx
                      simp only [CR.visited, CR.keep, Option.toList_some, List.mem_append, List.mem_cons, List.not_mem_nil, or_false] at hx
                      rcases hx with hx | rfl | hx | rfl
                      · exact h x (by simp [CR.visited, hx])
                      · simp [Action.supp]
                      · exact h x (by simp [CR.visited, hx])
                      · simp [Action.supp]
            · rw [e1]; exact hk 1 (by omega)
          · split
            · exact hr q hq
            · split
              · rw [e]; exact hk 2 (by omega)
              · rw [e1]; exact hk 1 (by omega)

/-- C26: for every state of every generated parser, the list of empty rules printed is strictly increasing and
consists exactly of the empty rules by which an action of the state reduces, except those of actions that precedence
discarded (mark 2).  Rules are numbered as printed, that is from 1 in the order written. -/
theorem C26_nulls (lp : Bool) (ntokens nsyms : Nat) (rs : List SrcRule)
    (h : UserRules ntokens nsyms (rs.map SrcRule.rule)) (g : Gram)
    (hg : g = packGrammar lp ntokens nsyms (rs.map SrcRule.p) (encPitem rs))
    (sp : SymPrec) (lemon : Bool) (srExpect rrExpect : Int) :
    ∃ o, generate g sp lemon srExpect rrExpect = some o ∧
      ∀ (q : Nat) (row : List Action), o.parser.rows[q]? = some row →
        ((nullRules g row).map (· - 2)).Pairwise (· < ·) ∧
        ∀ r, r ∈ (nullRules g row).map (· - 2) ↔
          ∃ A, (augCFG ntokens (rs.map SrcRule.rule)).rules[r]? = some (A, []) ∧
            ∃ x ∈ row, x.code = .REDUCE ∧ x.number = r + 2 ∧ x.suppressed ≠ 2 := by
  obtain ⟨o, ho, K⟩ := generate_ok lp ntokens nsyms rs h g hg sp lemon srExpect rrExpect
  refine ⟨o, ho, ?_⟩
  intro q row hrow
  have hq : q < o.aut.nstates := by rw [← K.rows_len]; exact (List.getElem?_eq_some_iff.mp hrow).1
  have hrow' := K.rows q hq
  rw [hrow] at hrow'
  simp only [Option.some.injEq] at hrow'
  have hsame := (K.row q hq).same
  rw [← hrow'] at hsame
  have hred : ∀ x ∈ row, x.code = .REDUCE → ∃ r A α, x.number = r + 2 ∧
      (augCFG ntokens (rs.map SrcRule.rule)).rules[r]? = some (A, α) := by
    intro x hx hc
    have hm : x.supp 0 ∈ o.acts g sp q := by rw [← hsame]; exact List.mem_map.2 ⟨x, hx, rfl⟩
    rcases (K.mem q hq _).mp hm with ⟨X, t, _, _, e⟩ | ⟨r, t, ⟨d, hA, hC⟩, _, _, e⟩
    · have : x.code = .SHIFT := by have := congrArg Action.code e; exact this
      rw [this] at hc; cases hc
    · have hn : x.number = r + 2 := congrArg Action.number e
      obtain ⟨A, α, hr, _⟩ := hC
      exact ⟨r, A, α, hn, hr⟩
  have hsupp : ∀ x ∈ row, x.suppressed ≠ 2 ↔ (x.suppressed = 0 ∨ x.suppressed = 1) := by
    intro x hx
    have := crRow_marks lemon (q == o.parser.final) (o.acts g sp q) (by
      intro p hp
      rcases (K.mem q hq p).1 hp with ⟨X, t, _, _, rfl⟩ | ⟨r, t, _, _, _, rfl⟩ <;> rfl) x (by rw [← hrow']; exact hx)
    omega
  obtain ⟨n1, n2⟩ := nullRules_spec g row
  have hge : ∀ k ∈ nullRules g row, ∃ r A α, k = r + 2 ∧ (augCFG ntokens (rs.map SrcRule.rule)).rules[r]? = some (A, α) ∧ α = [] := by
    intro k hk
    obtain ⟨he, x, hx, hc, _, hn⟩ := (n2 k).1 hk
    obtain ⟨r, A, α, h1, h2⟩ := hred x hx hc
    have h3 : k = r + 2 := by omega
    subst h3
    have := K.ctx.packs.next r A α h2
    exact ⟨r, A, α, rfl, h2, List.length_eq_zero_iff.1 (by rw [show r + 2 + 1 = r + 3 from rfl] at he; omega)⟩
  constructor
  · rw [List.pairwise_map]
    refine n1.imp_of_mem ?_
    intro a b ha hb hab
    obtain ⟨r, _, _, e, _⟩ := hge a ha
    omega
  · intro r
    simp only [List.mem_map]
    constructor
    · rintro ⟨k, hk, rfl⟩
      obtain ⟨r, A, α, rfl, h2, rfl⟩ := hge k hk
      obtain ⟨_, x, hx, hc, hs, hn⟩ := (n2 _).1 hk
      rw [Nat.add_sub_cancel]
      exact ⟨A, h2, x, hx, hc, hn, (hsupp x hx).2 hs⟩
    · rintro ⟨A, h2, x, hx, hc, hn, hs⟩
      refine ⟨r + 2, (n2 _).2 ⟨?_, x, hx, hc, (hsupp x hx).1 hs, hn⟩, by omega⟩
      have := K.ctx.packs.next r A [] h2
      rw [show r + 2 + 1 = r + 3 from rfl, this]; rfl

/-- `s : a 'x' | b 'x' | b ; a : ; b : ;`: the first state lists the empty rules 4 and 5 (reduced on the tokens 0 and 2). -/
def c26B (i : Nat) : Bucket := ⟨i, decide (i < 3), 0, .TOKEN⟩
def c26Rules : List SrcRule := [⟨c26B 4, [c26B 5, c26B 2], UNDEFINED, .TOKEN⟩, ⟨c26B 4, [c26B 6, c26B 2], UNDEFINED, .TOKEN⟩,
  ⟨c26B 4, [c26B 6], UNDEFINED, .TOKEN⟩, ⟨c26B 5, [], UNDEFINED, .TOKEN⟩, ⟨c26B 6, [], UNDEFINED, .TOKEN⟩]
def c26G : Gram := packGrammar false 3 7 (c26Rules.map SrcRule.p) (encPitem c26Rules)

example : (genWith 20 c26G c25SP false (-1) (-1)).map (fun o => o.parser.rows.map fun row => (nullRules c26G row).map (· - 2)) =
    some [[4, 5], [], [], [], [], []] := by decide +kernel

end Verif.Byacc
