import Verif.Proofs.BtPoss
import Verif.Proofs.BtUsed
import Verif.Props.C13
import Verif.Props.C11
import Verif.Props.C15
/-
C83 — the tables of a backtracking parser list the alternatives of every conflict
(byacc/mkpar.c, byacc/output.c with option -B).
-/
set_option autoImplicit false
namespace Verif.Byacc
open Spec

/-- What may be done on token `X` after the symbols `γ` which lead to state `q` of the automaton: a
shift if the state has a transition; a reduction if `X` is an LALR(1) lookahead of the complete rule. -/
def MayDo (G : CFG) (a : LR0) (γ : List Nat) (q X : Nat) : Choice → Prop
  | .shift s => ShiftsTo a q X s
  | .reduce r => ∃ A α, G.rules[r]? = some (A, α) ∧ LalrLA G byaccInit γ r α.length X

theorem GenB.mayDo {g : Gram} {G : CFG} {sp : SymPrec} {lemon : Bool} {e1 e2 : Int} {o : Generated} (K : GenB g G sp lemon e1 e2 o)
    {γ : List Nat} {q : Nat} (hγ : Path (ShiftsTo o.aut) 0 γ q) (X : Nat) : MayDo G o.aut γ q X = Poss g G o q X := by
  have C := K.A.ctx
  funext a
  cases a with
  | shift s => rfl
  | reduce r =>
    simp only [MayDo, Poss, eq_iff_iff]
    constructor
    · rintro ⟨A, α, hr, hla⟩
      have hi : AItem g G o.aut q r α.length := by
        obtain ⟨γ', hs, z, hz, -⟩ := hla
        exact (C.A.item_valid hγ r α.length).mpr ((hs r α.length).mpr ⟨z, hz⟩)
      exact ⟨⟨_, hi, A, α, hr, rfl⟩, (laSet_lalr C.A C.wf hr hγ hi).mpr hla⟩
    · rintro ⟨⟨d, hd, A, α, hr, rfl⟩, h2⟩
      exact ⟨A, α, hr, (laSet_lalr C.A C.wf hr hγ hd).mp h2⟩

/-- C83: making the parser with backtracking (-B) reports the same conflicts as without; the array of
conflicts is never overrun, and it has something to print if there are conflicts; and the arrays say, for a token `X` in the state reached by `γ`:

- in a state with a default reduction, if precedence decides nothing there, that reduction is the only
  thing that may be done on any token;
- otherwise, if precedence does not decide between two things that may be done on `X`, and there are
  several, the place found for `X` lists all of them, each once, and no table gives just one of them;
- if there are not several, there is no list, and the tables say exactly what may be done;
- whatever the precedences, what is listed may be done, and a list is never empty.

Partial: where precedence decides between some of the possible actions a list may lack others,
even the one precedence prefers, see `C83_violated`. -/
theorem C83_conflict_lists_partial (lp : Bool) (ntokens nsyms : Nat) (rs : List SrcRule)
    (h : UserRules ntokens nsyms (rs.map SrcRule.rule)) (g : Gram)
    (hg : g = packGrammar lp ntokens nsyms (rs.map SrcRule.p) (encPitem rs))
    (sp : SymPrec) (lemon : Bool) (e1 e2 : Int) (sv : List Int) (hsv : SymVals ntokens nsyms sv) :
    let G := augCFG ntokens (rs.map SrcRule.rule)
    ∃ o, generateB g sp lemon e1 e2 = some o ∧
      (∃ p, generate g sp lemon e1 e2 = some p ∧ p.aut = o.aut ∧ p.parser.SRconflicts = o.parser.SRconflicts ∧
        p.parser.RRconflicts = o.parser.RRconflicts ∧ p.parser.SRtotal = o.parser.SRtotal ∧
        p.parser.RRtotal = o.parser.RRtotal ∧ p.parser.failed = o.parser.failed) ∧
      (∃ st, tokenActionsB g sv o = .ok st ∧ (0 < o.parser.SRtotal + o.parser.RRtotal → st.1 ≠ [])) ∧
      ∀ t, outputTablesB g sv o = .ok t → ∀ (γ : List Nat) (q : Nat), Path (ShiftsTo o.aut) 0 γ q →
        (t.defred.getD q 0 ≠ 0 → (∀ X, X < ntokens → ∀ a b, MayDo G o.aut γ q X a → MayDo G o.aut γ q X b → ¬ Decides g sp lemon X a b) →
          ∀ X, X < ntokens → ∀ a, MayDo G o.aut γ q X a → a = .reduce (t.defred.getD q 0)) ∧
        (t.defred.getD q 0 = 0 → ∀ X, X < ntokens →
          (∀ a b, MayDo G o.aut γ q X a → MayDo G o.aut γ q X b → ¬ Decides g sp lemon X a b) →
          ((∃ a b, MayDo G o.aut γ q X a ∧ MayDo G o.aut γ q X b ∧ a ≠ b) →
            ∃ j sh rules, t.conflictOn q (sv.getD X 0) = some j ∧ Lists t.ctable j sh rules ∧
              Enumerates sh rules (MayDo G o.aut γ q X) ∧
              t.shiftOn q (sv.getD X 0) = none ∧ t.reduceOn q (sv.getD X 0) = none) ∧
          ((¬ ∃ a b, MayDo G o.aut γ q X a ∧ MayDo G o.aut γ q X b ∧ a ≠ b) →
            t.conflictOn q (sv.getD X 0) = none ∧
            (∀ s, t.shiftOn q (sv.getD X 0) = some s ↔ MayDo G o.aut γ q X (.shift s)) ∧
            (∀ r, t.reduceOn q (sv.getD X 0) = some r ↔ MayDo G o.aut γ q X (.reduce r)))) ∧
        (t.defred.getD q 0 = 0 → ∀ (x : Int) (j : Nat), 0 ≤ x → t.conflictOn q x = some j →
          ∃ X, X < ntokens ∧ x = sv.getD X 0 ∧ ∃ sh rules, Lists t.ctable j sh rules ∧ (sh = -1 → rules ≠ []) ∧
            (∀ s : Nat, sh = s → MayDo G o.aut γ q X (.shift s)) ∧ (∀ r ∈ rules, MayDo G o.aut γ q X (.reduce r))) := by
  intro G
  obtain ⟨o, ho, hp, K⟩ := generateB_ok lp ntokens nsyms rs h g hg sp lemon e1 e2
  have hnt : g.ntokens = ntokens := K.A.ctx.packs.ntok
  have hns : g.nsyms = nsyms := by rw [hg]; rfl
  have hsv' : SymVals g.ntokens g.nsyms sv := by rw [hnt, hns]; exact hsv
  obtain ⟨c1, c2, c3, c4, c5⟩ := K.counts
  obtain ⟨st, hst, -⟩ := tokenActionsB_ok K hsv'
  refine ⟨o, ho, ⟨_, hp, rfl, c1.symm, c2.symm, c3.symm, c4.symm, c5.symm⟩, ⟨st, hst, fun hp => K.listed hsv' hp hst⟩, ?_⟩
  intro t ht γ q hγ
  have T := outputTablesB_ok K hsv' ht
  have hq : q < o.aut.nstates := K.A.ctx.A.path_lt K.A.ctx.A.pos hγ
  have R := K.rowOK q hq
  have hd : (t.defred.getD q 0 = 0 ∧ o.parser.defred.getD q 0 = 0) ∨
      (0 < t.defred.getD q 0 ∧ o.parser.defred.getD q 0 = t.defred.getD q 0 + 2) := by
    rcases T.defred q hq with ⟨h1, h2⟩ | ⟨r, h0, h1, h2⟩
    · left; rw [List.getD_eq_getElem?_getD, h2]; exact ⟨rfl, h1⟩
    · right; rw [List.getD_eq_getElem?_getD, h2]; exact ⟨h0, h1⟩
  have inj : ∀ a : Action, a ∈ o.parser.rows.getD q [] → ∀ X, X < ntokens → sv.getD X 0 = sv.getD a.symbol 0 → a.symbol = X :=
    fun a ha X hX e => hsv'.inj _ _ (R.sym a ha) (by omega) e.symm
  refine ⟨?_, ?_, ?_⟩
  · intro hne hnp X hX a ha
    rw [K.mayDo hγ] at ha
    obtain ⟨h1, h2⟩ := hd.resolve_left (fun h => hne h.1)
    obtain ⟨k1, -⟩ := (K.defred hq (show 0 < t.defred.getD q 0 + 2 by omega)).1 h2
    obtain ⟨x, hx, rfl, rfl⟩ := K.row_of_poss hq (by omega) ha
    have hm := K.marks hq (X := x.symbol) (by
      intro a b ha hb
      have := hnp x.symbol hX a b
      rw [K.mayDo hγ] at this
      exact this ha hb) x hx rfl
    obtain ⟨c1, c2⟩ := k1 x hx (by rw [hm]; split <;> omega)
    unfold Action.choice
    rw [if_neg (by rw [c1]; simp), c2]
    rfl
  · intro h0 X hX hnp
    obtain ⟨-, hd0⟩ := hd.resolve_right (fun h => by omega)
    rw [K.mayDo hγ] at hnp ⊢
    have hm := K.marks hq hnp
    have htwo : (∃ a b, Poss g G o q X a ∧ Poss g G o q X b ∧ a ≠ b) ↔ 2 ≤ onTok X (o.parser.rows.getD q []) := by
      rw [two_onTok R.nodup]
      constructor
      · rintro ⟨a, b, ha, hb, hne⟩
        obtain ⟨x, hx, hxX, rfl⟩ := K.row_of_poss hq (by omega) ha
        obtain ⟨y, hy, hyX, rfl⟩ := K.row_of_poss hq (by omega) hb
        exact ⟨x, hx, y, hy, (fun e => hne (by rw [e])), hxX, hyX⟩
      · rintro ⟨x, hx, y, hy, hne, rfl, hyX⟩
        refine ⟨x.choice, y.choice, (K.poss_of_row hq hx).1, ?_, ?_⟩
        · rw [← hyX]; exact (K.poss_of_row hq hy).1
        · intro e; exact hne (K.choice_inj hq hx hy hyX.symm e)
    rw [htwo]
    constructor
    · intro h2
      rw [if_pos h2] at hm
      obtain ⟨x0, hx0, -, -, -, hx0X, -⟩ := (two_onTok R.nodup).1 h2
      obtain ⟨j, hj⟩ := T.conflict q hq X ⟨x0, hx0, hx0X, hm x0 hx0 hx0X⟩
      obtain ⟨X', hX', eX, sh, rules, l1, l2, l3⟩ := T.lists K hq h0 (hsv'.nonneg X (by omega)) hj
      have : X' = X := hsv'.inj _ _ hX' (by omega) eX.symm
      subst this
      refine ⟨j, sh, rules, hj, l1, ?_, ?_, ?_⟩
      · have e : (fun a => ∃ x ∈ o.parser.rows.getD q [], x.symbol = X' ∧ x.suppressed = 1 ∧ x.choice = a) = Poss g G o q X' := by
          funext a
          simp only [eq_iff_iff]
          constructor
          · rintro ⟨x, hx, rfl, -, rfl⟩; exact (K.poss_of_row hq hx).1
          · intro ha
            obtain ⟨x, hx, hxX, rfl⟩ := K.row_of_poss hq (by omega) ha
            exact ⟨x, hx, hxX, hm x hx hxX, rfl⟩
        rw [← e]; exact l3
      · cases hs : t.shiftOn q (sv.getD X' 0) with
        | none => rfl
        | some y =>
          obtain ⟨a, ha, hsh, e, -⟩ := (T.shift q hq _ y (hsv'.nonneg X' (by omega))).1 hs
          have := hm a ha (inj a ha X' hX e)
          unfold Action.isSh at hsh
          omega
      · cases hs : t.reduceOn q (sv.getD X' 0) with
        | none => rfl
        | some y =>
          obtain ⟨a, ha, hsh, e, -⟩ := (T.reduce q hq _ y (hsv'.nonneg X' (by omega))).1 hs
          have := hm a ha (inj a ha X' hX e)
          unfold Action.isRe at hsh
          omega
    · intro h2
      rw [if_neg h2] at hm
      refine ⟨?_, ?_, ?_⟩
      · cases hj : t.conflictOn q (sv.getD X 0) with
        | none => rfl
        | some j =>
          obtain ⟨X', hX', ⟨x, hx, hxX, hx1⟩, eX, -⟩ := T.list q hq _ j (hsv'.nonneg X (by omega)) hj
          have : X' = X := hsv'.inj _ _ hX' (by omega) eX.symm
          subst this
          have := hm x hx hxX
          omega
      · intro s
        rw [T.shift q hq _ s (hsv'.nonneg X (by omega))]
        constructor
        · rintro ⟨a, ha, hsh, e, rfl⟩
          have hX' := inj a ha X hX e
          have := (K.poss_of_row hq ha).1
          unfold Action.choice at this
          rw [if_pos hsh.2, hX'] at this
          exact this
        · intro hp
          obtain ⟨a, ha, haX, e⟩ := K.row_of_poss hq (by omega) hp
          unfold Action.choice at e
          split at e
          · rename_i hc
            injection e with e
            exact ⟨a, ha, ⟨hm a ha haX, hc⟩, by rw [haX], e.symm⟩
          · cases e
      · intro r
        rw [T.reduce q hq _ r (hsv'.nonneg X (by omega)), hd0]
        constructor
        · rintro ⟨a, ha, hsh, e, e2⟩
          have hX' := inj a ha X hX e
          have := (K.poss_of_row hq ha).1
          unfold Action.choice at this
          rw [if_neg (by rw [hsh.2.1]; simp), hX', ← e2] at this
          exact this
        · intro hp
          obtain ⟨a, ha, haX, e⟩ := K.row_of_poss hq (by omega) hp
          unfold Action.choice at e
          split at e
          · cases e
          · rename_i hc
            have hc : a.code = .REDUCE := by cases h' : a.code <;> simp_all
            have h3 := R.red a ha hc
            injection e with e
            exact ⟨a, ha, ⟨hm a ha haX, hc, by omega⟩, by rw [haX], by omega⟩
  · intro h0 x j hx hj
    obtain ⟨X, hX, rfl, sh, rules, l1, l2, l3⟩ := T.lists K hq h0 hx hj
    refine ⟨X, by omega, rfl, sh, rules, l1, l2, ?_, ?_⟩
    · intro s hs
      rw [K.mayDo hγ]
      obtain ⟨y, hy, rfl, -, e⟩ := (l3.1 s).2 hs
      rw [← e]; exact (K.poss_of_row hq hy).1
    · intro r hr
      rw [K.mayDo hγ]
      obtain ⟨y, hy, rfl, -, e⟩ := (l3.2.2.1 r).2 hr
      rw [← e]; exact (K.poss_of_row hq hy).1

open Classical in
/-- C83: with backtracking a rule counts as never reduced if no state can reduce by it on any
token (by default or as an alternative): that is, if nothing but actions discarded because of a precedence
reduces by it. -/
theorem C83_unused (lp : Bool) (ntokens nsyms : Nat) (rs : List SrcRule)
    (h : UserRules ntokens nsyms (rs.map SrcRule.rule)) (g : Gram)
    (hg : g = packGrammar lp ntokens nsyms (rs.map SrcRule.p) (encPitem rs))
    (sp : SymPrec) (lemon : Bool) (e1 e2 : Int) :
    ∃ o, generateB g sp lemon e1 e2 = some o ∧
      o.parser.nunused = (List.range rs.length).countP (fun k => decide
        (¬ ∃ row ∈ o.parser.rows, ∃ x ∈ row, x.code = .REDUCE ∧ x.suppressed ≤ 1 ∧ x.number = k + 3)) := by
  obtain ⟨o, ho, -, K⟩ := generateB_ok lp ntokens nsyms rs h g hg sp lemon e1 e2
  refine ⟨o, ho, ?_⟩
  have hn : g.nrules = rs.length + 3 := by
    rw [K.A.ctx.packs.nrules]; simp [augCFG]
  have e : o.parser.nunused = nunused g.nrules (rulesUsedB g.nrules o.parser.rows) := by
    rw [K.parser]; rfl
  rw [e]
  unfold nunused
  rw [foldl_count, Nat.zero_add, hn, show rs.length + 3 - 3 = rs.length by omega, List.range'_eq_map_range,
    List.countP_map]
  apply List.countP_congr
  intro k hk
  rw [List.mem_range] at hk
  simp only [Function.comp_apply, decide_eq_true_eq, Bool.not_eq_true']
  rw [← Bool.not_eq_true, (rulesUsedB_spec _ _ _).2]
  simp only [Action.may, decide_eq_true_eq, show 3 + k = k + 3 by omega, show k + 3 < rs.length + 3 by omega, true_and]

/-- `generateB` bounded by `n` steps of the state construction, for evaluating examples. -/
def genWithB (n : Nat) (g : Gram) (sp : SymPrec) (lemon : Bool) (srExpect rrExpect : Int) : Option Generated := do
  let a ← genLoop g (setFirstDerives g) n (initialLR0 g)
  let N ← setNullable g
  let lo ← lalr g a N
  return { aut := a, nullable := N, look := lo, parser := makeParserB g sp lemon srExpect rrExpect a lo }

theorem generateB_of_genWithB {n : Nat} {g : Gram} {sp : SymPrec} {lemon : Bool} {e1 e2 : Int} {o : Generated}
    (h : genWithB n g sp lemon e1 e2 = some o) (hn : n ≤ 2 ^ g.nitems + 2) : generateB g sp lemon e1 e2 = some o := by
  unfold genWithB at h
  cases ha : genLoop g (setFirstDerives g) n (initialLR0 g) with
  | none => rw [ha] at h; cases h
  | some a =>
    rw [ha] at h
    have : generateStates g = some a := genLoop_mono hn ha
    unfold generateB
    rw [this]
    exact h

/-- Of `s: a | b ;  a: '2' ;  b: '2'` (C24) no rule is unused with -B. -/
example : (genWithB 20 (packGrammar false 4 8 (c24Rules.map SrcRule.p) (encPitem c24Rules)) ⟨[], []⟩ false (-1) (-1)).map
      (fun o => (o.parser.nunused, o.parser.RRtotal)) = some (0, 1) := by decide +kernel

/-- The tables for `e: e '+' e | e '*' e | N` without precedences (C11): after `e '+' e` (state 5) on
'+' (code 43) and '*' (42), the shift to 3 or 4 and rule 1; after `e '*' e` (state 6) the shift and rule 2. -/
example : ((genWithB 20 c11G c11SP false (-1) (-1)).bind fun o =>
      match outputTablesB c11G c15SV o with
      | .ok t => some (t.ctable, [2, 5, 6].map fun q => [t.conflictOn q 43, t.conflictOn q 42, t.shiftOn q 43, t.reduceOn q 43])
      | _ => none) =
    some ([3, 1, -1, 4, 1, -1, 3, 2, -1, 4, 2, -1],
      [[none, none, some 3, none], [some 0, some 3, none, none], [some 6, some 9, none, none]]) := by decide +kernel

/-- The grammar `s: 'c' 'x' | p 'x' 'y' | r 'x' 'w'; p: 'c'; r: 'c' %prec HIGH` with `%left 'x'` below
`%left HIGH` (`$end` 0, error 1, 'c' 2, 'x' 3, 'y' 4, 'w' 5, HIGH 6, `$accept` 7, s 8, p 9, r 10). -/
def c83B (i : Nat) (p : Int) : Bucket := ⟨i, decide (i < 7), p, .TOKEN⟩
def c83Rules : List SrcRule :=
  [⟨c83B 8 0, [c83B 2 0, c83B 3 1], UNDEFINED, .TOKEN⟩,
   ⟨c83B 8 0, [c83B 9 0, c83B 3 1, c83B 4 0], UNDEFINED, .TOKEN⟩,
   ⟨c83B 8 0, [c83B 10 0, c83B 3 1, c83B 5 0], UNDEFINED, .TOKEN⟩,
   ⟨c83B 9 0, [c83B 2 0], UNDEFINED, .TOKEN⟩,
   ⟨c83B 10 0, [c83B 2 0], 2, .LEFT⟩]
def c83G : Gram := packGrammar false 7 11 (c83Rules.map SrcRule.p) (encPitem c83Rules)
def c83SP : SymPrec := ⟨[0, 0, 0, 1, 0, 0, 2, 0, 0, 0, 0],
  [.TOKEN, .TOKEN, .TOKEN, .LEFT, .TOKEN, .TOKEN, .LEFT, .TOKEN, .TOKEN, .TOKEN, .TOKEN]⟩
def c83SV : List Int := [0, 256, 99, 120, 121, 119, 257, -1, 0, 1, 2]

theorem c83_symVals : SymVals 7 11 c83SV :=
  ⟨by decide, by
    have : ∀ i < 7, ∀ j < 7, c83SV.getD i 0 = c83SV.getD j 0 → i = j := by decide
    exact fun i j hi hj e => this i hi j hj e, by decide, by
    have : ∀ A < 11, 7 ≤ A → c83SV.getD A 0 = (A : Int) - (7 : Nat) - 1 := by decide
    exact fun A h1 h2 => this A h2 h1⟩

theorem c83_rules : UserRules 7 11 (c83Rules.map SrcRule.rule) := by
  refine ⟨by decide, by decide, ?_⟩
  intro A α h
  simp [c83Rules, SrcRule.rule, c83B] at h
  rcases h with ⟨rfl, rfl⟩ | ⟨rfl, rfl⟩ | ⟨rfl, rfl⟩ | ⟨rfl, rfl⟩ | ⟨rfl, rfl⟩ <;> simp

/-- C83 is violated where precedences decide in part: in the grammar above, after `'c'` on 'x' (state 1),
the shift and rule 4 are a conflict and rule 5 has a higher precedence than the shift.  Without -B the parser reduces by
rule 5 (in this state on any token).  With -B the tables have a list, which names neither rule 5 nor the shift but only rule 4. -/
theorem C83_violated : UserRules 7 11 (c83Rules.map SrcRule.rule) ∧ SymVals 7 11 c83SV ∧
    (∃ p tp, generate c83G c83SP false (-1) (-1) = some p ∧ outputTables 3 c83G c83SV p = .ok tp ∧
      tp.shiftOn 0 99 = some 1 ∧ tp.defred.getD 1 0 = 5) ∧
    ∃ o t, generateB c83G c83SP false (-1) (-1) = some o ∧ outputTablesB c83G c83SV o = .ok t ∧
      t.shiftOn 0 99 = some 1 ∧ t.defred.getD 1 0 = 0 ∧ t.conflictOn 1 120 = some 0 ∧ Lists t.ctable 0 (-1) [4] := by
  refine ⟨c83_rules, c83_symVals, ?_, ?_⟩
  · have hev : (genWith 30 c83G c83SP false (-1) (-1)).bind (fun o =>
        match outputTables 3 c83G c83SV o with
        | .ok t => some (t.shiftOn 0 99, t.defred.getD 1 0)
        | _ => none) = some (some 1, 5) := by decide +kernel
    cases hg : genWith 30 c83G c83SP false (-1) (-1) with
    | none => rw [hg] at hev; simp at hev
    | some o =>
      rw [hg] at hev
      simp only [Option.bind_some] at hev
      split at hev
      · rename_i t ht
        simp only [Option.some.injEq, Prod.mk.injEq] at hev
        exact ⟨o, t, generate_of_genWith hg (by decide), ht, hev.1, hev.2⟩
      · cases hev
  · have hev : (genWithB 30 c83G c83SP false (-1) (-1)).bind (fun o =>
        match outputTablesB c83G c83SV o with
        | .ok t => some (t.shiftOn 0 99, t.defred.getD 1 0, t.conflictOn 1 120, t.ctable.take 3)
        | _ => none) = some (some 1, 0, some 0, [-1, 4, -1]) := by decide +kernel
    cases hg : genWithB 30 c83G c83SP false (-1) (-1) with
    | none => rw [hg] at hev; simp at hev
    | some o =>
      rw [hg] at hev
      simp only [Option.bind_some] at hev
      split at hev
      · rename_i t ht
        simp only [Option.some.injEq, Prod.mk.injEq] at hev
        refine ⟨o, t, generateB_of_genWithB hg (by decide), ht, hev.1, hev.2.1, hev.2.2.1, ?_⟩
        unfold Lists
        rw [show (-1 :: List.map (fun r : Nat => (r : Int)) [4] ++ [-1]) = t.ctable.take 3 from hev.2.2.2.symm, List.drop_zero]
        exact List.take_prefix _ _
      · cases hev

end Verif.Byacc
