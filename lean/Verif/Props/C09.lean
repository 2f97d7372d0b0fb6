import Verif.Proofs.Parser
import Verif.Props.C08
/-
C09 — action rows are ordered and complete (byacc/mkpar.c).
-/
set_option autoImplicit false
namespace Verif.Byacc
open Spec

/-- Order of the actions in a row: by token, shifts before reduces, reduces by ascending rule
number; two actions are never in the same place. -/
def RowOrder (x y : Action) : Prop :=
  x.symbol < y.symbol ∨ (x.symbol = y.symbol ∧
    ((x.code = .SHIFT ∧ y.code = .REDUCE) ∨ (x.code = .REDUCE ∧ y.code = .REDUCE ∧ x.number < y.number)))

/-- C09: for every grammar and every precedence assignment the generator succeeds.  There is one
action row per state, ordered; it has a shift on `X` to `t` exactly when `X` is a token and the
automaton has that transition, and a reduce by rule `r` on token `t` exactly when `t` is an
LALR(1) lookahead of the complete item of rule `r`.  Shifts carry the precedence of the token,
reduces that of the rule. -/
theorem C09_rows (lp : Bool) (ntokens nsyms : Nat) (rs : List SrcRule)
    (h : UserRules ntokens nsyms (rs.map SrcRule.rule)) (g : Gram)
    (hg : g = packGrammar lp ntokens nsyms (rs.map SrcRule.p) (encPitem rs))
    (sp : SymPrec) (lemon : Bool) (srExpect rrExpect : Int) :
    ∃ o, generate g sp lemon srExpect rrExpect = some o ∧ o.parser.rows.length = o.aut.states.length ∧
      ∀ (q : Nat) (row : List Action), o.parser.rows[q]? = some row →
        row.Pairwise RowOrder ∧
        (∀ X t, (∃ x ∈ row, x.code = .SHIFT ∧ x.symbol = X ∧ x.number = t) ↔
          (X < ntokens ∧ ShiftsTo o.aut q X t)) ∧
        (∀ γ, Path (ShiftsTo o.aut) 0 γ q → ∀ k t,
          ((∃ x ∈ row, x.code = .REDUCE ∧ x.symbol = t ∧ x.number = k) ↔
            ∃ r A α, k = r + 2 ∧ (augCFG ntokens (rs.map SrcRule.rule)).rules[r]? = some (A, α) ∧
              LalrLA (augCFG ntokens (rs.map SrcRule.rule)) byaccInit γ r α.length t)) ∧
        (∀ x ∈ row,
          (x.code = .SHIFT → x.prec = sp.prec.getD x.symbol 0 ∧ x.assoc = sp.assoc.getD x.symbol .TOKEN) ∧
          (x.code = .REDUCE → x.prec = g.rprec.getD x.number 0 ∧ x.assoc = g.rassoc.getD x.number .TOKEN)) := by
  obtain ⟨o, ho, K⟩ := generate_ok lp ntokens nsyms rs h g hg sp lemon srExpect rrExpect
  refine ⟨o, ho, K.rows_len, ?_⟩
  intro q row hrow
  have hq : q < o.aut.nstates := by rw [← K.rows_len]; exact (List.getElem?_eq_some_iff.mp hrow).1
  have hrow' := K.rows q hq
  rw [hrow] at hrow'
  simp only [Option.some.injEq] at hrow'
  have hsame := (K.row q hq).same
  rw [← hrow'] at hsame
  have hmem : ∀ P : Action → Prop, (∃ x ∈ row, P (x.supp 0)) ↔ ∃ x ∈ o.acts g sp q, P x := by
    intro P
    rw [← hsame]
    simp
  have hntok : (augCFG ntokens (rs.map SrcRule.rule)).ntok = ntokens := rfl
  refine ⟨?_, ?_, ?_, ?_⟩
  · have := K.sorted q hq
    rw [← hsame, List.pairwise_map] at this
    exact this
  · intro X t
    refine (hmem (fun x => x.code = .SHIFT ∧ x.symbol = X ∧ x.number = t)).trans ?_
    constructor
    · rintro ⟨x, hx, hc, rfl, rfl⟩
      rcases (K.mem q hq x).mp hx with ⟨X, t, h1, h2, rfl⟩ | ⟨r, t, -, -, -, rfl⟩
      · exact ⟨h1, h2⟩
      · cases hc
    · rintro ⟨h1, h2⟩
      exact ⟨_, (K.mem q hq _).mpr (.inl ⟨X, t, h1, h2, rfl⟩), rfl, rfl, rfl⟩
  · intro γ hγ k t
    refine (hmem (fun x => x.code = .REDUCE ∧ x.symbol = t ∧ x.number = k)).trans ?_
    constructor
    · rintro ⟨x, hx, hc, rfl, rfl⟩
      rcases (K.mem q hq x).mp hx with ⟨X, t, h1, h2, rfl⟩ | ⟨r, t, ⟨d, hd, A, α, hr, rfl⟩, h2, h3, rfl⟩
      · cases hc
      · exact ⟨r, A, α, rfl, hr, (laSet_lalr K.ctx.A K.ctx.wf hr hγ hd).mp h2⟩
    · rintro ⟨r, A, α, rfl, hr, hla⟩
      have ht : t < ntokens := by
        obtain ⟨γ', -, z, -, hz⟩ := hla
        exact hz.1
      have hi : AItem g (augCFG ntokens (rs.map SrcRule.rule)) o.aut q r α.length := by
        obtain ⟨γ', hs, z, hz, -⟩ := hla
        exact (K.ctx.A.item_valid hγ r α.length).mpr ((hs r α.length).mpr ⟨z, hz⟩)
      exact ⟨_, (K.mem q hq _).mpr (.inr ⟨r, t, ⟨_, hi, A, α, hr, rfl⟩,
        (laSet_lalr K.ctx.A K.ctx.wf hr hγ hi).mpr hla, ht, rfl⟩), rfl, rfl, rfl⟩
  · intro x hx
    have hx' : x.supp 0 ∈ o.acts g sp q := by
      rw [← hsame]; exact List.mem_map.mpr ⟨x, hx, rfl⟩
    rcases (K.mem q hq _).mp hx' with ⟨X, t, -, -, e⟩ | ⟨r, t, -, -, -, e⟩
    · have e1 : x.code = .SHIFT := congrArg Action.code e
      have e2 : x.symbol = X := congrArg Action.symbol e
      have e3 : x.prec = sp.prec.getD X 0 := congrArg Action.prec e
      have e4 : x.assoc = sp.assoc.getD X .TOKEN := congrArg Action.assoc e
      rw [e1, e2, e3, e4]; simp
    · have e1 : x.code = .REDUCE := congrArg Action.code e
      have e2 : x.number = r + 2 := congrArg Action.number e
      have e3 : x.prec = g.rprecOf (r + 2) := congrArg Action.prec e
      have e4 : x.assoc = g.rassocOf (r + 2) := congrArg Action.assoc e
      rw [e1, e2, e3, e4]; simp [Gram.rprecOf, Gram.rassocOf]

/-- The state construction bounded by `n` steps, for evaluating examples; by `genLoop_mono` the
result is that of `generateStates`. -/
def genWith (n : Nat) (g : Gram) (sp : SymPrec) (lemon : Bool) (srExpect rrExpect : Int) : Option Generated := do
  let a ← genLoop g (setFirstDerives g) n (initialLR0 g)
  let N ← setNullable g
  let lo ← lalr g a N
  return { aut := a, nullable := N, look := lo, parser := makeParser g sp lemon srExpect rrExpect a lo }

/-- Example `e: e '+' e | e '*' e | N` (`$end` 0, error 1, '+' 2, '*' 3, N 4, `$accept` 5,
e 6; `%left '+'`, `%left '*'`): in the state after `e '+' e` there are two actions for each of '+'
and '*'. -/
def c09B (i : Nat) (p : Int) (a : Assoc) : Bucket := ⟨i, decide (i < 5), p, a⟩
def c09Rules : List SrcRule :=
  [⟨c09B 6 0 .TOKEN, [c09B 6 0 .TOKEN, c09B 2 1 .LEFT, c09B 6 0 .TOKEN], UNDEFINED, .TOKEN⟩,
   ⟨c09B 6 0 .TOKEN, [c09B 6 0 .TOKEN, c09B 3 2 .LEFT, c09B 6 0 .TOKEN], UNDEFINED, .TOKEN⟩,
   ⟨c09B 6 0 .TOKEN, [c09B 4 0 .TOKEN], UNDEFINED, .TOKEN⟩]
def c09G : Gram := packGrammar false 5 7 (c09Rules.map SrcRule.p) (encPitem c09Rules)
def c09SP : SymPrec := ⟨[0, 0, 1, 2, 0, 0, 0], [.TOKEN, .TOKEN, .LEFT, .LEFT, .TOKEN, .TOKEN, .TOKEN]⟩

example : UserRules 5 7 (c09Rules.map SrcRule.rule) := by
  refine ⟨by decide, by decide, ?_⟩
  intro A α h
  simp [c09Rules, SrcRule.rule, c09B] at h
  rcases h with ⟨rfl, rfl⟩ | ⟨rfl, rfl⟩ | ⟨rfl, rfl⟩ <;> simp

example : (genWith 20 c09G c09SP false (-1) (-1)).map (fun o => o.parser.rows[5]?.map
      (fun row => row.map (fun x => (x.symbol, x.code, x.number, x.suppressed)))) =
    some (some [(0, .REDUCE, 3, 0), (2, .SHIFT, 3, 2), (2, .REDUCE, 3, 0), (3, .SHIFT, 4, 0), (3, .REDUCE, 3, 2)]) := by
  decide +kernel

end Verif.Byacc
