import Verif.Props.C09
/-
C10 — conflict resolution leaves at most one action, chosen by the documented rule
(byacc/mkpar.c).
-/
set_option autoImplicit false
namespace Verif.Byacc
open Spec

/-- The row without the marks made by conflict resolution. -/
def unmarked (row : List Action) : List Action := row.map fun x => { x with suppressed := 0 }

/-- C10: in every generated parser, an action remains (`suppressed = 0`) exactly when it is the
one to keep among the unmarked actions for the same token; no two actions remain for one token.
State `final`, entered from state 0 by the goal symbol, is special only for end of input: there
the first action always stays. -/
theorem C10_kept (lp : Bool) (ntokens nsyms : Nat) (rs : List SrcRule)
    (h : UserRules ntokens nsyms (rs.map SrcRule.rule)) (g : Gram)
    (hg : g = packGrammar lp ntokens nsyms (rs.map SrcRule.p) (encPitem rs))
    (sp : SymPrec) (lemon : Bool) (srExpect rrExpect : Int) :
    ∃ o, generate g sp lemon srExpect rrExpect = some o ∧
      ShiftsTo o.aut 0 (ntokens + 1) o.parser.final ∧
      ∀ (q : Nat) (row : List Action), o.parser.rows[q]? = some row →
        (∀ x ∈ row, (x.suppressed = 0 ↔
          Kept (lemon && !(q == o.parser.final && x.symbol == 0)) (competitors (unmarked row) x.symbol)
            { x with suppressed := 0 })) ∧
        (∀ x ∈ row, ∀ y ∈ row, x.symbol = y.symbol → x.suppressed = 0 → y.suppressed = 0 → x = y) := by
  obtain ⟨o, ho, K⟩ := generate_ok lp ntokens nsyms rs h g hg sp lemon srExpect rrExpect
  have hfin : ShiftsTo o.aut 0 (ntokens + 1) o.parser.final := by
    have := findFinalState_spec K.ctx
    rw [K.parser]
    rw [show g.ntokens = ntokens from K.ctx.packs.ntok] at this
    exact this
  refine ⟨o, ho, hfin, ?_⟩
  intro q row hrow
  have hq : q < o.aut.nstates := by rw [← K.rows_len]; exact (List.getElem?_eq_some_iff.mp hrow).1
  have hrow' := K.rows q hq
  rw [hrow] at hrow'
  simp only [Option.some.injEq] at hrow'
  have R := K.row q hq
  have hsame := R.same
  rw [← hrow'] at hsame
  have hk : ∀ x ∈ row, (x.suppressed = 0 ↔
          Kept (lemon && !(q == o.parser.final && x.symbol == 0)) (competitors (o.acts g sp q) x.symbol) (x.supp 0)) := by
    intro x hx
    apply (R.group x.symbol).kept x
    rw [← hrow']
    simp [competitors, hx]
  refine ⟨?_, ?_⟩
  · intro x hx
    rw [show unmarked row = o.acts g sp q from hsame]
    exact hk x hx
  · intro x hx y hy hxy h0 h0'
    have k1 := (hk x hx).mp h0
    have k2 := (hk y hy).mp h0'
    rw [← hxy] at k2
    have hs : (competitors (o.acts g sp q) x.symbol).Pairwise ActLt := (K.sorted q hq).filter _
    have hX : ∀ z ∈ competitors (o.acts g sp q) x.symbol, z.symbol = x.symbol := by
      intro z hz
      have := (List.mem_filter.mp hz).2
      simpa using this
    have hin : ∀ z ∈ row, z.symbol = x.symbol → z.supp 0 ∈ competitors (o.acts g sp q) x.symbol := by
      intro z hz hzx
      rw [← hsame]
      refine List.mem_filter.mpr ⟨List.mem_map.mpr ⟨z, hz, rfl⟩, ?_⟩
      simpa [Action.supp] using hzx
    have i1 := hin x hx rfl
    have i2 := hin y hy hxy.symm
    rw [← supp_zero h0, ← supp_zero h0']
    rcases k1 with ⟨c1, k1⟩ | ⟨c1, k1⟩ <;> rcases k2 with ⟨c2, k2⟩ | ⟨c2, k2⟩
    · exact shift_eq hs hX i1 i2 c1 c2
    · exact absurd (k2.1.2.2 _ i1 c1) (k1 _ i2 c2).1
    · exact absurd (k1.1.2.2 _ i2 c2) (k2 _ i1 c1).1
    · exact Best.unique hs hX k1 k2

/-- C10, the documented cases, for any two actions competing for a token of a row as built by the
generator: `s` a shift and `r` a reduce, or two reduces (mark 1: counted as a conflict). -/
theorem C10_table (lp : Bool) (ntokens nsyms : Nat) (rs : List SrcRule)
    (h : UserRules ntokens nsyms (rs.map SrcRule.rule)) (g : Gram)
    (hg : g = packGrammar lp ntokens nsyms (rs.map SrcRule.p) (encPitem rs))
    (sp : SymPrec) (lemon : Bool) (srExpect rrExpect : Int) :
    ∃ o, generate g sp lemon srExpect rrExpect = some o ∧
      ∀ (q : Nat) (row : List Action), o.parser.rows[q]? = some row → ∀ (X : Nat) (s r : Action),
        competitors row X = [s, r] →
        (s.code = .SHIFT →
          (0 < s.prec → 0 < r.prec → s.prec < r.prec → s.suppressed ≠ 0 ∧ r.suppressed = 0) ∧
          (0 < s.prec → 0 < r.prec → r.prec < s.prec → s.suppressed = 0 ∧ r.suppressed ≠ 0) ∧
          (0 < s.prec → s.prec = r.prec → s.assoc = .LEFT → s.suppressed ≠ 0 ∧ r.suppressed = 0) ∧
          (0 < s.prec → s.prec = r.prec → s.assoc = .RIGHT → s.suppressed = 0 ∧ r.suppressed ≠ 0) ∧
          (0 < s.prec → s.prec = r.prec → s.assoc = .NONASSOC → s.suppressed ≠ 0 ∧ r.suppressed ≠ 0) ∧
          ((s.prec ≤ 0 ∨ r.prec ≤ 0) → s.suppressed = 0 ∧ r.suppressed = 1)) ∧
        (s.code = .REDUCE → r.code = .REDUCE ∧ s.number < r.number ∧
          ((lemon = false ∨ s.prec ≤ 0 ∨ r.prec ≤ 0 ∨ s.prec = r.prec) → s.suppressed = 0 ∧ r.suppressed = 1)) := by
  obtain ⟨o, ho, K⟩ := generate_ok lp ntokens nsyms rs h g hg sp lemon srExpect rrExpect
  refine ⟨o, ho, ?_⟩
  intro q row hrow X s r hsr
  have hq : q < o.aut.nstates := by rw [← K.rows_len]; exact (List.getElem?_eq_some_iff.mp hrow).1
  have hrow' := K.rows q hq
  rw [hrow] at hrow'
  simp only [Option.some.injEq] at hrow'
  have R := (K.row q hq).group X
  rw [← hrow', hsr] at R
  have hL : competitors (o.acts g sp q) X = [s.supp 0, r.supp 0] := R.same.symm
  rw [hL] at R
  have hs : [s.supp 0, r.supp 0].Pairwise ActLt := by rw [← hL]; exact (K.sorted q hq).filter _
  have hX : ∀ z ∈ [s.supp 0, r.supp 0], z.symbol = X := by
    intro z hz
    rw [← hL] at hz
    have := (List.mem_filter.mp hz).2
    simpa using this
  have hlt : ActLt (s.supp 0) (r.supp 0) := (List.pairwise_cons.mp hs).1 _ (by simp)
  have hsX : s.symbol = X := hX (s.supp 0) (by simp)
  have hrX : r.symbol = X := hX (r.supp 0) (by simp)
  have hrc : r.code = .REDUCE := by
    unfold ActLt at hlt
    rcases hlt with hlt | ⟨-, ⟨-, hlt⟩ | ⟨-, hlt, -⟩⟩
    · simp only [Action.supp] at hlt; omega
    · exact hlt
    · exact hlt
  have ks := R.kept s (by simp)
  have kr := R.kept r (by simp)
  have cr := R.conf 1 r rfl
  constructor
  · intro hsc
    -- a shift on end of input does not exist
    have hacc : (q == o.parser.final && X == 0) = false := by
      rw [Bool.eq_false_iff]
      intro hc
      simp only [Bool.and_eq_true, beq_iff_eq] at hc
      have : s.supp 0 ∈ o.acts g sp q := by
        have : s.supp 0 ∈ competitors (o.acts g sp q) X := by rw [hL]; simp
        exact (List.mem_filter.mp this).1
      rcases (K.mem q hq _).mp this with ⟨Y, t, h1, h2, e⟩ | ⟨r, t, -, -, -, e⟩
      · have : s.symbol = Y := congrArg Action.symbol e
        rw [hsX, hc.2] at this
        subst this
        exact ((K.ctx.A.ex q 0 hq).mp ⟨t, h2⟩).1 rfl
      · have : s.code = .REDUCE := congrArg Action.code e
        rw [hsc] at this; cases this
    rw [hacc] at ks kr cr
    have kept_s : Kept (lemon && !false) [s.supp 0, r.supp 0] (s.supp 0) ↔ ¬ Overrides s r ∧ ¬ Cancels s r := by
      constructor
      · rintro (⟨-, k⟩ | ⟨k, -⟩)
        · exact k (r.supp 0) (by simp) hrc
        · have : s.code = .REDUCE := k
          rw [hsc] at this; cases this
      · intro k
        refine .inl ⟨hsc, ?_⟩
        intro z hz hzc
        simp only [List.mem_cons, List.not_mem_nil, or_false] at hz
        rcases hz with rfl | rfl
        · have : s.code = .REDUCE := hzc
          rw [hsc] at this; cases this
        · exact k
    have kept_r : Kept (lemon && !false) [s.supp 0, r.supp 0] (r.supp 0) ↔ Overrides s r := by
      have hc : ∀ z, Cands [s.supp 0, r.supp 0] z ↔ z = r.supp 0 ∧ Overrides s r := by
        intro z
        constructor
        · rintro ⟨z1, z2, z3⟩
          simp only [List.mem_cons, List.not_mem_nil, or_false] at z1
          rcases z1 with rfl | rfl
          · have : s.code = .REDUCE := z2
            rw [hsc] at this; cases this
          · exact ⟨rfl, z3 (s.supp 0) (by simp) hsc⟩
        · rintro ⟨rfl, ho⟩
          refine ⟨by simp, hrc, ?_⟩
          intro y hy hyc
          simp only [List.mem_cons, List.not_mem_nil, or_false] at hy
          rcases hy with rfl | rfl
          · exact ho
          · have : r.code = .SHIFT := hyc
            rw [hrc] at this; cases this
      constructor
      · rintro (⟨k, -⟩ | ⟨-, k⟩)
        · have : r.code = .SHIFT := k
          rw [hrc] at this; cases this
        · exact ((hc _).mp k.1).2
      · intro ho
        refine .inr ⟨hrc, (hc _).mpr ⟨rfl, ho⟩, fun _ => ⟨(hc _).mpr ⟨rfl, ho⟩, ?_⟩, fun _ => ?_⟩
        · intro y hy; rw [((hc _).mp hy).1]
        · intro y hy; rw [((hc _).mp hy).1]; exact .inr ⟨rfl, Nat.le_refl _⟩
    rw [kept_s] at ks
    rw [kept_r] at kr
    have hSR : SRConf false [s.supp 0] (r.supp 0) ↔ ¬ (HasPrec s ∧ HasPrec r) := by
      constructor
      · rintro ⟨-, h | ⟨z, hz, -, -, h⟩⟩
        · cases h
        · simp only [List.mem_singleton] at hz
          subst hz; exact h
      · intro h
        refine ⟨by simp, .inr ⟨s.supp 0, by simp, hsc, ?_, h⟩⟩
        intro z hz hzc
        simp only [List.mem_singleton] at hz
        subst hz
        have : s.code = .REDUCE := hzc
        rw [hsc] at this; cases this
    have hRR : ¬ RRConf (lemon && !false) false [s.supp 0] (r.supp 0) := by
      rintro ⟨-, z, hz, -⟩
      have h1 := hz.1.1
      simp only [List.mem_singleton] at h1
      have h2 := hz.1.2.1
      subst h1
      have : s.code = .REDUCE := h2
      rw [hsc] at this; cases this
    rw [show [s.supp 0, r.supp 0].take 1 = [s.supp 0] from rfl, hSR] at cr
    simp only [hRR, or_false] at cr
    unfold Overrides Cancels HasPrec at *
    refine ⟨?_, ?_, ?_, ?_, ?_, ?_⟩
    · intro p1 p2 p3
      rw [Ne, ks, kr]
      exact ⟨fun h => h.1 ⟨p1, p2, .inl p3⟩, p1, p2, .inl p3⟩
    · intro p1 p2 p3
      rw [Ne, ks, kr]
      refine ⟨⟨?_, ?_⟩, ?_⟩ <;> omega
    · intro p1 p2 p3
      rw [Ne, ks, kr]
      exact ⟨fun h => h.1 ⟨p1, by omega, .inr ⟨p2, p3⟩⟩, p1, by omega, .inr ⟨p2, p3⟩⟩
    · intro p1 p2 p3
      rw [Ne, ks, kr]
      refine ⟨⟨?_, ?_⟩, ?_⟩
      · rintro ⟨-, -, h | ⟨-, h⟩⟩
        · omega
        · rw [p3] at h; cases h
      · rintro ⟨-, -, -, -, h⟩; exact h p3
      · rintro ⟨-, -, h | ⟨-, h⟩⟩
        · omega
        · rw [p3] at h; cases h
    · intro p1 p2 p3
      rw [Ne, Ne, ks, kr]
      refine ⟨?_, ?_⟩
      · rintro ⟨-, h⟩
        exact h ⟨p1, by omega, p2, by rw [p3]; simp, by rw [p3]; simp⟩
      · rintro ⟨-, -, h | ⟨-, h⟩⟩
        · omega
        · rw [p3] at h; cases h
    · intro hp
      rw [ks, cr]
      refine ⟨⟨?_, ?_⟩, ?_⟩ <;> omega
  · intro hsc
    have hnum : s.number < r.number := by
      unfold ActLt at hlt
      rcases hlt with hlt | ⟨-, ⟨hlt, -⟩ | ⟨-, -, hlt⟩⟩
      · simp only [Action.supp] at hlt; omega
      · have : s.code = .SHIFT := hlt
        rw [hsc] at this; cases this
      · exact hlt
    refine ⟨hrc, hnum, ?_⟩
    intro hp
    have hc : ∀ z, Cands [s.supp 0, r.supp 0] z ↔ z = s.supp 0 ∨ z = r.supp 0 := by
      intro z
      constructor
      · rintro ⟨z1, -, -⟩
        simpa using z1
      · intro hz
        refine ⟨by simpa using hz, ?_, ?_⟩
        · rcases hz with rfl | rfl
          · exact hsc
          · exact hrc
        · intro y hy hyc
          simp only [List.mem_cons, List.not_mem_nil, or_false] at hy
          rcases hy with rfl | rfl
          · have : s.code = .SHIFT := hyc
            rw [hsc] at this; cases this
          · have : r.code = .SHIFT := hyc
            rw [hrc] at this; cases this
    have hfirst : IsFirst (Cands [s.supp 0, r.supp 0]) (s.supp 0) := by
      refine ⟨(hc _).mpr (.inl rfl), ?_⟩
      intro y hy
      rcases (hc y).mp hy with rfl | rfl
      · exact Nat.le_refl _
      · exact Nat.le_of_lt hnum
    have hfu : ∀ f, IsFirst (Cands [s.supp 0, r.supp 0]) f → f = s.supp 0 := by
      intro f hf
      rcases (hc f).mp hf.1 with rfl | rfl
      · rfl
      · have h1 : r.number ≤ s.number := hf.2 (s.supp 0) ((hc _).mpr (.inl rfl))
        exact absurd h1 (by omega)
    constructor
    · rw [ks]
      refine .inr ⟨hsc, (hc _).mpr (.inl rfl), fun _ => hfirst, ?_⟩
      intro hn y hy
      rw [not_or] at hn
      rcases (hc y).mp hy with rfl | rfl
      · exact .inr ⟨rfl, Nat.le_refl _⟩
      · have hsp : HasPrec s := by
          by_contra hcon
          exact hn.2 ⟨s.supp 0, hfirst, hcon⟩
        unfold HasPrec at hsp
        show r.prec < s.prec ∨ (r.prec = s.prec ∧ s.number ≤ r.number)
        rcases hp with hp | hp | hp | hp
        · exact absurd (by simp [hp]) hn.1
        · omega
        · omega
        · exact .inr ⟨hp.symm, by omega⟩
    · rw [cr]
      show SRConf _ [s.supp 0] (r.supp 0) ∨ RRConf _ _ [s.supp 0] (r.supp 0)
      cases ha : (q == o.parser.final && X == 0) with
      | true => exact .inl ⟨by simp, .inl rfl⟩
      | false =>
        refine .inr ⟨rfl, s.supp 0, ⟨⟨by simp, hsc, ?_⟩, fun _ => ⟨⟨by simp, hsc, ?_⟩, ?_⟩, fun _ => ?_⟩, ?_⟩
        · intro y hy hyc
          simp only [List.mem_singleton] at hy
          subst hy
          have : s.code = .SHIFT := hyc
          rw [hsc] at this; cases this
        · intro y hy hyc
          simp only [List.mem_singleton] at hy
          subst hy
          have : s.code = .SHIFT := hyc
          rw [hsc] at this; cases this
        · rintro y ⟨hy, -⟩
          simp only [List.mem_singleton] at hy
          subst hy; exact Nat.le_refl _
        · rintro y ⟨hy, -⟩
          simp only [List.mem_singleton] at hy
          subst hy; exact .inr ⟨rfl, Nat.le_refl _⟩
        · rintro ⟨h1, h2, h3, h4⟩
          unfold HasPrec at h2 h3
          simp only [Action.supp] at h2 h3 h4
          simp only [Bool.not_false, Bool.and_true] at h1
          rcases hp with hp | hp | hp | hp
          · rw [h1] at hp; cases hp
          · omega
          · omega
          · exact h4 hp

/-- Example: `e: e '<' e | N` with `%nonassoc '<'` (2): after `e '<' e` both actions on '<' are
dropped. -/
def c10B (i : Nat) (p : Int) (a : Assoc) : Bucket := ⟨i, decide (i < 4), p, a⟩
def c10Rules : List SrcRule :=
  [⟨c10B 5 0 .TOKEN, [c10B 5 0 .TOKEN, c10B 2 1 .NONASSOC, c10B 5 0 .TOKEN], UNDEFINED, .TOKEN⟩,
   ⟨c10B 5 0 .TOKEN, [c10B 3 0 .TOKEN], UNDEFINED, .TOKEN⟩]
def c10G : Gram := packGrammar false 4 6 (c10Rules.map SrcRule.p) (encPitem c10Rules)
def c10SP : SymPrec := ⟨[0, 0, 1, 0, 0, 0], [.TOKEN, .TOKEN, .NONASSOC, .TOKEN, .TOKEN, .TOKEN]⟩

theorem c10_user : UserRules 4 6 (c10Rules.map SrcRule.rule) := by
  refine ⟨by decide, by decide, ?_⟩
  intro A α h
  simp [c10Rules, SrcRule.rule, c10B] at h
  rcases h with ⟨rfl, rfl⟩ | ⟨rfl, rfl⟩ <;> simp

example : (genWith 20 c10G c10SP false (-1) (-1)).map (fun o => o.parser.rows[4]?.map
      (fun row => row.map (fun x => (x.symbol, x.code, x.number, x.suppressed)))) =
    some (some [(0, .REDUCE, 3, 0), (2, .SHIFT, 3, 2), (2, .REDUCE, 3, 2)]) := by
  decide +kernel

end Verif.Byacc
