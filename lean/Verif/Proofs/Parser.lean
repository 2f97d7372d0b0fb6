import Verif.Byacc.Main
import Verif.Proofs.Conflict
/-
Facts about the result of all passes, used by the property files.
-/
set_option autoImplicit false
namespace Verif.Byacc
open Spec Relation

variable {g : Gram} {G : CFG} {a : LR0}

theorem findFinalState_spec (C : GCtx g G a (setGotoMap g a)) :
    ShiftsTo a 0 (g.ntokens + 1) (findFinalState g a) := by
  have hG : G.ntok = g.ntokens := C.packs.ntok.symm
  have h0 : 0 < a.nstates := C.aut.sizes.1
  have hitem0 : AItem g G a 0 0 0 := (C.A.item0 0 0).mpr (.kern ⟨rfl, rfl⟩)
  have hdot : DotBefore G 0 0 (G.ntok + 1) := ⟨_, _, C.wf.acc, rfl⟩
  obtain ⟨t, ht⟩ := (C.A.ex 0 (G.ntok+1) h0).mpr ⟨by simp, 0, 0, hitem0, hdot⟩
  rw [hG] at ht
  have hi : g.item 1 = ((g.ntokens + 1 : Nat) : Int) := by
    have h1 := C.packs.sym 0 _ _ 0 (G.ntok + 1) C.wf.acc rfl
    have h2 := C.packs.one
    rw [h2] at h1
    rw [hG] at h1
    exact h1
  obtain ⟨hmem, hacc⟩ := (shiftsTo_iff C.aut).mp ht
  unfold findFinalState
  have hf : ((a.shiftsOf 0).reverse.find? (fun t => (a.acc t : Int) == g.item 1)).isSome := by
    rw [List.find?_isSome]
    exact ⟨t, by simpa using hmem, by rw [hi, hacc]; simp⟩
  obtain ⟨u, hu⟩ := Option.isSome_iff_exists.mp hf
  rw [hu]
  have h1 := List.mem_of_find?_eq_some hu
  have h2 := List.find?_some hu
  rw [hi] at h2
  refine (shiftsTo_iff C.aut).mpr ⟨by simpa using h1, ?_⟩
  have := eq_of_beq h2
  show a.acc u = _
  omega

/-- the actions of state `q` before conflict resolution -/
def Generated.acts (g : Gram) (sp : SymPrec) (o : Generated) (q : Nat) : List Action :=
  parseActions g sp o.aut o.look q

/-- Everything known about a generated parser. -/
structure GenOK (g : Gram) (G : CFG) (sp : SymPrec) (lemon : Bool) (srExpect rrExpect : Int) (o : Generated) : Prop where
  ctx : GCtx g G o.aut (setGotoMap g o.aut)
  parser : o.parser = makeParser g sp lemon srExpect rrExpect o.aut o.look
  sorted : ∀ q, q < o.aut.nstates → (o.acts g sp q).Pairwise ActLt
  mem : ∀ q, q < o.aut.nstates → ∀ x, x ∈ o.acts g sp q ↔
      (∃ X t, X < G.ntok ∧ ShiftsTo o.aut q X t ∧
        x = { symbol := X, number := t, prec := sp.prec.getD X 0, code := .SHIFT, assoc := sp.assoc.getD X .TOKEN }) ∨
      (∃ r t, (∃ d, AItem g G o.aut q r d ∧ Complete G r d) ∧ LASet G (ShiftsTo o.aut) q r t ∧ t < G.ntok ∧
        x = reduceAction g (r+2) t)
  row : ∀ q, q < o.aut.nstates →
    RowRes lemon (q == o.parser.final) g.ntokens (o.acts g sp q) (crRow lemon (q == o.parser.final) (o.acts g sp q))
  rows : ∀ q, q < o.aut.nstates → o.parser.rows[q]? = some (crRow lemon (q == o.parser.final) (o.acts g sp q)).visited
  rows_len : o.parser.rows.length = o.aut.nstates

theorem generate_ok (lp : Bool) (ntokens nsyms : Nat) (rs : List SrcRule)
    (h : UserRules ntokens nsyms (rs.map SrcRule.rule)) (g : Gram)
    (hg : g = packGrammar lp ntokens nsyms (rs.map SrcRule.p) (encPitem rs))
    (sp : SymPrec) (lemon : Bool) (srExpect rrExpect : Int) :
    ∃ o, generate g sp lemon srExpect rrExpect = some o ∧
      GenOK g (augCFG ntokens (rs.map SrcRule.rule)) sp lemon srExpect rrExpect o := by
  obtain ⟨a, N, ha, hN, hnul, C⟩ := pipeline lp ntokens nsyms rs h g hg
  obtain ⟨lo, hlo, -⟩ := C.lalr hnul
  refine ⟨⟨a, N, lo, makeParser g sp lemon srExpect rrExpect a lo⟩, ?_, ?_⟩
  · simp only [generate, ha, hN, hlo, Option.bind_eq_bind, Option.bind_some]; rfl
  have hP : ∀ q, q < a.nstates → (parseActions g sp a lo q).Pairwise ActLt ∧ _ :=
    fun q hq => C.parseActions hnul sp hlo hq
  have hrow : ∀ q, q < a.nstates → (makeParser g sp lemon srExpect rrExpect a lo).rows[q]? =
      some (crRow lemon (q == (makeParser g sp lemon srExpect rrExpect a lo).final) (parseActions g sp a lo q)).visited := by
    intro q hq
    simp [makeParser, List.getElem?_map, List.getElem?_range hq, List.getD_eq_getElem?_getD]
  refine ⟨C, rfl, fun q hq => (hP q hq).1, fun q hq x => (hP q hq).2 x, ?_, hrow, by simp [makeParser]⟩
  intro q hq
  have hsym : ∀ x ∈ parseActions g sp a lo q, x.suppressed = 0 ∧ x.symbol < g.ntokens ∧ (x.code = .SHIFT → x.symbol ≠ 0) := by
    intro x hx
    rcases ((hP q hq).2 x).mp hx with ⟨X, t, h1, h2, rfl⟩ | ⟨r, t, -, -, h1, rfl⟩
    · refine ⟨rfl, by rw [C.packs.ntok]; exact h1, fun _ => ?_⟩
      exact ((C.A.ex q X hq).mp ⟨t, h2⟩).1
    · refine ⟨rfl, by rw [C.packs.ntok]; exact h1, ?_⟩
      intro h; cases h
  exact crRow_spec lemon _ g.ntokens _ (hP q hq).1 (fun x hx => ⟨(hsym x hx).1, (hsym x hx).2.1⟩)
    (fun x hx => (hsym x hx).2.2)

end Verif.Byacc
