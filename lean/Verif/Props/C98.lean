import Verif.Props.C97
/-
C98: the macros for tokens, the names, the rules and the fallbacks in the C file made by lemon are those of the grammar.
-/
set_option autoImplicit false
namespace Verif.Lemon
open Verif.Spec.LText LT
open Verif.Spec.GFile (text)
open Verif.Spec.RuleCode (num)

theorem blank_cons (a : Nat) (t : List Nat) : List.replicate a 32 ++ 32 :: t = 32 :: (List.replicate a 32 ++ t) := by
  induction a with
  | zero => rfl
  | succ a ih => rw [List.replicate_succ, List.cons_append, ih]; rfl

/-- Each token but the end of input has a macro that stands for its number, between the sections 1 and 2 of the template. -/
theorem C98_tokens (I : LText) (ls : List (List Nat)) (hu : I.defs.used.length = I.defs.names.length) (h : TemplateOK I.template ls) (H : SafeNames I)
    (hn : I.s.nterminal ≤ I.s.nsymbol) (i : Nat) (h0 : 0 < i) (hi : i < I.s.nterminal) :
    ∃ p, Between I ls 1 (written (reportText I).code) p ∧ HasDefine p (arg I .tokenPrefix "" ++ symbolName I i) i := by
  obtain ⟨ht, -⟩ := layout_between (layout_report hu h)
  refine ⟨_, ht, ?_⟩
  have hs := H.symbols i (by omega)
  have hp := H.tokenPrefix
  have hm : text "#define " ++ arg I .tokenPrefix "" ++ left 30 (symbolName I i) ++ text " " ++ right 2 (num i) ∈ tokenIf I :: tokenLines I := by
    refine List.mem_cons_of_mem _ (List.mem_append_left _ (List.mem_map.2 ⟨i, ?_, rfl⟩))
    rw [List.mem_iff_getElem]
    exact ⟨i - 1, by simp; omega, by simp; omega⟩
  have e : text "#define " ++ arg I .tokenPrefix "" ++ left 30 (symbolName I i) ++ text " " ++ right 2 (num i) =
      text "#define " ++ ((arg I .tokenPrefix "" ++ symbolName I i) ++ 32 :: (List.replicate ((30 - (symbolName I i).length) + (2 - (num i).length)) 32 ++ num i)) := by
    rw [left, right, show text " " = [32] by decide, List.replicate_add]
    simp only [List.append_assoc, List.append_cancel_left_eq, List.singleton_append]
    rw [blank_cons]
  refine hasDefine_of (L := tokenIf I :: tokenLines I) hm ?_ ?_ ⟨[], [], by simp, .inl rfl⟩
  · rw [e]
    simp only [List.mem_append, List.mem_cons, not_or]
    exact ⟨by decide, ⟨fun hc => (hp _ hc).1 rfl, fun hc => (hs _ hc).1 rfl⟩, by omega, fun hc => by have := List.eq_of_mem_replicate hc; omega, nn_num _⟩
  · rw [e]
    refine readDefine_of _ _ _ _ ?_ (macroNumber_num _) (num_head _ _ (by omega) (by omega))
    rw [List.mem_append, not_or]
    exact ⟨fun hc => (hp _ hc).2.1 rfl, fun hc => (hs _ hc).2.1 rfl⟩

/-- Between the sections 5 and 6 of the template there are the names of the symbols in the order of their numbers, and between the sections 6 and 7 the rules. -/
theorem C98_names (I : LText) (ls : List (List Nat)) (hu : I.defs.used.length = I.defs.names.length) (h : TemplateOK I.template ls) (H : SafeNames I) :
    ∃ p q, Between I ls 5 (written (reportText I).code) p ∧ readArray p = some ((List.range I.s.nsymbol).map fun i => .str (symbolName I i)) ∧
      Between I ls 6 (written (reportText I).code) q ∧ readArray q = some (I.rules.map fun r => .str (I.s.ruleText r.1)) := by
  obtain ⟨-, -, -, -, h5, h6, -⟩ := layout_between (layout_report hu h)
  exact ⟨_, _, h5, read_symbols H, h6, read_rules H⟩

/-- Between the sections 9 and 10 of the template there are the numbers of the left sides of the rules, and between the sections 10 and 11 the lengths of the
right sides, negated. -/
theorem C98_rules (I : LText) (ls : List (List Nat)) (hu : I.defs.used.length = I.defs.names.length) (h : TemplateOK I.template ls) (H : SafeNames I) :
    ∃ p q, Between I ls 9 (written (reportText I).code) p ∧ readArray p = some (I.rules.map fun r => .int (I.s.index r.1.lhs)) ∧
      Between I ls 10 (written (reportText I).code) q ∧ readArray q = some (I.rules.map fun r => .int (-(r.1.rhs.length : Int))) := by
  obtain ⟨-, -, -, -, -, -, -, -, h9, h10, -⟩ := layout_between (layout_report hu h)
  exact ⟨_, _, h9, read_lhs H, h10, read_len H⟩

/-- Between the sections 4 and 5 of the template there are the fallbacks of the tokens, 0 for none, if there are any. -/
theorem C98_fallbacks (I : LText) (ls : List (List Nat)) (hu : I.defs.used.length = I.defs.names.length) (h : TemplateOK I.template ls) (H : SafeNames I)
    (hn : I.s.nterminal ≤ I.s.nsymbol) (hf : ∃ y ∈ I.s.syms, y.fallback ≠ none) :
    ∃ p, Between I ls 4 (written (reportText I).code) p ∧
      readArray p = some ((List.range I.s.nterminal).map fun i => .int (((I.s.symbols[i]?.bind Sym.fallback).map fun f => (I.s.index f : Int)).getD 0)) := by
  obtain ⟨-, -, -, h4, -⟩ := layout_between (layout_report hu h)
  refine ⟨_, h4, read_fallback H hn ?_⟩
  obtain ⟨y, hy, hne⟩ := hf
  unfold RState.hasFallback
  rw [List.any_eq_true]
  exact ⟨y, hy, by cases hq : y.fallback <;> simp_all⟩

/-- Macros for different tokens have different names. -/
theorem C98_distinct (I : LText) (i j : Nat) (hne : symbolName I i ≠ symbolName I j) : arg I .tokenPrefix "" ++ symbolName I i ≠ arg I .tokenPrefix "" ++ symbolName I j :=
  fun e => hne (List.append_cancel_left e)

/-! ### example -/

/-- a check for `SafeNames` -/
def safeNamesB (I : LText) : Bool :=
  let ok := fun w : List Nat => w.all fun c => c != 10 && c != 32 && c != 34 && c != 42 && c != 92
  ok (arg I .tokenPrefix "") && ((List.range I.s.nsymbol).all fun i => ok (symbolName I i) && ((I.s.symbols[i]?.bind Sym.fallback).map ok).getD true) &&
  I.rules.all fun p => ok p.1.lhs && p.1.rhs.all fun r => ok (I.s.refText r.1)

theorem safeNames_of_check (I : LText) (h : safeNamesB I = true) : SafeNames I := by
  unfold safeNamesB at h
  have key : ∀ w : List Nat, (w.all fun c => c != 10 && c != 32 && c != 34 && c != 42 && c != 92) = true → Safe w := by
    intro w hw c hc
    have := List.all_eq_true.1 hw c hc
    simp at this
    omega
  simp only [Bool.and_eq_true, List.all_eq_true (l := List.range _), List.all_eq_true (l := I.rules), List.all_eq_true (l := RRule.rhs _)] at h
  obtain ⟨⟨h1, h2⟩, h3⟩ := h
  refine ⟨key _ h1, fun i hi => key _ (h2 i (by simpa using hi)).1, ?_, fun p hp => key _ (h3 p hp).1, fun p hp r hr => key _ ((h3 p hp).2 r hr)⟩
  intro i f hi e
  have := (h2 i (by simpa using hi)).2
  rw [e] at this
  exact key _ this

def c98Text : List Nat := text "%token_prefix T_\n%fallback A B.\ns ::= A s B. {f();}\ns ::= .\n"

/-- the hypotheses hold, and what is read is not trivial -/
example : SafeNames (c95File false c98Text) ∧ (c95File false c98Text).s.nterminal = 3 ∧ (c95File false c98Text).s.nsymbol = 4 ∧ (∃ y ∈ (c95File false c98Text).s.syms, y.fallback ≠ none) ∧
    ((List.range 4).map (symbolName (c95File false c98Text))) = [text "$", text "A", text "B", text "s"] ∧
    ((c95File false c98Text).rules.map fun r => (c95File false c98Text).s.ruleText r.1) = [text "s ::= A s B", text "s ::="] ∧
    ((List.range 3).map fun i => ((((c95File false c98Text).s.symbols[i]?.bind Sym.fallback).map fun f => ((c95File false c98Text).s.index f : Int)).getD 0)) = [0, 0, 1] := by
  refine ⟨safeNames_of_check _ (by decide +kernel), by decide +kernel, by decide +kernel, by decide +kernel, by decide +kernel, by decide +kernel, by decide +kernel⟩

end Verif.Lemon
