import Verif.Spec.LemonAssert
import Verif.Proofs.LemonReduces
import Verif.Props.C99
/-
C100: the assertions that lemon writes for rules it takes for never reduced by do not fail.
-/
set_option autoImplicit false
namespace Verif.Lemon
open Verif.Spec.GFile Verif.Spec.Words Verif.Spec.LText LT
open Verif.Spec.RuleCode (num)

theorem split_first {c : Nat} : ∀ {d e a b : List Nat}, c ∉ d → c ∉ e → d ++ c :: a = e ++ c :: b → d = e ∧ a = b
  | [], [], a, b, _, _, h => ⟨rfl, by simpa using h⟩
  | [], y :: e, a, b, _, he, h => by
    simp only [List.nil_append, List.cons_append, List.cons.injEq] at h
    exact absurd h.1 (fun h' => he (by simp [h']))
  | x :: d, [], a, b, hd, _, h => by
    simp only [List.nil_append, List.cons_append, List.cons.injEq] at h
    exact absurd h.1.symm (fun h' => hd (by simp [h']))
  | x :: d, y :: e, a, b, hd, he, h => by
    simp only [List.cons_append, List.cons.injEq] at h
    obtain ⟨h1, h2⟩ := split_first (fun hm => hd (by simp [hm])) (fun hm => he (by simp [hm])) h.2
    exact ⟨by rw [h.1, h1], h2⟩

/-- the number at the end of a line -/
theorem last_number {x y : List Nat} {n k : Nat} (h : x ++ 61 :: (num n ++ text ");") = y ++ 61 :: (num k ++ text ");")) : x = y ∧ n = k := by
  simp only [num_nat] at h
  have hno : ∀ m : Nat, 61 ∉ (decimal m ++ text ");").reverse := by
    intro m hm
    rcases List.mem_append.1 (List.mem_reverse.1 hm) with hm | hm
    · have := (decimal_bytes m).2 61 hm; omega
    · revert hm; decide
  have h := congrArg List.reverse h
  rw [List.reverse_append, List.reverse_append, List.reverse_cons, List.reverse_cons, List.append_assoc, List.append_assoc] at h
  obtain ⟨h1, h2⟩ := split_first (hno n) (hno k) h
  refine ⟨List.reverse_injective h2, ?_⟩
  have h1 := List.append_cancel_right (List.reverse_injective h1)
  have := digits_decimal n
  rw [h1, digits_decimal] at this
  exact (Option.some.inj this).symm

theorem asserts_end (x : List Nat) (n : Nat) : Asserts n (x ++ text "assert(yyruleno!=" ++ num n ++ text ");") := ⟨x, by simp only [List.append_assoc]⟩

theorem marks_end (x : List Nat) (n : Nat) : Marks n (x ++ text "yytestcase(yyruleno==" ++ num n ++ text ");") := ⟨x, by simp only [List.append_assoc]⟩

theorem asserts_asserts {x : List Nat} {n k : Nat} (h : Asserts n (x ++ text "assert(yyruleno!=" ++ num k ++ text ");")) : n = k := by
  obtain ⟨y, h⟩ := h
  have e : text "assert(yyruleno!=" = text "assert(yyruleno!" ++ [61] := by decide
  rw [e] at h
  exact (last_number (x := y ++ text "assert(yyruleno!") (y := x ++ text "assert(yyruleno!") (by simpa only [List.append_assoc, List.cons_append, List.nil_append] using h)).2

theorem not_asserts_marks {x : List Nat} {n k : Nat} : ¬ Asserts n (x ++ text "yytestcase(yyruleno==" ++ num k ++ text ");") := by
  rintro ⟨y, h⟩
  have e : text "assert(yyruleno!=" = text "assert(yyruleno!" ++ [61] := by decide
  have e' : text "yytestcase(yyruleno==" = text "yytestcase(yyruleno=" ++ [61] := by decide
  rw [e, e'] at h
  have h := (last_number (x := y ++ text "assert(yyruleno!") (y := x ++ text "yytestcase(yyruleno=") (by simpa only [List.append_assoc, List.cons_append, List.nil_append] using h)).1
  have h := congrArg List.getLast? h
  rw [List.getLast?_append_of_ne_nil _ (by decide), List.getLast?_append_of_ne_nil _ (by decide)] at h
  revert h; decide

/-- the three kinds of lines -/
theorem defaultEntry_kind (I : LText) (p : (RRule × Trans × Bool) × Nat) :
    (∃ x, defaultEntry I p = x ++ text "assert(yyruleno!=" ++ num p.2 ++ text ");" ∧ (p.1.1.neverReduce = true ∨ p.1.2.2 = false)) ∨
    (∃ x, defaultEntry I p = x ++ text "yytestcase(yyruleno==" ++ num p.2 ++ text ");" ∧ p.1.1.neverReduce = false ∧ p.1.2.2 = true) := by
  unfold defaultEntry
  have e1 : text " (NEVER REDUCES) */ assert(yyruleno!=" = text " (NEVER REDUCES) */ " ++ text "assert(yyruleno!=" := by decide
  have e2 : text " (OPTIMIZED OUT) */ assert(yyruleno!=" = text " (OPTIMIZED OUT) */ " ++ text "assert(yyruleno!=" := by decide
  have e3 : text " */ yytestcase(yyruleno==" = text " */ " ++ text "yytestcase(yyruleno==" := by decide
  split_ifs with h1 h2
  · exact .inl ⟨_, by rw [e1]; simp only [← List.append_assoc]; rfl, .inl h1⟩
  · exact .inr ⟨_, by rw [e3]; simp only [← List.append_assoc]; rfl, by simpa using h1, h2⟩
  · exact .inl ⟨_, by rw [e2]; simp only [← List.append_assoc]; rfl, .inr (by simpa using h2)⟩

theorem forall₂_at {α β : Type} {R : α → β → Prop} : ∀ {l : List α} {l' : List β}, List.Forall₂ R l l' → ∀ (i : Nat) (a : α) (b : β), l[i]? = some a → l'[i]? = some b → R a b
  | _, _, .nil, i, a, b, h, _ => by simp at h
  | _, _, .cons hab ht, 0, a, b, h, h' => by
    simp only [List.getElem?_cons_zero, Option.some.injEq] at h h'
    rw [← h, ← h']; exact hab
  | _, _, .cons hab ht, i+1, a, b, h, h' => forall₂_at ht i a b (by simpa using h) (by simpa using h')

/-- A rule that the parser reduces by is one that lemon has found in the states. -/
theorem reduced_rule {g : Gram} {s : RState} {compress : Bool} {m : Mach} {F : List TSet} {A : Acts} {cs : List CState} {T : Tables} {E : FileConf} {I : LText}
    (u : Usable g) (hg : s.gram = some g) (hgen : Generated g s.fb compress m F A cs T) (hI : LText.ofFile E s g cs T = some I) {c : PConf} {fuel : Nat} {ts : List Nat} {q : PState}
    {evs : List Ev} (hp : parseTokens T c fuel ts .init = some (q, evs)) {n : Nat} (hn : .reduce n ∈ evs) : ∃ p, I.rules[n]? = some p ∧ p.2.2 = true := by
  obtain ⟨r, hr, hd, rfl⟩ := reduces_ok u hgen hp hn
  obtain ⟨-, -, -, -, hf⟩ := ofFile_rules hI
  have hcodes : g.rules.map Rule.code = s.rules.map fun r => r.code.isSome := by
    obtain ⟨S', _, rfl⟩ := Option.map_eq_some_iff.mp hg
    rw [List.map_map]; rfl
  have h1 : s.ruleOrder[g.iRule r]? = some r := by
    rw [RState.ruleOrder, ← hcodes]; exact iRule_eq u hr
  have hlt := (List.getElem?_eq_some_iff.mp h1).1
  rw [hf.length_eq] at hlt
  refine ⟨_, List.getElem?_eq_getElem hlt, ?_⟩
  rw [(forall₂_at hf _ _ _ h1 (List.getElem?_eq_getElem hlt)).2.2]
  exact hd

/-- C100.  In the C file for a valid grammar file, each line of the default case of the `switch` over the rules marks or excludes one rule; and whatever tokens the parser is given, if it
reduces by a rule that is not marked with `{NEVER-REDUCE}` then no line excludes the rule: the assertion does not fail. -/
theorem C100_asserts (o : Opts) (items : List Verif.Spec.GFile.Item) (S : Word) (s : RState) (g : Gram) (compress : Bool)
    (m : Mach) (F : List TSet) (A : Acts) (cs : List CState) (T : Tables) (E : FileConf) (I : LText) (ls : List (List Nat))
    (hv : Valid o items) (hS : Sound o items S) (hh : Holds o items s) (hsize : fileSize items < 2 ^ 30) (hg : s.gram = some g)
    (hgen : Generated g s.fb compress m F A cs T) (hI : LText.ofFile E s g cs T = some I)
    (hu : E.defs.used.length = E.defs.names.length) (ht : TemplateOK E.template ls) :
    ∃ code d, Switch I ls (written (reportText I).code) code d ∧ (∀ l ∈ d, ∃ n < I.rules.length, Asserts n l ∨ Marks n l) ∧
      ∀ (c : PConf) (fuel : Nat) (ts : List Nat) (q : PState) (evs : List Ev), parseTokens T c fuel ts .init = some (q, evs) → ∀ n, .reduce n ∈ evs →
        ∃ p, I.rules[n]? = some p ∧ (p.1.neverReduce = false → ∀ l ∈ d, ¬ Asserts n l) := by
  obtain ⟨g', hg', u, -⟩ := C73_grammar o items s S hv hh hS hsize
  obtain rfl : g = g' := Option.some.inj (hg.symm.trans hg')
  obtain ⟨-, -, e3, e4, -⟩ := ofFile_rules hI
  rw [← e4] at hu
  rw [← e3] at ht
  have hb := (layout_between (layout_report hu ht)).2.2.2.2.2.2.2.2.2.2.1
  refine ⟨_, _, hb, ?_, ?_⟩
  · intro l hl
    obtain ⟨p, hp, rfl⟩ := List.mem_map.1 hl
    have hp := (List.mem_filter.1 hp).1
    have hlt : p.2 < I.rules.length := by
      have := List.snd_lt_of_mem_zipIdx hp
      omega
    rcases defaultEntry_kind I p with ⟨x, e, _⟩ | ⟨x, e, _⟩
    · exact ⟨p.2, hlt, .inl (e ▸ asserts_end x p.2)⟩
    · exact ⟨p.2, hlt, .inr (e ▸ marks_end x p.2)⟩
  · intro c fuel ts q evs hp n hn
    obtain ⟨r, hr, hd⟩ := reduced_rule u hg hgen hI hp hn
    refine ⟨r, hr, fun hnv l hl ha => ?_⟩
    obtain ⟨p, hp, rfl⟩ := List.mem_map.1 hl
    have hp := (List.mem_filter.1 hp).1
    have hat := (List.mk_mem_zipIdx_iff_getElem? (x := p.1) (i := p.2)).1 hp
    rcases defaultEntry_kind I p with ⟨x, e, h⟩ | ⟨x, e, _⟩
    · rw [e] at ha
      have := asserts_asserts ha
      subst this
      rw [hr] at hat
      cases hat
      rcases h with h | h
      · rw [hnv] at h; cases h
      · rw [hd] at h; cases h
    · rw [e] at ha
      exact not_asserts_marks ha

/-! ### examples -/

/-- In the file of C73 the rule with number 3 (`e ::= t`, the third of the file) is left out of the tables, so that it has an assertion; the parser does not reduce by it. -/
example : ((parseText (ropts c72Opts) c72Opts.yacc c73Text).bind fun s => s.1.gram.bind fun g => (prepare true g 20).bind fun cs =>
    (report g s.1.fb cs (resortStates g cs) (nxstate cs (resortStates g cs))).bind fun T => (parseTokens T ⟨none, false, false, false⟩ 30 [3, 1, 4, 0] .init).map fun x =>
      (s.1.ruleOrder, s.1.ruleOrder.map (doesReduce cs (resortStates g cs) (nxstate cs (resortStates g cs))), x.2)) =
    some ([3, 0, 1, 2], [true, true, true, false], [.shift 3, .reduce 0, .shift 1, .shift 4, .reduce 0, .reduce 2, .reduce 1, .accept]) := by decide +kernel

/-- The mark `{NEVER-REDUCE}` is believed: the assertion for such a rule can fail. -/
example : ((parseText (ropts c72Opts) c72Opts.yacc (text "s ::= e.\ne ::= ID. {NEVER-REDUCE}\n")).bind fun s => s.1.gram.bind fun g => (makeTables true g s.1.fb 20).bind fun T =>
    (parseTokens T ⟨none, false, false, false⟩ 30 [1, 0] .init).map fun x => (s.1.rules.map RRule.neverReduce, s.1.ruleOrder, x.2)) =
    some ([false, true], [0, 1], [.shift 1, .reduce 1, .reduce 0, .accept]) := by decide +kernel

end Verif.Lemon
