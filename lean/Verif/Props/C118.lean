import Verif.Proofs.LemonExit
import Verif.Props.C73
import Verif.Props.C75File
import Verif.Proofs.LemonFileDec
import Verif.Proofs.LemonTextRead
/-
C118: lemon reports success exactly if nothing is wrong with the grammar.
-/
set_option autoImplicit false
namespace Verif.Lemon
open Verif.Spec.GFile
open Verif.Spec.Words (HasWords)

/-- The number that `%expect` declares is the one at the beginning of its argument. -/
theorem C118_declares {o : Opts} {items : List Verif.Spec.GFile.Item} {s : RState} (hh : Holds o items s) (n : Int) : Declares o items n ↔ s.nexpect = n := by
  have ha : s.args .expect = argOf o items ("expect", false) := hh.args .expect
  unfold Declares RState.nexpect
  rw [ha]
  cases argOf o items ("expect", false) with
  | none => exact eq_comm
  | some w =>
    constructor
    · exact reads_atoi
    · rintro rfl
      obtain ⟨i, hi⟩ := reads_total w
      show BeginsWith w (atoi w)
      rw [reads_atoi hi]; exact hi

/-- C118 for grammars.  lemon exits with status 0 exactly if the start symbol declared exists; it is not on the right side of a rule; all nonterminals mentioned in the rules of
symbols that are used have rules, except for the error symbol; for every rule there are a state and a symbol for which the reduction by the rule is not discarded; there are no
messages about the labels in the rules (C75 says when there are); and there are as many conflicts (C33) as declared.  Otherwise the status is 1.  The number of conflicts is printed
exactly if it is not the one declared. -/
theorem C118_exit (s : RState) (g : Gram) (hg : s.gram = some g) (wf : g.WF) (hn : g.nitems < 2 ^ 30) (m : Mach) (F : List TSet) (hm : Analysed g m F) (A : Acts) (ts : List Trans) :
    (s.exitcode g m A ts = 0 ↔
      (∀ x, s.args .startSymbol = some x → ∃ y ∈ s.table, y.name = x) ∧
      (∀ r ∈ g.rules, g.start ∉ r.rhs) ∧
      (∀ B α, Used (g.rules.map fun r => (r.lhs, r.rhs)) g.start B → (B, α) ∈ g.rules.map (fun r => (r.lhs, r.rhs)) →
        ∀ X ∈ α, g.nlow ≤ X → g.errsym ≠ some X → ∃ r ∈ g.rules, r.lhs = X) ∧
      (∀ r < g.rules.length, ∃ q t, (AType.REDUCE, r) ∈ A.on q t) ∧
      (∀ t ∈ ts, t.errs = []) ∧
      (A.count.err : Int) = s.nexpect) ∧
    (s.exitcode g m A ts ≠ 0 → s.exitcode g m A ts = 1) ∧
    s.conflictMessage A = (if (A.count.err : Int) = s.nexpect then [] else text (toString A.count.err) ++ text " parsing conflicts.\n") := by
  have h1 : s.startMissing = 0 ↔ ∀ x, s.args .startSymbol = some x → ∃ y ∈ s.table, y.name = x := by
    obtain ⟨S, hS, _⟩ := Option.map_eq_some_iff.mp hg
    unfold RState.startMissing
    unfold RState.startName at hS ⊢
    obtain ⟨r, hr, _⟩ := Option.map_eq_some_iff.mp hS
    rw [hr, Option.map_some]
    cases ha : s.args .startSymbol with
    | none => simp
    | some x =>
      by_cases hx : s.table.any (fun y => y.name == x) = true
      · simp only [hx, if_true, Option.some.injEq, forall_eq']
        simpa using hx
      · simp only [hx, Bool.false_eq_true, if_false, Option.some.injEq, forall_eq', one_ne_zero, false_iff]
        simpa using hx
  have h2 : (ts.map fun t => t.errs.length).sum = 0 ↔ ∀ t ∈ ts, t.errs = [] := by
    rw [List.sum_eq_zero_iff_forall_eq_nat]
    simp [List.length_eq_zero_iff]
  have h3 := cannotReduce_nil g A
  rw [← List.length_eq_zero_iff] at h3
  refine ⟨?_, ?_, ?_⟩
  · rw [← h1, ← startErrors_zero, ← noRuleErrors_zero wf hn hm, ← h3, ← h2]
    unfold RState.exitcode RState.lateErrors
    generalize s.startMissing = a
    generalize startErrors g = b
    generalize noRuleErrors g m = c
    generalize (cannotReduce g A.acts).length = d
    generalize (ts.map fun t => t.errs.length).sum = e
    split <;> omega
  · unfold RState.exitcode
    split <;> simp
  · unfold RState.conflictMessage
    by_cases h : (A.count.err : Int) = s.nexpect
    · simp [h]
    · rw [if_pos h, if_neg h, decimal_eq]; rfl

section
variable {o : Opts} {items : List Verif.Spec.GFile.Item} {s : RState} {g : Gram} {S : Word}

/-- the nonterminals used are those of the file -/
theorem used_uses (hv : Valid o items) (hh : Holds o items s) (hg : s.gram = some g) (hS : Sound o items S) (hs : g.start = s.num (.sym S)) (n : Nat) :
    Used (g.rules.map fun r => (r.lhs, r.rhs)) g.start n ↔ ∃ e, ElemOK o items s e ∧ n = elemNum s items e ∧
      (e = ⟨S, []⟩ ∨ ∃ A a rhs line, Uses items S A ∧ .rule A a rhs line ∈ items ∧ e ∈ rhs) := by
  have hr : ∀ A α, (A, α) ∈ g.rules.map (fun r => (r.lhs, r.rhs)) ↔ ∃ l a rhs line, .rule l a rhs line ∈ items ∧ A = s.num (.sym l) ∧ α = rhs.map (elemNum s items) := by
    intro A α
    rw [← mem_gram_rules hh hg, List.mem_map]
    simp only [Prod.mk.injEq]
  have hplain : elemNum s items ⟨S, []⟩ = s.num (.sym S) := by rw [elemNum, refOf_plain rfl]
  have hU : ∀ e : Elem, (e = ⟨S, []⟩ ∨ ∃ A a rhs line, Uses items S A ∧ .rule A a rhs line ∈ items ∧ e ∈ rhs) → Uses items S e.name := by
    rintro e (rfl | ⟨A, a, rhs, line, h1, h2, h3⟩)
    · exact .start
    · exact .rule h1 h2 h3
  have hnt : ∀ e : Elem, ElemOK o items s e → ∀ l a rhs line, .rule l a rhs line ∈ items → (elemNum s items e = s.num (.sym l) → e.name = l) ∧ (e.name = l → elemNum s items e = s.num (.sym l)) := by
    intro e he l a rhs line hl
    have hln := lhs_nonterminal hv hS.lhs hl
    have hge : s.nterminal + s.mts.length ≤ s.num (.sym l) := by
      rw [num_nonterminal hv hh l hln, nterminal_eq hv hh]; omega
    have hmem := (mem_nonterminals _).mp hln
    rcases elemNum_cases hv hh he with ⟨h1, _, h3, h4⟩ | ⟨h1, h2, h3, _⟩ | ⟨h1, h2, h3, h4⟩
    · exact ⟨fun h => by omega, fun h => absurd (h ▸ h1) hmem.2.1⟩
    · refine ⟨fun h => by omega, fun h => ?_⟩
      rcases h1 with h1 | h1
      · exact absurd (h ▸ h1.1) hmem.2.1
      · rw [h, hmem.2.2.2] at h1; cases h1
    · exact ⟨fun h => nonterminal_inj hv hh h1 hln (h3 ▸ h), fun h => by rw [h3, h]⟩
  constructor
  · intro h
    induction h with
    | start => exact ⟨⟨S, []⟩, start_ok hS, by rw [hplain, hs], .inl rfl⟩
    | @rule A X α hA hA' hX ih =>
      obtain ⟨e, he, rfl, hu⟩ := ih
      obtain ⟨l, a, rhs, line, h1, h2, rfl⟩ := (hr _ _).mp hA'
      obtain ⟨e', he', rfl⟩ := List.mem_map.mp hX
      refine ⟨e', elem_ok hv hh h1 e' he', rfl, .inr ⟨l, a, rhs, line, ?_, h1, he'⟩⟩
      rw [← (hnt e he l a rhs line h1).1 h2]
      exact hU e hu
  · have key : ∀ A, Uses items S A → ∃ e, ElemOK o items s e ∧ e.name = A ∧ Used (g.rules.map fun r => (r.lhs, r.rhs)) g.start (elemNum s items e) := by
      intro A h
      induction h with
      | start => exact ⟨⟨S, []⟩, start_ok hS, rfl, by rw [hplain, ← hs]; exact .start⟩
      | @rule A a rhs line e hA h1 h2 ih =>
        obtain ⟨e', he', rfl, hu⟩ := ih
        have := (hnt e' he' _ a rhs line h1).2 rfl
        exact ⟨e, elem_ok hv hh h1 e h2, rfl, .rule hu ((hr _ _).mpr ⟨_, a, rhs, line, h1, this, rfl⟩) (List.mem_map_of_mem h2)⟩
    rintro ⟨e, he, rfl, rfl | ⟨A, a, rhs, line, h1, h2, h3⟩⟩
    · rw [hplain, ← hs]; exact .start
    · obtain ⟨e', he', rfl, hu⟩ := key A h1
      exact .rule hu ((hr _ _).mpr ⟨_, a, rhs, line, h2, (hnt e' he' _ a rhs line h2).2 rfl, rfl⟩) (List.mem_map_of_mem h3)

end

/-- C118 for files.  lemon reads a valid file in which the start symbol is a nonterminal that is on no right side.  It exits with status 0 exactly if all nonterminals mentioned in the rules of
names that are used have rules, except for `error`; for every rule there are a state and a symbol for which the reduction by the rule is not discarded; there are no messages about labels;
and there are as many conflicts as declared. -/
theorem C118_file (o : Opts) (z : List Nat) (ws : List (Nat × Word)) (items : List Verif.Spec.GFile.Item) (S : Word) (hz : HasWords z ws) (hf : IsFile items ws) (hv : Valid o items)
    (hS : Sound o items S) (hsize : fileSize items < 2 ^ 30) :
    ∃ s g, parseText (ropts o) o.yacc z = some s ∧ errorcnt s = 0 ∧ s.1.gram = some g ∧
      ∀ fb compress m F A cs T, Generated g fb compress m F A cs T → ∀ (reduces : Nat → Bool) (rs : List (RRule × Trans × Bool)), s.1.translateAll reduces s.1.ruleOrder = some rs →
        (s.1.exitcode g m A (rs.map fun r => r.2.1) = 0 ↔
          (∀ B a rhs line, Uses items S B → .rule B a rhs line ∈ items → ∀ e ∈ rhs, e.name ∈ nonterminals o items → e.name ≠ text "error" →
            ∃ a' rhs' line', .rule e.name a' rhs' line' ∈ items) ∧
          (∀ r < (parts items).length, ∃ q t, (AType.REDUCE, r) ∈ A.on q t) ∧
          (∀ r ∈ rs, r.2.1.errs = []) ∧
          Declares o items A.count.err) := by
  obtain ⟨s, h1, h2, h3, hh⟩ := C72_says o z ws items hz hf hv
  obtain ⟨g, hg, hs⟩ := gram_start hv hh hS
  have u := usable hv hh hS hg hs hsize
  refine ⟨s, g, h1, h2, hg, ?_⟩
  intro fb compress m F A cs T hgen reduces rs hrs
  rw [(C118_exit s.1 g hg u.wf u.items m F hgen.analysed A _).1, C118_declares hh]
  have hlen : g.rules.length = (parts items).length := by rw [gram_rules hg, List.length_map, hh.rules, List.length_map]
  rw [hlen]
  have e1 : (∀ x, s.1.args .startSymbol = some x → ∃ y ∈ s.1.table, y.name = x) ↔ True := by
    simp only [iff_true]
    intro x hx
    have := startName_eq hv hh hS
    unfold RState.startName at this
    obtain ⟨r, hr, hm⟩ := Option.map_eq_some_iff.mp this
    rw [hx] at hm
    by_cases hx : s.1.table.any (fun y => y.name == x) = true
    · simpa using hx
    · simp [hx] at hm
  have e2 : (∀ r ∈ g.rules, g.start ∉ r.rhs) ↔ True := by simpa using u.noRhs
  have hr : ∀ A α, (A, α) ∈ g.rules.map (fun r => (r.lhs, r.rhs)) ↔ ∃ l a rhs line, .rule l a rhs line ∈ items ∧ A = s.1.num (.sym l) ∧ α = rhs.map (elemNum s.1 items) := by
    intro A α
    rw [← mem_gram_rules hh hg, List.mem_map]
    simp only [Prod.mk.injEq]
  have hnlow : g.nlow = s.1.nterminal + s.1.mts.length := by unfold Gram.nlow; rw [gram_nterm hg, gram_mts hg]
  have herr := gram_errsym hv hh hg hS.error
  have e3 : (∀ B α, Used (g.rules.map fun r => (r.lhs, r.rhs)) g.start B → (B, α) ∈ g.rules.map (fun r => (r.lhs, r.rhs)) →
        ∀ X ∈ α, g.nlow ≤ X → g.errsym ≠ some X → ∃ r ∈ g.rules, r.lhs = X) ↔
      ∀ B a rhs line, Uses items S B → .rule B a rhs line ∈ items → ∀ e ∈ rhs, e.name ∈ nonterminals o items → e.name ≠ text "error" →
            ∃ a' rhs' line', .rule e.name a' rhs' line' ∈ items := by
    have lhsIff : ∀ x ∈ nonterminals o items, (∃ r ∈ g.rules, r.lhs = s.1.num (.sym x)) ↔ ∃ a' rhs' line', .rule x a' rhs' line' ∈ items := by
      intro x hx
      constructor
      · rintro ⟨r, hr1, hr2⟩
        obtain ⟨l, a, rhs, line, h1, h2, -⟩ := (mem_gram_rules hh hg _ _).mp ⟨r, hr1, rfl, rfl⟩
        rw [nonterminal_inj hv hh hx (lhs_nonterminal hv hS.lhs h1) (hr2.symm.trans h2)]
        exact ⟨a, rhs, line, h1⟩
      · rintro ⟨a, rhs, line, h⟩
        obtain ⟨r, h1, h2, -⟩ := (mem_gram_rules hh hg _ _).mpr ⟨x, a, rhs, line, h, rfl, rfl⟩
        exact ⟨r, h1, h2⟩
    have used : ∀ B a rhs line, .rule B a rhs line ∈ items → (Used (g.rules.map fun r => (r.lhs, r.rhs)) g.start (s.1.num (.sym B)) ↔ Uses items S B) := by
      intro B a rhs line hB
      have hBn := lhs_nonterminal hv hS.lhs hB
      have hge : s.1.nterminal + s.1.mts.length ≤ s.1.num (.sym B) := by
        rw [num_nonterminal hv hh B hBn, nterminal_eq hv hh]; omega
      rw [used_uses hv hh hg hS hs]
      constructor
      · rintro ⟨e, he, hn, hu⟩
        have hname : e.name = B := by
          rcases elemNum_cases hv hh he with ⟨_, _, _, h4⟩ | ⟨_, h2, h3, _⟩ | ⟨h1, _, h3, _⟩
          · omega
          · omega
          · exact nonterminal_inj hv hh h1 hBn (by rw [← h3, hn])
        rcases hu with rfl | ⟨A, a, rhs, line, h1, h2, h3⟩
        · rw [← hname]; exact .start
        · rw [← hname]; exact .rule h1 h2 h3
      · intro h
        have plain : ∀ e : Elem, ElemOK o items s.1 e → e.name = B → s.1.num (.sym B) = elemNum s.1 items e := by
          rintro e he rfl
          have hmem := (mem_nonterminals _).mp hBn
          rcases elemNum_cases hv hh he with ⟨h1, _, _, _⟩ | ⟨h1, _, _, _⟩ | ⟨_, _, h3, _⟩
          · exact absurd h1 hmem.2.1
          · rcases h1 with h1 | h1
            · exact absurd h1.1 hmem.2.1
            · rw [hmem.2.2.2] at h1; cases h1
          · exact h3.symm
        cases h with
        | start => exact ⟨⟨S, []⟩, start_ok hS, plain _ (start_ok hS) rfl, .inl rfl⟩
        | @rule A a rhs line e h1 h2 h3 => exact ⟨e, elem_ok hv hh h2 e h3, plain e (elem_ok hv hh h2 e h3) rfl, .inr ⟨A, a, rhs, line, h1, h2, h3⟩⟩
    constructor
    · intro h B a rhs line hU hB e he hn hne
      have hB' := (hr _ _).mpr ⟨B, a, rhs, line, hB, rfl, rfl⟩
      have hok := elem_ok hv hh hB e he
      have hmem := (mem_nonterminals _).mp hn
      have hc : elemNum s.1 items e = s.1.num (.sym e.name) ∧ s.1.nterminal + s.1.mts.length ≤ elemNum s.1 items e := by
        rcases elemNum_cases hv hh hok with ⟨h1, _, _, _⟩ | ⟨h1, _, _, _⟩ | ⟨_, _, h3, h4⟩
        · exact absurd h1 hmem.2.1
        · rcases h1 with h1 | h1
          · exact absurd h1.1 hmem.2.1
          · rw [hmem.2.2.2] at h1; cases h1
        · exact ⟨h3, h4⟩
      rw [← lhsIff _ hn, ← hc.1]
      refine h _ _ ((used B a rhs line hB).mpr hU) hB' _ (List.mem_map_of_mem he) (by rw [hnlow]; exact hc.2) ?_
      rw [herr]
      split
      · next hm =>
        intro h
        rw [hc.1] at h
        exact hne (nonterminal_inj hv hh hm hn (Option.some.inj h)).symm
      · simp
    · intro h B α hU hB X hX hge hne
      obtain ⟨l, a, rhs, line, h1, rfl, rfl⟩ := (hr _ _).mp hB
      obtain ⟨e, he, rfl⟩ := List.mem_map.mp hX
      rw [hnlow] at hge
      rcases elemNum_cases hv hh (elem_ok hv hh h1 e he) with ⟨_, _, _, h4⟩ | ⟨_, h2, h3, _⟩ | ⟨h2, _, h3, _⟩
      · omega
      · omega
      · rw [h3, lhsIff _ h2]
        refine h l a rhs line ((used l a rhs line h1).mp hU) h1 e he h2 ?_
        intro hee
        rw [herr, ← hee, if_pos h2, h3] at hne
        exact hne rfl
  rw [e1, e2, e3]
  simp only [true_and, List.mem_map, forall_exists_index, and_imp, forall_apply_eq_imp_iff₂]
  rw [show (s.1.nexpect = (A.count.err : Int)) ↔ ((A.count.err : Int) = s.1.nexpect) from eq_comm]

/-- C118, the number of conflicts declared: one declaration with a number declares this number.

Missing: more than one declaration (`C118_twice_violated`) and arguments that are no numbers (`C118_name_violated`). -/
theorem C118_expect_partial (o : Opts) (items : List Verif.Spec.GFile.Item) (line n : Nat) (h : argsOf items "expect" = [(line, text (toString n))]) (i : Int) :
    Declares o items i ↔ i = n := by
  have hb := LT.decimal_bytes n
  have ha : argOf o items ("expect", false) = some (decimal n) := by
    unfold argOf
    rw [if_neg (by rw [h]; simp), h]
    simp only [List.foldl_cons, List.foldl_nil, addText, Bool.false_eq_true, false_and, if_false, List.append_nil, List.nil_append, ← decimal_eq]
    unfold body
    rw [if_neg]
    rintro (h | h) <;> have := hb.2 _ (List.mem_of_mem_head? h) <;> omega
  have hr : BeginsWith (decimal n) n := by
    have := BeginsWith.digits (t := []) hb.1 hb.2 (by simp)
    rw [List.append_nil] at this
    have hd : (decimal n).foldl (fun n c => 10 * n + (c - 48)) 0 = n := by
      rw [decimal, LT.foldl_toDigits, Nat.ofDigitChars_toDigits (by omega) (by omega)]
    rwa [hd] at this
  unfold Declares
  rw [ha]
  exact ⟨fun h => (reads_atoi h).symm.trans (reads_atoi hr), by rintro rfl; exact hr⟩

/-! ### examples -/

/-- exit status and message for a grammar file, computed with a bounded number of rounds -/
def c118Run (z : List Nat) : Option (Nat × List Nat) :=
  (parseText (ropts c72Opts) false z).bind fun s => s.1.gram.bind fun g => (analyse g 60).bind fun p => (findActions g (precsyms g) p.1 p.2).bind fun A =>
    (s.1.translateAll (fun _ => true) s.1.ruleOrder).map fun rs => (s.1.exitcode g p.1 A (rs.map fun r => r.2.1), s.1.conflictMessage A)

/-- the file for the examples, with one conflict -/
def c118Text : List Nat := text "%expect 1 s ::= e. e ::= e P e. e ::= T."

def c118Items : List Verif.Spec.GFile.Item := [.arg "expect" (text "1") 1, .rule (text "s") none [⟨text "e", []⟩] 1, .rule (text "e") none [⟨text "e", []⟩, ⟨text "P", []⟩, ⟨text "e", []⟩] 1,
  .rule (text "e") none [⟨text "T", []⟩] 1]

/-- the hypotheses of `C118_file` and `C118_expect_partial` -/
example : fileCheck c118Text c118Items = true ∧ validCheck c72Opts [] c118Items = true ∧ soundCheck c72Opts c118Items (text "s") = true ∧ fileSize c118Items < 2 ^ 30 ∧
    argsOf c118Items "expect" = [(1, text (toString 1))] ∧ c118Run c118Text = some (0, []) ∧
    ((parseText (ropts c72Opts) false c118Text).bind fun s => s.1.gram.bind fun g => (makeTables true g s.1.fb 60).map fun _ => usableB g) = some true := by decide +kernel

/-- Each of the conditions of `C118_exit` can fail: conflicts that are not declared, a rule that is never used, a nonterminal without rules, a start symbol that does not exist or is on a right
side, and a label that is not used.  The error symbol needs no rules. -/
example : c118Run (text "s ::= e. e ::= e P e. e ::= T.") = some (1, text "1 parsing conflicts.\n") ∧
    c118Run (text "s ::= e. e ::= T. x ::= T.") = some (1, []) ∧
    c118Run (text "s ::= e. e ::= T. e ::= f.") = some (1, []) ∧
    c118Run (text "s ::= e. e ::= T. e ::= error.") = some (0, []) ∧
    c118Run (text "%start_symbol q s ::= e. e ::= T.") = some (1, []) ∧
    c118Run (text "s ::= T. s ::= P s.") = some (1, []) ∧
    c118Run (text "s ::= e. e(A) ::= T.") = some (1, []) := by decide +kernel

/-- a file with two declarations -/
def c118Twice : List Verif.Spec.GFile.Item := .arg "expect" (text "1") 1 :: c118Items

/-- C118 is violated: if a number is declared twice, another number is declared (11 for 1), and lemon reports failure for the number that was declared. -/
theorem C118_twice_violated : fileCheck (text "%expect 1 %expect 1 s ::= e. e ::= e P e. e ::= T.") c118Twice = true ∧ validCheck c72Opts [] c118Twice = true ∧
    (∀ p ∈ argsOf c118Twice "expect", p.2 = text "1") ∧ Declares c72Opts c118Twice 11 ∧
    c118Run (text "%expect 1 %expect 1 s ::= e. e ::= e P e. e ::= T.") = some (1, text "1 parsing conflicts.\n") := by
  refine ⟨by decide +kernel, by decide +kernel, by decide +kernel, ?_, by decide +kernel⟩
  unfold Declares
  rw [show argOf c72Opts c118Twice ("expect", false) = some (text "11") by decide +kernel]
  exact BeginsWith.digits (ds := text "11") (t := []) (by decide) (by decide) (by simp)

/-- a file in which the argument of `%expect` is a name -/
def c118Name : List Verif.Spec.GFile.Item := [.arg "expect" (text "two") 1, .rule (text "s") none [⟨text "T", []⟩] 1]

/-- C118 is violated: an argument that is no number is accepted without a message, and declares that there are no conflicts. -/
theorem C118_name_violated : fileCheck (text "%expect two s ::= T.") c118Name = true ∧ validCheck c72Opts [] c118Name = true ∧
    argsOf c118Name "expect" = [(1, text "two")] ∧ Declares c72Opts c118Name 0 ∧ c118Run (text "%expect two s ::= T.") = some (0, []) := by
  refine ⟨by decide +kernel, by decide +kernel, by decide +kernel, ?_, by decide +kernel⟩
  unfold Declares
  rw [show argOf c72Opts c118Name ("expect", false) = some (text "two") by decide +kernel]
  refine BeginsWith.none ?_
  rw [show (text "two").head? = some 116 by decide]
  simp

end Verif.Lemon
