import Verif.Proofs.TextFile
/-
C89: the names of the symbols and the rules in the generated file.
-/
set_option autoImplicit false
namespace Verif.Byacc
open Rd Spec.OutText Spec.YText

theorem lineStart_nameTable (I : TextIn) (w : Wr) : LineStart (outText I ((w.debugConsts I).nameTable I)) := by
  unfold Wr.nameTable
  have h : LineStart (outText I (w.debugConsts I)) := by
    unfold Wr.debugConsts
    dsimp only
    refine lineStart_codeLine _ _ (by decide) ?_
    refine lineStart_codeLine _ _ (by simp) ?_
    refine lineStart_codeLine _ _ (by simp) ?_
    unfold Wr.debugFlag
    dsimp only
    split
    · unfold Wr.yydebug
      rw [outText_put]
      exact lineStart_append (by decide)
    · next e =>
      have : outText I = fun w => bytes I.codeName w.code := by funext w; simp [outText, e]
      rw [this]
      exact lineStart_put (I := I) _ (by decide)
  split
  · split
    · exact lineStart_line _ _
    · exact h
  · exact lineStart_line _ _

theorem find_zip {α : Type} (p : List Nat) (l : List α) (i : Nat) (x : α) :
    ((p.zip l).find? (fun q => q.1 == i)).map Prod.snd = some x ↔
      ∃ k : Nat, p[k]? = some i ∧ l[k]? = some x ∧ ∀ j < k, p[j]? ≠ some i := by
  induction p generalizing l with
  | nil => simp
  | cons a p ih =>
    cases l with
    | nil => simp
    | cons b l =>
      rw [List.zip_cons_cons, List.find?_cons]
      by_cases h : a = i
      · subst h
        simp only [beq_self_eq_true, Option.map_some, Option.some.injEq]
        constructor
        · rintro rfl
          exact ⟨0, rfl, rfl, fun j hj => by omega⟩
        · rintro ⟨k, _, h2, h3⟩
          cases k with
          | zero => simpa using h2
          | succ k => exact absurd rfl (h3 0 (by omega))
      · rw [show ((a, b).1 == i) = false by simp [h]]
        simp only
        rw [ih]
        constructor
        · rintro ⟨k, h1, h2, h3⟩
          refine ⟨k + 1, h1, h2, fun j hj => ?_⟩
          cases j with
          | zero => simpa using h
          | succ j => exact h3 j (by omega)
        · rintro ⟨k, h1, h2, h3⟩
          cases k with
          | zero => simp at h1; exact absurd h1 h
          | succ k => exact ⟨k, h1, h2, fun j hj => h3 (j + 1) (by omega)⟩

/-- The entries of `yyname`: as many as there are numbers up to `YYUNDFTOKEN`; each is a string with the name of the first
symbol with this number, or 0 if there is none; the last one is `illegal-symbol`. -/
theorem C89_names (I : TextIn) (w : Wr) (hn : ∀ n ∈ I.names, SymName n ∧ NoQuote n) :
    let T := if I.rflag then (w.output I).tab else bytes I.codeName (w.output I).code
    ∃ entries : List (Option (List Nat)), HasStrArray T (!I.rflag) (I.pfx ++ txt "name") entries ∧
      (entries.length : Int) = I.maxsym + 2 ∧ entries.getLast? = some (some (txt "illegal-symbol")) ∧
      ∀ (i : Nat) n, i + 1 < entries.length →
        (entries[i]? = some (some n) ↔ ∃ k : Nat, I.pvals[k]? = some i ∧ I.names[k]? = some n ∧ ∀ j < k, I.pvals[j]? ≠ some i) := by
  intro T
  have hT : T = outText I ((((w.front I).tables I).debug I).back I) := rfl
  have hb : Grow (((w.front I).tables I).debug I) ((((w.front I).tables I).debug I).back I) := grow_back (Grow.refl _)
  generalize (((w.front I).tables I).debug I).back I = wE at hT hb
  generalize (w.front I).tables I = w1 at hb
  rw [debug_eq] at hb
  have l1 := lineStart_nameTable I w1
  generalize (w1.debugConsts I).nameTable I = w2 at hb l1
  obtain ⟨h1, h2, -, h4, -⟩ := C88_largest I
  have hm : 0 ≤ I.maxsym := Int.le_trans h2 h4
  have hl : (((List.range (I.maxsym + 2).toNat).map I.symnam).length : Int) = I.maxsym + 2 := by
    rw [List.length_map, List.length_range]; omega
  refine ⟨(List.range (I.maxsym + 2).toNat).map I.symnam, ?_, hl, ?_, ?_⟩
  · rw [hT]
    refine hasStrArray "name" _ l1 (nameItems_text _ ?_ 80 _) (Grow.trans (grow_ruleTable (Grow.refl _)) hb)
    intro s hs
    obtain ⟨i, hi, rfl⟩ := List.mem_map.1 hs
    unfold TextIn.symnam
    split
    · exact item_illegal
    · cases e : ((I.pvals.zip I.names).find? (fun p => p.1 == i)) with
      | none => exact item_none
      | some p => exact item_name (hn _ (List.of_mem_zip (List.mem_of_find?_eq_some e)).2)
  · obtain ⟨m, e⟩ : ∃ m : Nat, (I.maxsym + 2).toNat = m + 1 := ⟨(I.maxsym + 1).toNat, by omega⟩
    rw [e, List.range_succ, List.map_append, List.map_singleton, List.getLast?_concat]
    unfold TextIn.symnam
    rw [if_pos (by omega)]
    rfl
  · intro i n hi
    rw [List.getElem?_map, List.getElem?_range (by rw [List.length_map, List.length_range] at hi; omega), Option.map_some, Option.some_inj]
    unfold TextIn.symnam
    rw [if_neg (by omega)]
    exact find_zip _ _ _ _

/-- The entries of `yyrule`: every rule in words. -/
theorem C89_rules (I : TextIn) (w : Wr) (hn : ∀ n ∈ I.names, SymName n ∧ NoQuote n)
    (hl : ∀ r ∈ I.rules, ∀ c ∈ I.names.getD r.1 [], NameChar c) :
    let T := if I.rflag then (w.output I).tab else bytes I.codeName (w.output I).code
    HasStrArray T (!I.rflag) (I.pfx ++ txt "rule")
      (I.rules.map fun r => some (ruleText (I.names.getD r.1 []) (r.2.map fun X => I.names.getD X []))) := by
  intro T
  have hT : T = outText I ((((w.front I).tables I).debug I).back I) := rfl
  have hb : Grow (((w.front I).tables I).debug I) ((((w.front I).tables I).debug I).back I) := grow_back (Grow.refl _)
  generalize (((w.front I).tables I).debug I).back I = wE at hT hb
  generalize (w.front I).tables I = w1 at hb
  rw [debug_eq] at hb
  generalize (((w1.debugConsts I).nameTable I).startStr I "name").nameItems I ((List.range (I.maxsym + 2).toNat).map I.symnam) 80 = w2 at hb
  unfold Wr.ruleTable at hb
  dsimp only at hb
  rw [hT]
  have l1 : LineStart (outText I (if I.tokenTable = true then (w2.endTable I).line I "#if YYDEBUG" else w2.endTable I)) := by
    split
    · exact lineStart_line _ _
    · exact lineStart_line _ _
  refine hasStrArray "rule" _ l1 (rules_text I.rules hl ?_ _) (Grow.trans (grow_line _ (Grow.refl _)) hb)
  intro r _ X _
  by_cases h : X < I.names.length
  · rw [show I.names.getD X [] = I.names[X] by simp [h]]
    exact hn _ (List.getElem_mem h)
  · rw [show I.names.getD X [] = [] by simp [h]]
    refine ⟨.word [] (by simp), fun s e => ?_⟩
    rw [litName_eq] at e
    simp at e

/-- For a file that is accepted, with names that can be printed: `yyrule` has the rule for `$accept` and then those of the file; `yyname` has the name
of a token at its code (the first one, if there are several with the same code), that of a nonterminal at the number after
`YYMAXTOKEN` that the tables use for it, and `$end` at 0. -/
theorem C89_file (lp : Bool) (file text t : List Nat) (o : FileOut) (F : File) (h : reader lp file text = .ok o) (ht : GivenText file text t)
    (hF : FileAt F t) (hq : ∀ n ∈ names F.uses, NoQuote n) (I0 : TextIn) (a : LR0) (tb : BTables) (w : Wr) :
    let I := I0.ofFile o a tb
    let T := if I.rflag then (w.output I).tab else bytes I.codeName (w.output I).code
    HasStrArray T (!I.rflag) (I.pfx ++ txt "rule") (some (ruleText (txt "$accept") [F.goal]) :: F.rules.map fun r => some (ruleText r.lhs r.rhs)) ∧
    ∃ entries code, HasStrArray T (!I.rflag) (I.pfx ++ txt "name") entries ∧ CodesOf F.uses code ∧ entries[0]? = some (some (txt "$end")) ∧
      (∀ n ∈ tokenNames F.uses, code n ≠ 0 → (∀ m ∈ tokenNames F.uses, code m = code n → (tokenNames F.uses).idxOf n ≤ (tokenNames F.uses).idxOf m) →
        entries[(code n).toNat]? = some (some n)) ∧
      ∀ n ∈ names F.uses, ¬ Terminal F.uses n →
        entries[I.maxtok.toNat + 1 + (symNumber F.uses F.goal n - I.ntokens)]? = some (some n) := by
  intro I T
  obtain ⟨-, t', F', h1, h2, h3, h4, acts, tags, h5, ho⟩ := (reader_iff lp file text o).1 h
  obtain ⟨rfl, rfl, -⟩ := C80_unique file text t t' F F' ht h1 hF h2
  have hm : Means lp F acts o := by rw [ho]; exact means_final lp hF h3 h4 acts
  have hv : Values F o := by rw [ho]; exact values_final lp F acts
  have hgm := goal_mem F
  have hgt : ¬ Terminal F.uses F.goal := fun h => h.1 h4
  have hns := hm.count.1
  have hnt := hm.tokens.1
  have hcn := count_names F.uses F.goal hgm hgt
  have hN : ∀ n ∈ I.names, SymName n ∧ NoQuote n := ofFile_names hF hm hq I0 a tb
  have nameAt : ∀ n ∈ names F.uses, I.names[symNumber F.uses F.goal n]? = some n ∧ I.names.getD (symNumber F.uses F.goal n) [] = n := by
    intro n hn
    have := ofFile_name (o := o) I0 a tb (symNumber F.uses F.goal n) (by rw [hns]; exact number_lt _ _ hgm hgt hn)
    rwa [symbolName_number hm hn] at this
  have acc : I.names.getD ((tokenNames F.uses).length + 1) [] = txt "$accept" := by
    have := (ofFile_name (o := o) I0 a tb ((tokenNames F.uses).length + 1) (by omega)).2
    rw [this]
    unfold symbolName
    rw [if_neg (by omega), if_pos hnt.symm]
    rfl
  have hR : I.rules = ((tokenNames F.uses).length + 1, [(tokenNames F.uses).length + 2]) ::
      F.rules.map fun r => (symNumber F.uses F.goal r.lhs, r.rhs.map (symNumber F.uses F.goal)) := ofFile_rules hF hm I0 a tb
  have hgn : symNumber F.uses F.goal F.goal = (tokenNames F.uses).length + 2 := by
    unfold symNumber; rw [if_neg hgt, if_pos rfl]
  refine ⟨?_, ?_⟩
  · have := C89_rules I w hN (by
      rw [hR]
      intro r hr
      rcases List.mem_cons.1 hr with rfl | hr
      · rw [acc]; unfold NameChar Letter Digit; decide
      · obtain ⟨R, hR, rfl⟩ := List.mem_map.1 hr
        obtain ⟨r1, r2, -⟩ := rules_names hF R hR
        rw [(nameAt _ r1).2]
        exact nonterm_word hF h3 r1 r2)
    dsimp only at this
    rw [hR, List.map_cons, acc, List.map_map] at this
    convert this using 1
    congr 1
    · rw [List.map_singleton, ← hgn, (nameAt _ hgm).2]
    · refine List.map_congr_left fun R hR => ?_
      obtain ⟨r1, -, r3, -⟩ := rules_names hF R hR
      simp only [Function.comp, List.map_map]
      rw [(nameAt _ r1).2]
      congr 2
      refine (List.map_id' _).symm.trans (List.map_congr_left fun x hx => ?_)
      exact (nameAt _ (r3 x hx)).2.symm
  · obtain ⟨entries, e1, e2, -, e4⟩ := C89_names I w hN
    obtain ⟨cs, hv1, hv2⟩ := hv
    have hpv : ∀ k, k < o.num.nsyms → I.pvals[k]? = some (symbolPval o k) := by
      intro k hk
      change ((List.range o.num.nsyms).map (symbolPval o))[k]? = _
      rw [List.getElem?_map, List.getElem?_range hk]; rfl
    have hvals : I.values = o.num.value := rfl
    have hntI : I.ntokens = (tokenNames F.uses).length + 1 := hnt
    have hmt : maxTok o = I.maxtok := rfl
    obtain ⟨l1, l2, -, l4, l5, -⟩ := C88_largest I
    have hlow : ∀ k, k < I.ntokens → o.num.value.getD k 0 ≤ I.maxtok := by
      intro k hk
      refine l1 _ ?_
      have hl : k < o.num.value.length := by rw [hv1]; simp; omega
      refine List.mem_iff_getElem?.2 ⟨k, ?_⟩
      rw [List.getElem?_take, if_pos hk, hvals, List.getElem?_eq_getElem hl]
      simp [hl]
    have hhigh : ∀ j, j < (names F.uses).length - (tokenNames F.uses).length → o.num.value[I.ntokens + 1 + j]? = some (j : Int) := by
      intro j hj
      rw [hv1, List.getElem?_append_right (by simp; omega)]
      rw [show I.ntokens + 1 + j - (0 :: cs).length = j + 1 by simp; omega, List.getElem?_cons_succ, List.getElem?_map, List.getElem?_range hj]
      rfl
    have hacc : o.num.value[I.ntokens]? = some (-1) := by
      rw [hv1, List.getElem?_append_right (by simp; omega), show I.ntokens - (0 :: cs).length = 0 by simp; omega]
      rfl
    refine ⟨entries, _, e1, hm.codes, ?_, ?_, ?_⟩
    · refine (e4 0 _ (by omega)).2 ⟨0, ?_, ?_, fun j hj => by omega⟩
      · rw [hpv 0 (by omega)]
        unfold symbolPval
        rw [if_pos (by omega), List.getD_eq_getElem?_getD, hm.eof]
        rfl
      · exact (ofFile_name (o := o) I0 a tb 0 (by omega)).1
    · intro n hn hc hfirst
      have hnn := (List.mem_filter.1 hn).1
      have htm : Terminal F.uses n := by simpa using (List.mem_filter.1 hn).2
      have hsn : symNumber F.uses F.goal n = (tokenNames F.uses).idxOf n + 1 := by unfold symNumber; rw [if_pos htm]
      have hlt := List.idxOf_lt_length_iff.2 hn
      have nonneg : ∀ m ∈ tokenNames F.uses, 0 ≤ o.num.value.getD (symNumber F.uses F.goal m) 0 := by
        intro m hm'
        cases hg : codeGiven F.uses m with
        | some c => have := hm.codes.given m hm' c hg; omega
        | none =>
          by_cases he : m = txt "error"
          · subst he; have := hm.codes.error hg; omega
          · have := (hm.codes.free m hm' hg he).1; omega
      have hle := hlow (symNumber F.uses F.goal n) (by omega)
      have h0 := nonneg n hn
      refine (e4 _ _ (by omega)).2 ⟨symNumber F.uses F.goal n, ?_, (nameAt n hnn).1, ?_⟩
      · rw [hpv _ (by omega)]
        unfold symbolPval
        rw [if_pos (by omega)]
      · intro j hj e
        rw [hpv _ (by omega), Option.some_inj] at e
        unfold symbolPval at e
        rw [if_pos (by omega)] at e
        cases j with
        | zero =>
          rw [show o.num.value.getD 0 0 = 0 by rw [List.getD_eq_getElem?_getD, hm.eof]; rfl] at e
          omega
        | succ j =>
          obtain ⟨m, hm'⟩ : ∃ m, (tokenNames F.uses)[j]? = some m := ⟨_, List.getElem?_eq_getElem (by omega)⟩
          have hmm := List.mem_of_getElem? hm'
          have hmt' : Terminal F.uses m := by simpa using (List.mem_filter.1 hmm).2
          have hj' : (tokenNames F.uses).idxOf m = j := idxOf_getElem _ ((names_nodup _).filter _) j m hm'
          have hsm : symNumber F.uses F.goal m = j + 1 := by unfold symNumber; rw [if_pos hmt', hj']
          have h0m := nonneg m hmm
          rw [hsm] at h0m
          have := hfirst m hmm (by rw [hsm]; omega)
          omega
    · intro n hn htm
      have hge : (tokenNames F.uses).length + 2 ≤ symNumber F.uses F.goal n := by
        obtain ⟨g1, g2, g3⟩ := number_token F.uses F.goal hn
        have : ¬ symNumber F.uses F.goal n < (tokenNames F.uses).length + 1 := fun h => htm (g1.1 h)
        omega
      have hlt : symNumber F.uses F.goal n < (names F.uses).length + 2 := number_lt F.uses F.goal hgm hgt hn
      have pv : ∀ k, I.ntokens ≤ k → k < (names F.uses).length + 2 → symbolPval o k = I.maxtok.toNat + 1 + (k - I.ntokens) := by
        intro k hk1 hk2
        unfold symbolPval
        rw [if_neg (by omega), hmt]
        by_cases hk : k = I.ntokens
        · subst hk
          rw [List.getD_eq_getElem?_getD, hacc]
          simp; omega
        · obtain ⟨j, rfl⟩ : ∃ j, k = I.ntokens + 1 + j := ⟨k - I.ntokens - 1, by omega⟩
          rw [List.getD_eq_getElem?_getD, hhigh j (by omega)]
          simp; omega
      have hb : I.maxtok + 1 + (((symNumber F.uses F.goal n - I.ntokens - 1 : Nat) : Int) + 1) ≤ I.maxsym := by
        refine l5 _ ?_
        refine List.mem_iff_getElem?.2 ⟨symNumber F.uses F.goal n - I.ntokens, ?_⟩
        rw [List.getElem?_drop, hvals]
        rw [← hhigh _ (by omega)]
        congr 1
        omega
      refine (e4 _ _ (by omega)).2 ⟨symNumber F.uses F.goal n, ?_, (nameAt n hn).1, ?_⟩
      · rw [hpv _ (by omega), pv _ (by omega) (by omega)]
      · intro j hj e
        rw [hpv _ (by omega), Option.some_inj] at e
        by_cases hjt : j < I.ntokens
        · unfold symbolPval at e
          rw [if_pos (by omega)] at e
          have := hlow j hjt
          omega
        · rw [pv j (by omega) (by omega)] at e
          omega

/-- C89, states.  The array `yystos` (see C88) has, for every state of the automaton, the number that the symbol before the state has in `yyname`: the code of a token,
and for a nonterminal the place of its name. -/
theorem C89_states (lp : Bool) (file text t : List Nat) (o : FileOut) (F : File) (h : reader lp file text = .ok o) (ht : GivenText file text t)
    (hF : FileAt F t) (I0 : TextIn) (a : LR0) (tb : BTables) :
    let I := I0.ofFile o a tb
    ∃ code, CodesOf F.uses code ∧ I.stos.length = a.states.length ∧
      ∀ (i : Nat) (c : Core), a.states[i]? = some c →
        (c.acc = 0 → I.stos[i]? = some 0) ∧
        (∀ n ∈ tokenNames F.uses, c.acc = symNumber F.uses F.goal n → I.stos[i]? = some (code n)) ∧
        ∀ n ∈ names F.uses, ¬ Terminal F.uses n → c.acc = symNumber F.uses F.goal n →
          I.stos[i]? = some ((I.maxtok.toNat + 1 + (symNumber F.uses F.goal n - I.ntokens) : Nat) : Int) := by
  intro I
  obtain ⟨-, t', F', h1, h2, h3, h4, acts, tags, h5, ho⟩ := (reader_iff lp file text o).1 h
  obtain ⟨rfl, rfl, -⟩ := C80_unique file text t t' F F' ht h1 hF h2
  have hm : Means lp F acts o := by rw [ho]; exact means_final lp hF h3 h4 acts
  have hv : Values F o := by rw [ho]; exact values_final lp F acts
  have hgm := goal_mem F
  have hgt : ¬ Terminal F.uses F.goal := fun h => h.1 h4
  have hns := hm.count.1
  have hnt := hm.tokens.1
  have hcn := count_names F.uses F.goal hgm hgt
  obtain ⟨cs, hv1, hv2⟩ := hv
  have hntI : I.ntokens = (tokenNames F.uses).length + 1 := hnt
  have hmt : maxTok o = I.maxtok := rfl
  obtain ⟨l1, l2, -, l4, l5, -⟩ := C88_largest I
  have hhigh : ∀ j, j < (names F.uses).length - (tokenNames F.uses).length → o.num.value[I.ntokens + 1 + j]? = some (j : Int) := by
    intro j hj
    rw [hv1, List.getElem?_append_right (by simp; omega)]
    rw [show I.ntokens + 1 + j - (0 :: cs).length = j + 1 by simp; omega, List.getElem?_cons_succ, List.getElem?_map, List.getElem?_range hj]
    rfl
  have hst : ∀ (i : Nat) (c : Core), a.states[i]? = some c → I.stos[i]? = some (symbolPval o c.acc : Int) := by
    intro i c hc
    change (a.states.map fun c => (symbolPval o c.acc : Int))[i]? = _
    rw [List.getElem?_map, hc]; rfl
  refine ⟨_, hm.codes, by change (a.states.map _).length = _; simp, ?_⟩
  intro i c hc
  rw [hst i c hc]
  refine ⟨?_, ?_, ?_⟩
  · intro e
    rw [e]
    unfold symbolPval
    rw [if_pos (by omega), List.getD_eq_getElem?_getD, hm.eof]
    rfl
  · intro n hn e
    have htm : Terminal F.uses n := by simpa using (List.mem_filter.1 hn).2
    have hsn : symNumber F.uses F.goal n = (tokenNames F.uses).idxOf n + 1 := by unfold symNumber; rw [if_pos htm]
    have hlt := List.idxOf_lt_length_iff.2 hn
    have h0 : 0 ≤ o.num.value.getD (symNumber F.uses F.goal n) 0 := by
      cases hg : codeGiven F.uses n with
      | some c => have := hm.codes.given n hn c hg; omega
      | none =>
        by_cases he : n = txt "error"
        · subst he; have := hm.codes.error hg; omega
        · have := (hm.codes.free n hn hg he).1; omega
    rw [e]
    unfold symbolPval
    rw [if_pos (by omega)]
    simp only [Option.some.injEq]
    omega
  · intro n hn htm e
    have hge : (tokenNames F.uses).length + 2 ≤ symNumber F.uses F.goal n := by
      obtain ⟨g1, g2, g3⟩ := number_token F.uses F.goal hn
      have : ¬ symNumber F.uses F.goal n < (tokenNames F.uses).length + 1 := fun h => htm (g1.1 h)
      omega
    have hlt : symNumber F.uses F.goal n < (names F.uses).length + 2 := number_lt F.uses F.goal hgm hgt hn
    rw [e]
    unfold symbolPval
    rw [if_neg (by omega), hmt]
    obtain ⟨j, hj⟩ : ∃ j, symNumber F.uses F.goal n = I.ntokens + 1 + j := ⟨symNumber F.uses F.goal n - I.ntokens - 1, by omega⟩
    rw [hj, List.getD_eq_getElem?_getD, hhigh j (by omega)]
    simp only [Option.getD_some, Option.some.injEq]
    omega

/-- A name without a backslash, or of a single character, can be printed. -/
theorem noQuote_of {n : List Nat} (h : 92 ∉ n ∨ n.head? = some 39) : NoQuote n := by
  rintro s rfl
  rw [litName_eq] at h
  by_cases hl : s.length = 1
  · exact .inl hl
  · rw [if_neg hl] at h
    refine .inr fun hs => ?_
    rcases h with h | h
    · refine h ?_
      have : 92 ∈ litChar 34 34 := by decide
      exact List.mem_cons_of_mem _ (List.mem_append_left _ (List.mem_flatMap.2 ⟨34, hs, this⟩))
    · simp at h

/-- C89 is violated for a string literal with a quote in it: the file is accepted, but the entry of `yyname` is not a string of C. -/
theorem C89_quote_violated :
    (∃ o, reader false [] (txt "%%\ns : \"a\\\"b\" ;\n") = .ok o) ∧
    (reader false [] (txt "%%\ns : \"a\\\"b\" ;\n")).toOption.map (fun o => o.syms.map BSym.name) = some [txt "error", txt "s", litName (txt "a\"b")] ∧
    nameItem (some (litName (txt "a\"b"))) = txt "\"\\\"a\\\\\"b\\\"\"," ∧
    ∀ s : List Nat, s.length ≠ 1 → 34 ∈ s → ∀ d n, nameItem (some (litName s)) = d ++ [44] → ¬ CString d n :=
  ⟨ok_of_isSome (by decide +kernel), by decide +kernel, by decide +kernel, fun s hl h d n e => nameItem_bad s hl h d n e⟩

/-- the hypotheses of `C89_names` and `C89_rules` -/
example : (∀ n ∈ (c87In false false false none).names, SymName n ∧ NoQuote n) ∧
    ∀ r ∈ (c87In false false false none).rules, ∀ c ∈ (c87In false false false none).names.getD r.1 [], NameChar c := by
  refine ⟨?_, by unfold NameChar Letter Digit; decide⟩
  change ∀ n ∈ [txt "$end", txt "error", txt "$accept", txt "s"], _
  intro n hn
  refine word_noQuote ?_
  simp only [List.mem_cons, List.not_mem_nil, or_false] at hn
  rcases hn with rfl | rfl | rfl | rfl <;> (unfold NameChar Letter Digit; decide)

def c89File : List Nat := txt "%token NUM 300\n%%\ne : e '\\'' { k(); } NUM '\"' '\\n' | \"ab\" ;\n"

/-- the hypotheses of `C89_file`: a file with literals; its symbols, their numbers and the rules -/
example : (reader false (txt "g.y") c89File).toOption.map (fun o => (o.syms.map BSym.name, (List.range o.num.nsyms).map (symbolPval o),
    (List.range o.num.nsyms).map (symbolName o))) =
    some ([txt "error", txt "NUM", txt "e", txt "'\\''", txt "$$1", txt "'\"'", txt "'\\n'", txt "\"ab\""],
      [0, 256, 300, 39, 34, 10, 257, 301, 302, 303],
      [txt "$end", txt "error", txt "NUM", txt "'\\''", txt "'\"'", txt "'\\n'", txt "\"ab\"", txt "$accept", txt "e", txt "$$1"]) := by decide +kernel

example : ∀ n ∈ [txt "error", txt "NUM", txt "e", txt "'\\''", txt "$$1", txt "'\"'", txt "'\\n'", txt "\"ab\""], NoQuote n := by
  intro n hn
  refine noQuote_of ?_
  simp only [List.mem_cons, List.not_mem_nil, or_false] at hn
  rcases hn with rfl | rfl | rfl | rfl | rfl | rfl | rfl | rfl <;> decide

example : ruleText (txt "e") [txt "e", txt "'\\''", txt "$$1"] = txt "e : e '\\'' $$1" := by decide

end Verif.Byacc
