import Verif.Proofs.ListText
/-
C109: the list of the rules at the beginning of the report that byacc -v writes, and the list of the symbols at its end.

`readerNaked` is `reader` with the symbols of `%prec` besides the arrays (C104_reader).
-/
set_option autoImplicit false
namespace Verif.Byacc
open Rd Spec Spec.OutText Spec.YText

/-- The list of the rules: every rule of the file once, in order, with its number and its `%prec`. -/
theorem C109_rules (lp : Bool) (file text t : List Nat) (o : FileOut) (x : NakedIn) (F : File) (h : readerNaked lp file text = .ok (o, x))
    (ht : GivenText file text t) (hF : FileAt F t) :
    ruleList o x = YList.rules F.goal (F.rules.map fun r => ⟨r.lhs, r.rhs, match r.prec with | .of n => some n | _ => none⟩) := by
  obtain ⟨-, t', F', h1, h2, h3, h4, acts, tags, h5, ho, hx⟩ := (readerNaked_iff lp file text o x).1 h
  obtain ⟨rfl, rfl, -⟩ := C80_unique file text t t' F F' ht h1 hF h2
  rw [ho, hx, ruleList_eq lp hF h3 h4 acts]
  rfl

/-- The list of the symbols: every symbol has a row, with its number in the grammar (its place in the list), its number in the parser, and its name.
The number in the parser is the code of a token, and the number after `YYMAXTOKEN` that is used for a nonterminal; `yyname` has the name at this number,
unless a token listed before has the same code. -/
theorem C109_symbols (lp : Bool) (file text t : List Nat) (o : FileOut) (F : File) (h : reader lp file text = .ok o) (ht : GivenText file text t)
    (hF : FileAt F t) (I0 : TextIn) (a : LR0) (tb : BTables) (w : Wr) :
    let I := I0.ofFile o a tb
    let T := if I.rflag then (w.output I).tab else bytes I.codeName (w.output I).code
    ∃ rows : List (Nat × Nat × List Nat), symbolList o = YList.symbols rows ∧
      rows.map Prod.fst = List.range ((names F.uses).length + 2) ∧
      rows[0]? = some (0, 0, txt "$end") ∧
      rows[I.ntokens]? = some (I.ntokens, I.maxtok.toNat + 1, txt "$accept") ∧
      (∃ code, CodesOf F.uses code ∧ ∀ n ∈ tokenNames F.uses, 0 ≤ code n ∧
        rows[symNumber F.uses F.goal n]? = some (symNumber F.uses F.goal n, (code n).toNat, n)) ∧
      (∀ n ∈ names F.uses, ¬ Terminal F.uses n → rows[symNumber F.uses F.goal n]? =
        some (symNumber F.uses F.goal n, I.maxtok.toNat + 1 + (symNumber F.uses F.goal n - I.ntokens), n)) ∧
      ((∀ n ∈ names F.uses, NoQuote n) → ∃ entries, HasStrArray T (!I.rflag) (I.pfx ++ txt "name") entries ∧
        ∀ (k v : Nat) (n : List Nat), rows[k]? = some (k, v, n) → (∀ j < k, ∀ r, rows[j]? = some r → r.2.1 ≠ v) → entries[v]? = some (some n)) := by
  intro I T
  obtain ⟨-, t', F', h1, h2, h3, h4, acts, tags, h5, ho⟩ := (reader_iff lp file text o).1 h
  obtain ⟨rfl, rfl, -⟩ := C80_unique file text t t' F F' ht h1 hF h2
  have hm : Means lp F acts o := by rw [ho]; exact means_final lp hF h3 h4 acts
  have hv : Values F o := by rw [ho]; exact values_final lp F acts
  have hgm := goal_mem F
  have hgt : ¬ Terminal F.uses F.goal := fun h => h.1 h4
  have hns := hm.count.1
  have hnt := hm.tokens.1
  have hcn := count_names F.uses F.goal hgm hgt
  obtain ⟨cs, hv1, hv2⟩ := hv
  have hvals : I.values = o.num.value := rfl
  have hntI : I.ntokens = (tokenNames F.uses).length + 1 := hnt
  have hmt : maxTok o = I.maxtok := rfl
  obtain ⟨l1, l2, -, l4, l5, -⟩ := C88_largest I
  have hhigh : ∀ j, j < (names F.uses).length - (tokenNames F.uses).length → o.num.value[I.ntokens + 1 + j]? = some (j : Int) := by
    intro j hj
    rw [hv1, List.getElem?_append_right (by simp; omega)]
    rw [show I.ntokens + 1 + j - (0 :: cs).length = j + 1 by simp; omega, List.getElem?_cons_succ, List.getElem?_map, List.getElem?_range hj]
    rfl
  have hacc : o.num.value[I.ntokens]? = some (-1) := by
    rw [hv1, List.getElem?_append_right (by simp; omega), show I.ntokens - (0 :: cs).length = 0 by simp; omega]
    rfl
  have nonneg : ∀ m ∈ tokenNames F.uses, 0 ≤ o.num.value.getD (symNumber F.uses F.goal m) 0 := by
    intro m hm'
    cases hg : codeGiven F.uses m with
    | some c => have := hm.codes.given m hm' c hg; omega
    | none =>
      by_cases he : m = txt "error"
      · subst he; have := hm.codes.error hg; omega
      · have := (hm.codes.free m hm' hg he).1; omega
  have tokNonneg : ∀ k, k < I.ntokens → 0 ≤ o.num.value.getD k 0 := by
    intro k hk
    cases k with
    | zero => rw [List.getD_eq_getElem?_getD, hm.eof]; simp
    | succ j =>
      obtain ⟨m, hm'⟩ : ∃ m, (tokenNames F.uses)[j]? = some m := ⟨_, List.getElem?_eq_getElem (by omega)⟩
      have hmm := List.mem_of_getElem? hm'
      have hmt' : Terminal F.uses m := by simpa using (List.mem_filter.1 hmm).2
      have hj' : (tokenNames F.uses).idxOf m = j := idxOf_getElem _ ((names_nodup _).filter _) j m hm'
      have hsm : symNumber F.uses F.goal m = j + 1 := by unfold symNumber; rw [if_pos hmt', hj']
      have := nonneg m hmm
      rwa [hsm] at this
  have pv : ∀ k, I.ntokens ≤ k → k < (names F.uses).length + 2 → symbolPval o k = I.maxtok.toNat + 1 + (k - I.ntokens) ∧
      (maxTok o + 1) + o.num.value.getD k 0 + 1 = (symbolPval o k : Int) := by
    intro k hk1 hk2
    unfold symbolPval
    rw [if_neg (by omega), hmt]
    by_cases hk : k = I.ntokens
    · subst hk
      rw [List.getD_eq_getElem?_getD, hacc]
      simp; omega
    · obtain ⟨j, rfl⟩ : ∃ j, k = I.ntokens + 1 + j := ⟨k - I.ntokens - 1, by omega⟩
      rw [List.getD_eq_getElem?_getD, hhigh j (by omega)]
      simp; omega
  have tv : ∀ k, k < I.ntokens → o.num.value.getD k 0 = (symbolPval o k : Int) := by
    intro k hk
    unfold symbolPval
    rw [if_pos (by omega)]
    have := tokNonneg k hk
    omega
  have dec : ∀ n : Nat, decInt (n : Int) = YList.num n := by
    intro n
    unfold decInt
    rw [if_neg (by omega)]
    rfl
  refine ⟨(List.range o.num.nsyms).map fun k => (k, symbolPval o k, symbolName o k), ?_, ?_, ?_, ?_, ?_, ?_, ?_⟩
  · unfold symbolList YList.symbols
    rw [List.flatMap_map, show str "\ngrammar parser grammar\n" ++ str "symbol# value# symbol\n" = YList.txt "\ngrammar parser grammar\nsymbol# value# symbol\n" by decide,
      List.append_assoc]
    congr 1
    have hsplit : List.range o.num.nsyms = List.range o.num.ntokens ++ List.range' o.num.ntokens (o.num.nsyms - o.num.ntokens) := by
      rw [List.range_eq_range', List.range_eq_range']
      have := List.range'_append_1 (s := 0) (m := o.num.ntokens) (n := o.num.nsyms - o.num.ntokens)
      rw [Nat.zero_add, show o.num.ntokens + (o.num.nsyms - o.num.ntokens) = o.num.nsyms by omega] at this
      exact this.symm
    rw [hsplit, List.flatMap_append]
    congr 1
    · refine List.flatMap_congr fun k hk => ?_
      rw [List.mem_range] at hk
      unfold symbolLine
      rw [tv k (by omega), dec]
      rfl
    · refine List.flatMap_congr fun k hk => ?_
      rw [List.mem_range'_1] at hk
      unfold symbolLine
      rw [(pv k (by omega) (by omega)).2, dec]
      rfl
  · rw [List.map_map, hns]
    exact List.map_id' _
  · rw [List.getElem?_map, List.getElem?_range (by omega), Option.map_some]
    have : symbolPval o 0 = 0 := by
      have := tv 0 (by omega)
      rw [List.getD_eq_getElem?_getD, hm.eof, Option.getD_some] at this
      omega
    rw [this]
    rfl
  · rw [List.getElem?_map, List.getElem?_range (by omega), Option.map_some, (pv _ (Nat.le_refl _) (by omega)).1]
    have : symbolName o I.ntokens = txt "$accept" := by
      unfold symbolName
      rw [if_neg (by omega), if_pos (show I.ntokens = o.num.ntokens from rfl)]
      rfl
    rw [this]
    simp
  · refine ⟨_, hm.codes, ?_⟩
    intro n hn
    have hnn := (List.mem_filter.1 hn).1
    have htm : Terminal F.uses n := by simpa using (List.mem_filter.1 hn).2
    have hlt := (number_token F.uses F.goal hnn).1.2 htm
    refine ⟨nonneg n hn, ?_⟩
    rw [List.getElem?_map, List.getElem?_range (by omega), Option.map_some, symbolName_number hm hnn]
    have := tv _ (show symNumber F.uses F.goal n < I.ntokens by omega)
    rw [this]
    rfl
  · intro n hn htm
    have hge : (tokenNames F.uses).length + 2 ≤ symNumber F.uses F.goal n := by
      obtain ⟨g1, g2, g3⟩ := number_token F.uses F.goal hn
      have : ¬ symNumber F.uses F.goal n < (tokenNames F.uses).length + 1 := fun h => htm (g1.1 h)
      omega
    have hlt : symNumber F.uses F.goal n < (names F.uses).length + 2 := number_lt F.uses F.goal hgm hgt hn
    rw [List.getElem?_map, List.getElem?_range (by omega), Option.map_some, symbolName_number hm hn, (pv _ (by omega) hlt).1]
  · intro hq
    have hN : ∀ n ∈ I.names, SymName n ∧ NoQuote n := ofFile_names hF hm hq I0 a tb
    obtain ⟨entries, e1, e2, -, e4⟩ := C89_names I w hN
    refine ⟨entries, e1, ?_⟩
    intro k v n hk hfirst
    have hkl : k < o.num.nsyms := by
      have := (List.getElem?_eq_some_iff.1 hk).1
      simpa using this
    have row : ∀ j, j < o.num.nsyms → ((List.range o.num.nsyms).map fun k => (k, symbolPval o k, symbolName o k))[j]? =
        some (j, symbolPval o j, symbolName o j) := by
      intro j hj
      rw [List.getElem?_map, List.getElem?_range hj]; rfl
    rw [row k hkl] at hk
    simp only [Option.some.injEq, Prod.mk.injEq, true_and] at hk
    obtain ⟨rfl, rfl⟩ := hk
    have hpv : ∀ k, k < o.num.nsyms → I.pvals[k]? = some (symbolPval o k) := by
      intro k hk
      change ((List.range o.num.nsyms).map (symbolPval o))[k]? = _
      rw [List.getElem?_map, List.getElem?_range hk]; rfl
    have hmax : (symbolPval o k : Int) ≤ I.maxsym := by
      have hvl : k < o.num.value.length := by rw [hv1]; simp; omega
      by_cases hkt : k < I.ntokens
      · rw [← tv k hkt]
        refine Int.le_trans (l1 _ ?_) l4
        refine List.mem_iff_getElem?.2 ⟨k, ?_⟩
        rw [List.getElem?_take, if_pos hkt, hvals, List.getElem?_eq_getElem hvl]
        simp [hvl]
      · have hb := l5 (o.num.value.getD k 0) (by
          refine List.mem_iff_getElem?.2 ⟨k - I.ntokens, ?_⟩
          rw [List.getElem?_drop, hvals, show I.ntokens + (k - I.ntokens) = k by omega, List.getElem?_eq_getElem hvl]
          simp [hvl])
        rw [← (pv k (by omega) (by omega)).2, hmt]
        omega
    refine (e4 _ _ (by omega)).2 ⟨k, hpv k hkl, (ofFile_name (o := o) I0 a tb k hkl).1, ?_⟩
    intro j hj e
    rw [hpv j (by omega), Option.some_inj] at e
    exact hfirst j hj _ (row j (by omega)) e

def c109File : List Nat := txt "%token NUM 300\n%left '+' \"ab\"\n%right NEG\n%%\ne : e '+' e { $$ = $1 + $3; }\n | { k(); } '-' e %prec NEG\n | NUM\n | ;\n%%\nint x;\n"

/-- an example: a rule for an action within a rule, a `%prec`, an alternative and an empty one; codes of all kinds -/
example : (readerNaked false (txt "g.y") c109File).toOption.map (fun o => ruleList o.1 o.2) =
    some (txt "   0  $accept : e $end\n\n   1  e : e '+' e\n\n   2  $$1 :\n\n   3  e : $$1 '-' e %prec NEG\n   4    | NUM\n   5    |\n") := by decide +kernel

example : (reader false (txt "g.y") c109File).toOption.map symbolList =
    some (txt "\ngrammar parser grammar\nsymbol# value# symbol\n     0      0  $end\n     1    256  error\n     2    300  NUM\n     3     43  '+'\n     4    257  \"ab\"\n     5    258  NEG\n     6     45  '-'\n     7    301  $accept\n     8    302  e\n     9    303  $$1\n") := by
  decide +kernel

example : ∀ n ∈ [txt "error", txt "NUM", txt "'+'", txt "\"ab\"", txt "NEG", txt "e", txt "$$1", txt "'-'"], NoQuote n := by
  intro n hn
  refine noQuote_of ?_
  simp only [List.mem_cons, List.not_mem_nil, or_false] at hn
  rcases hn with rfl | rfl | rfl | rfl | rfl | rfl | rfl | rfl <;> decide

end Verif.Byacc
