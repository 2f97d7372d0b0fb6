import Verif.Byacc.TextFile
import Verif.Proofs.ByaccLang
import Verif.Proofs.TextStr
import Verif.Props.C88
import Verif.Props.C80
/-
The names and rules of a file, as the text of the output refers to them.
-/
set_option autoImplicit false
namespace Verif.Byacc
open Rd Spec.OutText Spec.YText

theorem ruleUses_written (toks : List RTok) : ∀ (l : Sym) (p : Bool) (k : Nat), Named toks → ∀ u ∈ ruleUses l p k toks, Use.written u := by
  induction toks with
  | nil => intro l p k _ u hu; cases hu
  | cons x ts ih =>
    intro l p k hN u hu
    have hN' := hN.tail
    cases x with
    | sym x =>
      obtain ⟨t, v, hx⟩ := hN x (.inl (by simp))
      unfold ruleUses at hu
      split at hu
      · rcases List.mem_cons.1 hu with rfl | hu
        · exact ⟨t, v, hx⟩
        · rcases List.mem_cons.1 hu with rfl | hu
          · trivial
          · exact ih _ _ _ hN' u hu
      · rcases List.mem_cons.1 hu with rfl | hu
        · exact ⟨t, v, hx⟩
        · exact ih _ _ _ hN' u hu
    | action b ps =>
      unfold ruleUses at hu
      split at hu
      · rcases List.mem_cons.1 hu with rfl | hu
        · trivial
        · exact ih _ _ _ hN' u hu
      · exact ih _ _ _ hN' u hu
    | prec x =>
      obtain ⟨t, v, hx⟩ := hN x (.inr (.inr (by simp)))
      unfold ruleUses at hu
      rcases List.mem_cons.1 hu with rfl | hu
      · exact ⟨t, v, hx⟩
      · exact ih _ _ _ hN' u hu
    | bar => exact ih _ _ _ hN' u hu
    | lhs y =>
      obtain ⟨t, v, hx⟩ := hN y (.inr (.inl (by simp)))
      unfold ruleUses at hu
      rcases List.mem_cons.1 hu with rfl | hu
      · exact ⟨t, v, hx⟩
      · exact ih _ _ _ hN' u hu

theorem uses_written {F : File} {t : List Nat} (hF : FileAt F t) : ∀ u ∈ F.uses, Use.written u := by
  obtain ⟨hd, hf, hN⟩ := file_named hF
  intro u hu
  unfold File.uses at hu
  rcases List.mem_append.1 hu with hu | hu
  · exact declUses_written [] F.all hd u hu
  · rcases List.mem_cons.1 hu with rfl | hu
    · exact hf
    · exact ruleUses_written _ _ _ _ hN u hu

theorem hiddenKey_word (k : Nat) : ∀ c ∈ hiddenKey k, NameChar c := by
  intro c hc
  unfold hiddenKey at hc
  rcases List.mem_cons.1 hc with rfl | hc
  · exact .inr (.inr (.inr (.inr rfl)))
  rcases List.mem_cons.1 hc with rfl | hc
  · exact .inr (.inr (.inr (.inr rfl)))
  · exact .inr (.inl ((decDigits_spec k).2.1 c hc))

/-- every name is a word or that of a literal -/
theorem names_kind {F : File} {t : List Nat} (hF : FileAt F t) {n : List Nat} (hn : n ∈ names F.uses) :
    (∀ c ∈ n, NameChar c) ∨ ((∃ s, n = litName s) ∧ IsToken F.uses n) := by
  rcases (mem_names _ _).1 hn with rfl | ⟨u, hu, rfl⟩
  · left; unfold NameChar Letter Digit; decide
  · have hw := uses_written hF u hu
    have aux : ∀ x : Sym, (∃ t u, SymAt x t u) → (∀ s, x = .lit s → IsToken F.uses (litName s)) →
        (∀ c ∈ x.key, NameChar c) ∨ ((∃ s, x.key = litName s) ∧ IsToken F.uses x.key) := by
      intro x ⟨t, u, hx⟩ hi
      cases x with
      | name n => exact .inl hx.1.2.1
      | lit s => exact .inr ⟨⟨s, rfl⟩, hi s rfl⟩
    have hlit : ∀ s, u.lit? (litName s) = some s → u.key = litName s → IsToken F.uses (litName s) :=
      fun s h k => .inr ⟨u, hu, k, .inr ⟨s, h⟩⟩
    cases u with
    | hidden k l => exact .inl (hiddenKey_word k)
    | token x _ _ _ _ => exact aux x hw (fun s e => hlit s (by subst e; simp [Use.lit?, Sym.key]) (by subst e; rfl))
    | typed x _ => exact aux x hw (fun s e => hlit s (by subst e; simp [Use.lit?, Sym.key]) (by subst e; rfl))
    | plain x => exact aux x hw (fun s e => hlit s (by subst e; simp [Use.lit?, Sym.key]) (by subst e; rfl))
    | lhs x => exact aux x hw (fun s e => hlit s (by subst e; simp [Use.lit?, Sym.key]) (by subst e; rfl))

theorem nonterm_word {F : File} {t : List Nat} (hF : FileAt F t) (hok : F.Ok) {n : List Nat} (hn : n ∈ names F.uses) (ht : ¬ Terminal F.uses n) :
    ∀ c ∈ n, NameChar c := by
  refine (names_kind hF hn).resolve_right fun ⟨_, h⟩ => ht ⟨fun hl => hok.2 _ hl h, token_notHidden hF _ h⟩

variable {lp : Bool} {F : File} {acts : List (Nat × List Nat)} {o : FileOut}

theorem word_noQuote {n : List Nat} (h : ∀ c ∈ n, NameChar c) : NameOk n := by
  refine ⟨.word n h, fun s e => ?_⟩
  rw [litName_eq] at e
  subst e
  have := nameChar_plain (h _ (List.mem_cons_self))
  split at this <;> omega

theorem printedRule_eq (g : Gram) (i : Nat) : printedRule g i = ((readRule g i).1, (readRule g i).2.takeWhile (fun x => decide (0 < x))) := by
  unfold printedRule readRule
  refine Prod.ext rfl ?_
  dsimp only
  generalize g.ritem.drop (g.rhs i) = l
  induction l with
  | nil => rfl
  | cons x l ih =>
    rw [List.takeWhile_cons, List.takeWhile_cons]
    by_cases h : 0 < x
    · rw [if_pos (by simpa using h), if_pos (by simp; omega), List.map_cons, List.map_cons, List.takeWhile_cons, if_pos (by simp; omega), ih]
    · rw [if_neg (by simpa using h)]
      split
      · rw [List.map_cons, List.takeWhile_cons, if_neg (by simp; omega)]; rfl
      · rfl

theorem codes_length (ts : List PSym) : (tokenCodes ts).length = ts.length := by
  cases ts with
  | nil => rfl
  | cons e more =>
    obtain ⟨x1, x2⟩ := explicitCodes_spec (e :: more)
    simp [tokenCodes, (assignCodes_spec more 257 (explicitCodes (e :: more)) x1 (fun x hx => by
      have := ((x2 x).1 hx).1; omega)).1]

/-- the values of a file: those of the tokens, then those of the nonterminals -/
def Values (F : File) (o : FileOut) : Prop :=
  ∃ cs : List Int, o.num.value = 0 :: cs ++ -1 :: (List.range ((names F.uses).length - (tokenNames F.uses).length)).map (fun (k : Nat) => (k : Int)) ∧
    cs.length = (tokenNames F.uses).length

theorem values_final (lp : Bool) (F : File) (acts : List (Nat × List Nat)) : Values F (finalOut lp F acts) := by
  have h1 : ((psyms F.uses).filter (·.isTerm)).length = (tokenNames F.uses).length := by rw [filter_psyms, List.length_map]
  have h2 : ((psyms F.uses).filter (fun s => !s.isTerm)).length = (names F.uses).length - (tokenNames F.uses).length := by
    have h4 := List.length_eq_length_filter_add (l := psyms F.uses) (·.isTerm)
    have h5 : (psyms F.uses).length = (names F.uses).length := by unfold psyms; rw [List.length_map]
    omega
  refine ⟨tokenCodes ((psyms F.uses).filter (·.isTerm)), ?_, (codes_length _).trans h1⟩
  rw [← h2]
  rfl

theorem symbolName_number (hm : Means lp F acts o) {n : List Nat} (hn : n ∈ names F.uses) : symbolName o (symNumber F.uses F.goal n) = n := by
  obtain ⟨_, h2, h3⟩ := number_token F.uses F.goal hn
  unfold symbolName
  rw [if_neg (by omega), if_neg (by rw [hm.tokens.1]; exact h3)]
  have hi : ∃ (i : Nat) (b : BSym), o.syms[i]? = some b ∧ b.name = n := by
    rw [← hm.syms] at hn
    obtain ⟨b, hb, e⟩ := List.mem_map.1 hn
    obtain ⟨i, hi⟩ := List.mem_iff_getElem?.1 hb
    exact ⟨i, b, hi, e⟩
  obtain ⟨i, b, hi, hb⟩ := hi
  have hmem : (symNumber F.uses F.goal n, b) ∈ o.num.index.zip o.syms := by
    refine List.mem_iff_getElem?.2 ⟨i, ?_⟩
    have := hm.number i b hi
    rw [hb] at this
    rw [List.getElem?_zip_eq_some]
    exact ⟨this, hi⟩
  cases e : (o.num.index.zip o.syms).find? (fun p => p.1 == symNumber F.uses F.goal n) with
  | none =>
    rw [List.find?_eq_none] at e
    exact absurd (e _ hmem) (by simp)
  | some p =>
    have h5 : p.1 = symNumber F.uses F.goal n := by simpa using List.find?_some e
    obtain ⟨j, hj⟩ := List.mem_iff_getElem?.1 (List.mem_of_find?_eq_some e)
    rw [show p = (p.1, p.2) from rfl, List.getElem?_zip_eq_some] at hj
    have h6 := hm.number j p.2 hj.2
    rw [hj.1, Option.some_inj, h5] at h6
    have hpn : p.2.name ∈ names F.uses := by
      rw [← hm.syms]
      exact List.mem_map_of_mem (List.mem_of_getElem? hj.2)
    exact (number_inj F.uses F.goal hn hpn h6).symm

theorem symbolName_any (hm : Means lp F acts o) (k : Nat) :
    symbolName o k = txt "$end" ∨ symbolName o k = txt "$accept" ∨ symbolName o k = [] ∨ symbolName o k ∈ names F.uses := by
  unfold symbolName
  split
  · exact .inl rfl
  · split
    · exact .inr (.inl rfl)
    · cases e : (o.num.index.zip o.syms).find? (fun p => p.1 == k) with
      | none => exact .inr (.inr (.inl rfl))
      | some p =>
        refine .inr (.inr (.inr ?_))
        rw [← hm.syms]
        exact List.mem_map_of_mem (List.of_mem_zip (List.mem_of_find?_eq_some e)).2

theorem ofFile_names {t : List Nat} (hF : FileAt F t) (hm : Means lp F acts o) (hq : ∀ n ∈ names F.uses, NoQuote n) (I : TextIn) (a : LR0) (tb : BTables) :
    ∀ n ∈ (I.ofFile o a tb).names, NameOk n := by
  intro n hn
  obtain ⟨k, -, rfl⟩ := List.mem_map.1 hn
  rcases symbolName_any hm k with e | e | e | e
  · rw [e]; exact word_noQuote (by unfold NameChar Letter Digit; decide)
  · rw [e]; exact word_noQuote (by unfold NameChar Letter Digit; decide)
  · rw [e]; exact word_noQuote (by simp)
  · rcases names_kind hF e with h | ⟨⟨s, h⟩, -⟩
    · exact word_noQuote h
    · exact ⟨by rw [h]; exact .lit s, hq _ e⟩

theorem ofFile_name (I : TextIn) (a : LR0) (tb : BTables) (k : Nat) (h : k < o.num.nsyms) :
    (I.ofFile o a tb).names[k]? = some (symbolName o k) ∧ (I.ofFile o a tb).names.getD k [] = symbolName o k := by
  have : (I.ofFile o a tb).names[k]? = some (symbolName o k) := by
    change ((List.range o.num.nsyms).map (symbolName o))[k]? = _
    rw [List.getElem?_map, List.getElem?_range h]; rfl
  exact ⟨this, by rw [List.getD_eq_getElem?_getD, this]; rfl⟩

theorem goal_nonterm (hl : IsLhs F.uses F.goal) : ¬ Terminal F.uses F.goal := fun h => h.1 hl

theorem takeWhile_all {α : Type} (p : α → Bool) (l : List α) (h : ∀ x ∈ l, p x = true) : l.takeWhile p = l := by
  induction l with
  | nil => rfl
  | cons x l ih => rw [List.takeWhile_cons, if_pos (h x (by simp)), ih fun y hy => h y (by simp [hy])]

theorem ofFile_rules {t : List Nat} (hF : FileAt F t) (hm : Means lp F acts o) (I : TextIn) (a : LR0) (tb : BTables) :
    (I.ofFile o a tb).rules = ((tokenNames F.uses).length + 1, [(tokenNames F.uses).length + 2]) ::
      F.rules.map fun r => (symNumber F.uses F.goal r.lhs, r.rhs.map (symNumber F.uses F.goal)) := by
  change (List.range' 2 (o.gram.nrules - 2)).map (printedRule o.gram) = _
  rw [hm.nrules, show F.rules.length + 3 - 2 = F.rules.length + 1 by omega]
  have e : printedRule o.gram = (fun p : Nat × List Nat => (p.1, p.2.takeWhile (fun x => decide (0 < x)))) ∘ readRule o.gram := by
    funext i; exact printedRule_eq _ _
  rw [e, ← List.map_map, hm.rules, List.map_cons, List.map_map]
  congr 1
  refine List.map_congr_left fun r hr => ?_
  refine Prod.ext rfl ?_
  simp only [Function.comp]
  refine takeWhile_all _ _ ?_
  intro x hx
  obtain ⟨n, hn, rfl⟩ := List.mem_map.1 hx
  have := (number_token F.uses F.goal ((rules_names hF r hr).2.2.1 n hn)).2.1
  simpa using this

end Verif.Byacc
