import Verif.Proofs.LemonLang
import Verif.Spec.LemonAccept
/-
Helper lemmas for C73: lemon can make a parser for the grammar made of a file.
-/
set_option autoImplicit false
namespace Verif.Lemon
open Verif.Spec.GFile

variable {o : Opts} {items : List Verif.Spec.GFile.Item} {s : RState} {g : Gram} {S : Word}

theorem head_lhs (o : Opts) (c : Word → Bool) (items : List Verif.Spec.GFile.Item) :
    ((parts items).map (ruleOf o c)).head?.map RRule.lhs = items.findSome? Item.lhsOf := by
  induction items with
  | nil => rfl
  | cons a l ih =>
    rw [parts, List.findSome?_cons]
    cases a <;> simp only [Item.isRule, Bool.false_eq_true, if_false, if_true] <;> first | exact ih | rfl

theorem startName_eq (hv : Valid o items) (hh : Holds o items s) (hS : Sound o items S) : s.startName = some (S, false) := by
  unfold RState.startName
  have h1 := hS.start
  have ha : s.args .startSymbol = argOf o items ("start_symbol", false) := hh.args .startSymbol
  have hne : s.rules.head? ≠ none := by
    obtain ⟨l, a, rhs, line, h⟩ := hS.rules
    obtain ⟨t, ht⟩ := mem_parts_of items _ h rfl
    rw [hh.rules]
    intro h
    rw [List.head?_eq_none_iff, List.map_eq_nil_iff] at h
    rw [h] at ht
    cases ht
  obtain ⟨r, hr⟩ := Option.ne_none_iff_exists'.mp hne
  rw [hr, Option.map_some, ha]
  have hlhs : items.findSome? Item.lhsOf = some r.lhs := by
    rw [← head_lhs o (isClass items), ← hh.rules, hr]; rfl
  unfold startSymbol at h1
  rcases Option.eq_none_or_eq_some (argOf o items ("start_symbol", false)) with h | ⟨x, h⟩
  · simp only [h] at h1 ⊢
    rw [hlhs] at h1
    cases h1
    rfl
  · simp only [h] at h1 ⊢
    cases h1
    have hm : S ∈ names o items := ((mem_nonterminals _).mp hS.nonterminal).1
    have : s.table.any (fun y => y.name == S) = true := by
      rw [table_eq hv hh, List.any_append]
      rw [Bool.or_eq_true]
      left
      rw [List.any_eq_true]
      exact ⟨symOf o items S, List.mem_map.mpr ⟨S, hm, rfl⟩, by simp [symOf]⟩
    rw [if_pos this]

theorem gram_start (hv : Valid o items) (hh : Holds o items s) (hS : Sound o items S) : ∃ g, s.gram = some g ∧ g.start = s.num (.sym S) := by
  unfold RState.gram
  rw [startName_eq hv hh hS]
  exact ⟨_, rfl, rfl⟩

theorem nitems_eq (hh : Holds o items s) (hg : s.gram = some g) : g.nitems = fileSize items := by
  unfold Gram.nitems fileSize
  rw [gram_rules hg, hh.rules]
  generalize isClass items = c
  have : ∀ items : List Verif.Spec.GFile.Item, ((((parts items).map (ruleOf o c)).map s.rule).map fun r => r.rhs.length + 1).sum =
      (items.map Item.size).sum := by
    intro items
    induction items with
    | nil => rfl
    | cons a l ih =>
      rw [parts, List.map_cons, List.sum_cons]
      cases a <;> simp only [Item.isRule, Item.size, Bool.false_eq_true, if_false, if_true, Nat.zero_add] <;> try exact ih
      rw [List.map_cons, List.map_cons, List.map_cons, List.sum_cons, ih]
      simp [RState.rule, ruleOf]
  exact this items

theorem wildcards_token (hv : Valid o items) (W : Word) (hW : W ∈ wildcards items) : W ∈ tokens o items := by
  unfold wildcards at hW
  rw [List.mem_flatMap] at hW
  obtain ⟨it, hit, hW⟩ := hW
  split at hW
  · rw [mem_tokens]
    exact ⟨(mem_names _ _ _).mpr (.inr ⟨_, hit, hW⟩), valid_form hv _ hit W hW⟩
  · cases hW

theorem gram_wildcard (hv : Valid o items) (hh : Holds o items s) (hg : s.gram = some g) : g.wildcard = (wildcards items).head?.map (tokenNumber o items) := by
  obtain ⟨S, _, rfl⟩ := Option.map_eq_some_iff.mp hg
  show s.wildcard.map (fun x => s.num (.sym x)) = _
  rw [hh.wildcard]
  rcases Option.eq_none_or_eq_some (wildcards items).head? with h | ⟨W, h⟩
  · rw [h]; rfl
  · rw [h, Option.map_some, Option.map_some, num_token hv hh W (wildcards_token hv W (List.mem_of_head? h))]

theorem gram_errsym (hv : Valid o items) (hh : Holds o items s) (hg : s.gram = some g) (he : isClass items (text "error") = false) :
    g.errsym = if text "error" ∈ nonterminals o items then some (s.num (.sym (text "error"))) else none := by
  obtain ⟨S, _, rfl⟩ := Option.map_eq_some_iff.mp hg
  show (s.find errorName).map (fun y => s.num (.sym y.name)) = _
  have hn : errorName = text "error" := by decide
  rw [hn]
  split
  · next h => rw [find_holds hh _ ((mem_nonterminals _).mp h).1]; rfl
  · next h =>
    have : s.find (text "error") = none := by
      unfold RState.find
      rw [hh.syms, List.find?_eq_none]
      intro y hy
      obtain ⟨x, hx, rfl⟩ := List.mem_map.mp hy
      simp only [symOf, beq_iff_eq]
      rintro rfl
      refine h ((mem_nonterminals _).mpr ⟨hx, by decide, by decide, he⟩)
    rw [this]
    rfl

theorem usable (hv : Valid o items) (hh : Holds o items s) (hS : Sound o items S) (hg : s.gram = some g) (hstart : g.start = s.num (.sym S))
    (hsize : fileSize items < 2 ^ 30) : Usable g := by
  have hn := nterminal_eq hv hh
  have hs := nsymbol_eq hv hh
  have hnlow : g.nlow = s.nterminal + s.mts.length := by unfold Gram.nlow; rw [gram_nterm hg, gram_mts hg]
  have hnsym := gram_nsym hg
  have hnt : ∀ x ∈ nonterminals o items, g.nlow ≤ s.num (.sym x) ∧ s.num (.sym x) < g.nsym := by
    intro x hx
    have := List.idxOf_lt_length_of_mem hx
    rw [num_nonterminal hv hh x hx]
    omega
  have hrule := mem_gram_rules hh hg
  refine ⟨⟨?_, ?_, ?_, ?_, ?_⟩, ?_, ?_, ?_, ?_, ?_⟩
  · rw [gram_nterm hg]; omega
  · omega
  · intro r hr
    obtain ⟨l, a, rhs, line, hi, h, _⟩ := (hrule r.lhs r.rhs).mp ⟨r, hr, rfl, rfl⟩
    rw [h]
    exact hnt l (lhs_nonterminal hv hS.lhs hi)
  · intro r hr X hX
    obtain ⟨l, a, rhs, line, hi, _, h⟩ := (hrule r.lhs r.rhs).mp ⟨r, hr, rfl, rfl⟩
    rw [h] at hX
    obtain ⟨e, he, rfl⟩ := List.mem_map.mp hX
    rcases elemNum_cases hv hh (elem_ok hv hh hi e he) with ⟨_, _, _, h⟩ | ⟨_, h, h', _⟩ | ⟨h1, _, h, _⟩
    · omega
    · omega
    · rw [h]; exact (hnt _ h1).2
  · intro m hm t ht
    rw [gram_mts hg] at hm
    obtain ⟨X, hX, rfl⟩ := mts_tokens hv hh m hm t ht
    rw [gram_nterm hg, hn]
    exact (tokenNumber_bounds X hX).2
  · show g.nlow ≤ g.start ∧ g.start < g.nsym
    rw [hstart]
    exact hnt S hS.nonterminal
  · intro E hE
    rw [gram_errsym hv hh hg hS.error] at hE
    split at hE
    · next h =>
      cases hE
      exact hnt _ h
    · cases hE
  · intro W hW
    rw [gram_wildcard hv hh hg, Option.map_eq_some_iff] at hW
    obtain ⟨X, hX, rfl⟩ := hW
    rw [gram_nterm hg, hn]
    exact tokenNumber_bounds X (wildcards_token hv X (List.mem_of_head? hX))
  · intro r hr hm
    obtain ⟨l, a, rhs, line, hi, _, h⟩ := (hrule r.lhs r.rhs).mp ⟨r, hr, rfl, rfl⟩
    rw [h] at hm
    obtain ⟨e, he, hm⟩ := List.mem_map.mp hm
    have hb := hnt S hS.nonterminal
    rw [hstart] at hm
    rcases elemNum_cases hv hh (elem_ok hv hh hi e he) with ⟨_, _, _, h⟩ | ⟨_, h, h', _⟩ | ⟨h1, _, h, _⟩
    · omega
    · omega
    · exact hS.noRhs _ _ _ _ hi e he (nonterminal_inj hv hh h1 hS.nonterminal (by omega))
  · rw [nitems_eq hh hg]; exact hsize

/-! ### fallbacks -/

theorem fallback_tokens (hv : Valid o items) {X Y : Word} (h : fallbackOf items X = some Y) : X ∈ tokens o items ∧ Y ∈ tokens o items := by
  unfold fallbackOf at h
  obtain ⟨it, hit, h⟩ := List.exists_of_findSome?_eq_some h
  split at h
  · split at h
    · next f Xs hX =>
      cases h
      have hf := valid_form hv _ hit
      have hm : ∀ Z ∈ Y :: Xs, Z ∈ tokens o items := fun Z hZ => (mem_tokens _).mpr ⟨(mem_names _ _ _).mpr (.inr ⟨_, hit, hZ⟩), hf Z hZ⟩
      exact ⟨hm X (by simp [hX]), hm Y (by simp)⟩
    · cases h
  · cases h

theorem symbols_token (hv : Valid o items) (hh : Holds o items s) (t : Nat) (ht : t < s.nterminal) :
    (t = 0 ∧ s.symbols[t]? = some (symOf o items (text "$"))) ∨ ∃ X ∈ tokens o items, t = tokenNumber o items X ∧ s.symbols[t]? = some (symOf o items X) := by
  rw [nterminal_eq hv hh] at ht
  rw [symbols_holds hv hh]
  cases t with
  | zero => exact .inl ⟨rfl, rfl⟩
  | succ t =>
    right
    have ht' : t < (tokens o items).length := by omega
    refine ⟨(tokens o items)[t], List.getElem_mem _, ?_, ?_⟩
    · unfold tokenNumber
      rw [List.Nodup.idxOf_getElem (show (tokens o items).Nodup from (nodup_names o items).filter _)]
    · rw [List.append_assoc, List.append_assoc, List.getElem?_append_left (by simp; omega)]
      simp [ht']

theorem symbols_number (hv : Valid o items) (hh : Holds o items s) (X : Word) (hX : X ∈ tokens o items) :
    tokenNumber o items X < s.nterminal ∧ s.symbols[tokenNumber o items X]? = some (symOf o items X) := by
  have hb := tokenNumber_bounds X hX
  have hn := nterminal_eq hv hh
  refine ⟨by omega, ?_⟩
  rcases symbols_token hv hh (tokenNumber o items X) (by omega) with ⟨h, _⟩ | ⟨Y, hY, h1, h2⟩
  · omega
  · rw [h2, tokenNumber_inj hX h1]

theorem dollar_fallback (hv : Valid o items) : fallbackOf items (text "$") = none := by
  rcases Option.eq_none_or_eq_some (fallbackOf items (text "$")) with h | ⟨Y, h⟩
  · exact h
  · exact absurd (((mem_tokens _).mp (fallback_tokens hv h).1).2) (fun h => dollar_not_letter (.inl h))

theorem fb_iff (hv : Valid o items) (hh : Holds o items s) (t t' : Nat) :
    s.fb t = some t' ↔ ∃ X Y, fallbackOf items X = some Y ∧ t = tokenNumber o items X ∧ t' = tokenNumber o items Y := by
  unfold RState.fb
  constructor
  · intro h
    split at h
    · next ht =>
      rw [Option.map_eq_some_iff] at h
      obtain ⟨Y, h, rfl⟩ := h
      rcases symbols_token hv hh t ht with ⟨_, h2⟩ | ⟨X, _, h1, h2⟩
      · rw [h2] at h
        have h : fallbackOf items (text "$") = some Y := h
        rw [dollar_fallback hv] at h
        cases h
      · rw [h2] at h
        have h : fallbackOf items X = some Y := h
        exact ⟨X, Y, h, h1, index_token hv hh Y (fallback_tokens hv h).2⟩
    · cases h
  · rintro ⟨X, Y, h, rfl, rfl⟩
    obtain ⟨h1, h2⟩ := fallback_tokens hv h
    obtain ⟨h3, h4⟩ := symbols_number hv hh X h1
    rw [if_pos h3, h4]
    show (fallbackOf items X).map s.index = _
    rw [h, Option.map_some, index_token hv hh Y h2]

theorem fallbackOK (hv : Valid o items) (hh : Holds o items s) (hg : s.gram = some g) : FallbackOK g s.fb := by
  intro t t' h
  obtain ⟨X, Y, hf, rfl, rfl⟩ := (fb_iff hv hh t t').mp h
  obtain ⟨h1, h2⟩ := fallback_tokens hv hf
  have b1 := tokenNumber_bounds X h1
  have b2 := tokenNumber_bounds Y h2
  rw [gram_nterm hg, nterminal_eq hv hh]
  omega

theorem takenFor_of (hv : Valid o items) (hh : Holds o items s) (hg : s.gram = some g) {t u : Nat} (h : ReadAs s.fb g.wildcard t u) :
    ∀ X ∈ tokens o items, t = tokenNumber o items X → ∃ Y ∈ tokens o items, u = tokenNumber o items Y ∧ TakenFor items X Y := by
  induction h with
  | self t => intro X hX h; exact ⟨X, hX, h, .self X⟩
  | fallback h _ ih =>
    intro X hX hX'
    obtain ⟨X', Y, h, h1, rfl⟩ := (fb_iff hv hh _ _).mp h
    obtain rfl := tokenNumber_inj hX (hX'.symm.trans h1)
    obtain ⟨Z, hZ, h2, h3⟩ := ih Y (fallback_tokens hv h).2 rfl
    exact ⟨Z, hZ, h2, .fallback h h3⟩
  | wildcard h _ =>
    intro X hX hX'
    rw [gram_wildcard hv hh hg, Option.map_eq_some_iff] at h
    obtain ⟨W, hW, rfl⟩ := h
    exact ⟨W, wildcards_token hv W (List.mem_of_head? hW), rfl, .wildcard hW⟩

theorem start_ok (hS : Sound o items S) : ElemOK o items s ⟨S, []⟩ := by
  have h := (mem_nonterminals _).mp hS.nonterminal
  refine ⟨h.1, h.2.2.1, by simp [Elem.alts], by simp [Elem.alts], by simp [Elem.alts]⟩

/-- the language of the grammar is that of the file -/
theorem sentence_iff (hv : Valid o items) (hh : Holds o items s) (hS : Sound o items S) (hg : s.gram = some g) (hstart : g.start = s.num (.sym S)) (v : List Nat) :
    g.cfg.Sentence g.start v ↔ ∃ w, v = w.map (tokenNumber o items) ∧ Verif.Spec.GFile.Sentence items S w := by
  have hs : [g.start] = [(⟨S, []⟩ : Elem)].map (elemNum s items) := by
    rw [hstart, List.map_singleton, elemNum, refOf_plain rfl]
  have hok : ∀ e ∈ [(⟨S, []⟩ : Elem)], ElemOK o items s e := by
    intro e he
    rw [List.mem_singleton] at he
    rw [he]
    exact start_ok hS
  constructor
  · intro h
    have := Verif.Spec.yields_iff.mpr h
    exact stands_of_yields hv hh hg hS.lhs this _ hs hok
  · rintro ⟨w, rfl, h⟩
    have := (yields_of_stands hv hh hg hS.lhs h hok).2
    rw [← hs] at this
    exact Verif.Spec.yields_iff.mp this

theorem sentence_tokens (hv : Valid o items) (hh : Holds o items s) (hS : Sound o items S) (hg : s.gram = some g) {w : List Word} (h : Verif.Spec.GFile.Sentence items S w) :
    ∀ X ∈ w, X ∈ tokens o items := by
  refine (yields_of_stands hv hh hg hS.lhs h ?_).1
  intro e he
  rw [List.mem_singleton] at he
  rw [he]
  exact start_ok hS

theorem map_number_inj {w w' : List Word} (h : ∀ X ∈ w, X ∈ tokens o items) (he : w.map (tokenNumber o items) = w'.map (tokenNumber o items)) : w = w' := by
  induction w generalizing w' with
  | nil => rw [List.map_nil] at he; exact (List.map_eq_nil_iff.mp he.symm).symm
  | cons a l ih =>
    cases w' with
    | nil => cases he
    | cons b l' =>
      rw [List.map_cons, List.map_cons, List.cons.injEq] at he
      rw [tokenNumber_inj (h a (by simp)) he.1, ih (fun X hX => h X (by simp [hX])) he.2]

end Verif.Lemon
