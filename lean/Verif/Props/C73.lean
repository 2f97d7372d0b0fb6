import Verif.Proofs.LemonUsable
import Verif.Props.C40
import Verif.Props.C72
/-
C73: the parser is for the grammar that is in the file.
-/
set_option autoImplicit false
namespace Verif.Lemon
open Verif.Spec.GFile Verif.Spec.Words

/-- C73, numbers.  Lemon numbers the tokens from 1 in the order of their first mention in the file; number 0 is the end of input.  Then come the
nonterminals in this order, the symbol `{default}`, and the token classes.  The assertion in `main` holds.  The order
does not depend on the method used for sorting. -/
theorem C73_numbers (o : Opts) (items : List Verif.Spec.GFile.Item) (s : RState) (hv : Valid o items) (hh : Holds o items s) :
    s.symbols.map Sym.name = [text "$"] ++ tokens o items ++ nonterminals o items ++ [text "{default}"] ++ classes o items ∧
    s.nterminal = 1 + (tokens o items).length ∧ s.nsymbol = 1 + (tokens o items).length + (nonterminals o items).length ∧ s.lastIsDefault ∧
    ∀ l : List (Sym × Nat), l.Perm s.table.zipIdx → l.Pairwise symLe → l.map Prod.fst = s.symbols := by
  refine ⟨?_, nterminal_eq hv hh, nsymbol_eq hv hh, lastIsDefault hv hh, ?_⟩
  · rw [symbols_names hv hh, symOrder]
    have : defaultName = text "{default}" := by decide
    rw [this]
    rfl
  · intro l hp hs
    rw [sorted_symbols _ l hp hs, symbols_eq]

/-- C73, grammar.  For a valid file with start symbol `S` lemon makes tables for a grammar with exactly the sentences that the file
says, up to the numbers of the tokens.  The grammar satisfies what the theorems about the tables (C30 to C43) ask for. -/
theorem C73_grammar (o : Opts) (items : List Verif.Spec.GFile.Item) (s : RState) (S : Word) (hv : Valid o items) (hh : Holds o items s) (hS : Sound o items S)
    (hsize : fileSize items < 2 ^ 30) :
    ∃ g, s.gram = some g ∧ Usable g ∧ FallbackOK g s.fb ∧ g.nterm = 1 + (tokens o items).length ∧
      ∀ v, g.cfg.Sentence g.start v ↔ ∃ w, v = w.map (tokenNumber o items) ∧ Verif.Spec.GFile.Sentence items S w := by
  obtain ⟨g, hg, hs⟩ := gram_start hv hh hS
  exact ⟨g, hg, usable hv hh hS hg hs hsize, fallbackOK hv hh hg, (gram_nterm hg).trans (nterminal_eq hv hh), sentence_iff hv hh hS hg hs⟩

/-- C73, the other data of the grammar: which rules have code, the precedences of rules and tokens, the wildcard, the fallbacks,
the error symbol. -/
theorem C73_data (o : Opts) (items : List Verif.Spec.GFile.Item) (s : RState) (S : Word) (g : Gram) (hv : Valid o items) (hh : Holds o items s) (hS : Sound o items S)
    (hg : s.gram = some g) :
    g.rules.map Rule.code = (parts items).map (fun p => (p.2.findSome? Item.codeOf).isSome) ∧
    g.rules.map Rule.prec = (parts items).map (fun p => if o.ignorePrec then none else (p.2.findSome? Item.markOf).map (tokenNumber o items)) ∧
    (∀ X ∈ tokens o items, g.prec (tokenNumber o items X) = (match precOf o items X with | some p => (p.1 : Int) | none => -1) ∧
      g.assoc (tokenNumber o items X) = (match precOf o items X with | some p => p.2 | none => .UNK)) ∧
    g.wildcard = (wildcards items).head?.map (tokenNumber o items) ∧
    (∀ X ∈ tokens o items, s.fb (tokenNumber o items X) = (fallbackOf items X).map (tokenNumber o items)) ∧
    (g.errsym.isSome ↔ text "error" ∈ names o items) ∧ (∀ E, g.errsym = some E → g.index E = 1 + (tokens o items).length + (nonterminals o items).idxOf (text "error")) ∧
    g.yaccPrec = (o.yacc || items.contains .yaccPrec) := by
  have hwild := gram_wildcard hv hh hg
  have herr := gram_errsym hv hh hg hS.error
  have hmts := gram_mts hg
  have hnt := (gram_nterm hg).trans (nterminal_eq hv hh)
  obtain ⟨S', _, rfl⟩ := Option.map_eq_some_iff.mp hg
  refine ⟨?_, ?_, ?_, hwild, ?_, ?_, ?_, ?_⟩
  · show (s.rules.map s.rule).map Rule.code = _
    rw [hh.rules, List.map_map, List.map_map]
    refine List.map_congr_left fun p hp => ?_
    have := parts_isRule _ _ hp
    obtain ⟨it, t⟩ := p
    cases it <;> simp [Item.isRule] at this
    simp only [Function.comp, RState.rule, ruleOf, Option.isSome_map]
  · show (s.rules.map s.rule).map Rule.prec = _
    rw [hh.rules, List.map_map, List.map_map]
    refine List.map_congr_left fun p hp => ?_
    have hr := parts_isRule _ _ hp
    have hsub := parts_sub _ _ hp
    obtain ⟨it, t⟩ := p
    cases it <;> simp [Item.isRule] at hr
    simp only [Function.comp, RState.rule, ruleOf]
    split
    · rfl
    · rcases Option.eq_none_or_eq_some (t.findSome? Item.markOf) with h | ⟨X, h⟩
      · rw [h]; rfl
      · rw [h, Option.map_some, Option.map_some]
        obtain ⟨it, hit, h⟩ := List.exists_of_findSome?_eq_some h
        cases it <;> simp [Item.markOf] at h
        subst h
        have hi := hsub _ hit
        rw [num_token hv hh]
        rw [mem_tokens]
        refine ⟨(mem_names _ _ _).mpr (.inr ⟨_, hi, ?_⟩), valid_form hv _ hi⟩
        simp only [mentions]
        rw [if_neg (by assumption)]
        simp
  · intro X hX
    obtain ⟨h1, h2⟩ := symbols_number hv hh X hX
    show (if _ then _ else _) = _ ∧ (if _ then _ else _) = _
    rw [if_pos h1, if_pos h1, h2]
    exact ⟨rfl, rfl⟩
  · intro X hX
    obtain ⟨h1, h2⟩ := symbols_number hv hh X hX
    unfold RState.fb
    rw [if_pos h1, h2]
    show (fallbackOf items X).map s.index = _
    rcases Option.eq_none_or_eq_some (fallbackOf items X) with h | ⟨Y, h⟩
    · rw [h]; rfl
    · rw [h, Option.map_some, Option.map_some, index_token hv hh Y (fallback_tokens hv h).2]
  · rw [herr]
    constructor
    · intro h
      split at h
      · next hm => exact ((mem_nonterminals _).mp hm).1
      · cases h
    · intro h
      rw [if_pos ((mem_nonterminals _).mpr ⟨h, by decide, by decide, hS.error⟩)]
      rfl
  · intro E hE
    rw [herr] at hE
    split at hE
    · next h =>
      cases hE
      unfold Gram.index
      rw [num_nonterminal hv hh _ h, hmts, hnt, if_neg (by omega)]
      omega
    · cases hE
  · exact hh.yaccPrec

/-- C73, start symbol.  If the start symbol declared is no symbol of the grammar, this is reported, and the first rule is used. -/
theorem C73_start (o : Opts) (items : List Verif.Spec.GFile.Item) (s : RState) (hv : Valid o items) (hh : Holds o items s) (x l : Word)
    (hx : argOf o items ("start_symbol", false) = some x) (hn : x ∉ names o items) (hd : x ≠ text "{default}") (hl : items.findSome? Item.lhsOf = some l) :
    s.startName = some (l, true) := by
  have ha : s.args .startSymbol = some x := (hh.args .startSymbol).trans hx
  rw [← head_lhs o (isClass items), ← hh.rules, Option.map_eq_some_iff] at hl
  obtain ⟨r, hr, rfl⟩ := hl
  unfold RState.startName
  rw [hr, Option.map_some, ha]
  have : s.table.any (fun y => y.name == x) = false := by
    rw [table_eq hv hh, List.any_eq_false]
    intro y hy
    rcases List.mem_append.mp hy with hy | hy
    · obtain ⟨x', hx', rfl⟩ := List.mem_map.mp hy
      simp only [symOf, beq_iff_eq]
      rintro rfl
      exact hn hx'
    · rw [List.mem_singleton] at hy
      subst hy
      simp only [newSym, beq_iff_eq]
      intro h
      exact hd (h.symm.trans (by decide))
  simp only [this]
  rfl

/-- C73 from the text of the grammar file to the generated parser.  Let the text consist of the words of a valid file, whose start symbol `S` is a
nonterminal and on no right side.  Then lemon reads it without error; and if there are no conflicts, the parser that it generates, given
the numbers of some tokens and the end of input, accepts without reporting an error, if and only if the tokens are a sentence of the
grammar in the file.  (There are no conflicts in particular if no precedences are declared and lemon reports none.)

Missing: see C39 and C40 for the conditions on the grammar; with more than 128 symbols on a right side, compressed tables and a state without a row, fallbacks, or a wildcard it
does not hold (`C43_violated`, `C37_violated`, `C40_violated`). -/
theorem C73_parser_partial (o : Opts) (z : List Nat) (ws : List (Nat × Word)) (items : List Verif.Spec.GFile.Item) (S : Word)
    (hz : HasWords z ws) (hf : IsFile items ws) (hv : Valid o items) (hS : Sound o items S) (hsize : fileSize items < 2 ^ 30)
    (herr : ∀ l a rhs line, .rule l a rhs line ∈ items → l ≠ text "error" ∧ rhs.length ≤ 128)
    (hwild : wildcards items = []) (hfb : ∀ X, fallbackOf items X = none) :
    ∃ s g, parseText (ropts o) o.yacc z = some s ∧ errorcnt s = 0 ∧ s.1.gram = some g ∧
      ∀ compress m F A cs T, Generated g s.1.fb compress m F A cs T → (compress = true → T.shiftOfst.length = T.nx) →
        (NoConflicts g m F ∨ (precs items = [] ∧ A.count.err = 0)) →
        ∀ c : PConf, c.depth = none → c.track = false → ∀ w : List Word, (∀ X ∈ w, X ∈ tokens o items) →
          (Verif.Spec.GFile.Sentence items S w ↔ ∃ fuel q evs, parseTokens T c fuel (w.map (tokenNumber o items) ++ [0]) .init = some (q, evs) ∧
            .accept ∈ evs ∧ (∀ t, .syntaxError t ∉ evs) ∧ .overflow ∉ evs) := by
  obtain ⟨s, h1, h2, h3, hh⟩ := C72_says o z ws items hz hf hv
  obtain ⟨g, hg, hs⟩ := gram_start hv hh hS
  have u := usable hv hh hS hg hs hsize
  refine ⟨s, g, h1, h2, hg, ?_⟩
  intro compress m F A cs T hgen hrow hn c hd ht w hw
  have hfb' : s.1.fb = fun _ => none := by
    funext t
    rcases Option.eq_none_or_eq_some (s.1.fb t) with h | ⟨t', h⟩
    · exact h
    · obtain ⟨X, Y, h, _⟩ := (fb_iff hv hh _ _).mp h
      rw [hfb X] at h
      cases h
  rw [hfb'] at hgen
  have hn' : NoConflicts g m F := by
    rcases hn with h | ⟨hp, hc⟩
    · exact h
    · refine noConflicts_of_count u hgen.toPrepared ?_ hc
      have hpn : ∀ x, precOf o items x = none := by
        intro x
        unfold precOf
        rw [hp]
        split <;> rfl
      obtain ⟨S', _, rfl⟩ := Option.map_eq_some_iff.mp hg
      intro X
      show (if X < s.1.nterminal then _ else _) < (0 : Int)
      split
      · next hX =>
        rcases symbols_token hv hh X hX with ⟨_, h⟩ | ⟨Y, _, _, h⟩
        · rw [h]; simp [symOf, hpn]
        · rw [h]; simp [symOf, hpn]
      · omega
  have hrules := mem_gram_rules hh hg
  have key := C40_language_partial u (by
      intro r hr he
      obtain ⟨l, a, rhs, line, hi, h, _⟩ := (hrules r.lhs r.rhs).mp ⟨r, hr, rfl, rfl⟩
      rw [gram_errsym hv hh hg hS.error] at he
      split at he
      · next hm =>
        rw [Option.some.injEq, h] at he
        exact (herr _ _ _ _ hi).1 (nonterminal_inj hv hh hm (lhs_nonterminal hv hS.lhs hi) he).symm
      · cases he) (by
      intro r hr
      obtain ⟨l, a, rhs, line, hi, _, h⟩ := (hrules r.lhs r.rhs).mp ⟨r, hr, rfl, rfl⟩
      rw [h, List.length_map]
      exact (herr _ _ _ _ hi).2) hgen (by rw [gram_wildcard hv hh hg, hwild]; rfl) hrow hn' c hd ht (w.map (tokenNumber o items)) (by
      intro t ht
      obtain ⟨X, hX, rfl⟩ := List.mem_map.mp ht
      have := tokenNumber_bounds X (hw X hX)
      rw [gram_nterm hg, nterminal_eq hv hh]
      omega)
  rw [← key, sentence_iff hv hh hS hg hs]
  constructor
  · intro h; exact ⟨w, rfl, h⟩
  · rintro ⟨w', he, h⟩
    rw [map_number_inj hw he]
    exact h

/-- C73 for all files, with conflicts, fallbacks and wildcards: what the parser accepts without reporting an error is a sentence of the grammar in
the file, if some of the tokens are taken for their fallbacks or the wildcard.

Missing: right sides of 256 and more symbols (`C43_violated`). -/
theorem C73_accepted_partial (o : Opts) (z : List Nat) (ws : List (Nat × Word)) (items : List Verif.Spec.GFile.Item) (S : Word)
    (hz : HasWords z ws) (hf : IsFile items ws) (hv : Valid o items) (hS : Sound o items S) (hsize : fileSize items < 2 ^ 30)
    (hlen : ∀ l a rhs line, .rule l a rhs line ∈ items → rhs.length < 256) :
    ∃ s g, parseText (ropts o) o.yacc z = some s ∧ errorcnt s = 0 ∧ s.1.gram = some g ∧
      ∀ compress T, Generates g s.1.fb compress T → ∀ (c : PConf) (fuel : Nat) (w : List Word) (q : PState) (evs : List Ev), (∀ X ∈ w, X ∈ tokens o items) →
        parseTokens T c fuel (w.map (tokenNumber o items) ++ [0]) .init = some (q, evs) → .accept ∈ evs → (∀ t, .syntaxError t ∉ evs) → .overflow ∉ evs →
        ∃ w', List.Forall₂ (TakenFor items) w w' ∧ Verif.Spec.GFile.Sentence items S w' := by
  obtain ⟨s, h1, h2, h3, hh⟩ := C72_says o z ws items hz hf hv
  obtain ⟨g, hg, hs⟩ := gram_start hv hh hS
  have u := usable hv hh hS hg hs hsize
  refine ⟨s, g, h1, h2, hg, ?_⟩
  intro compress T hgen c fuel w q evs hw hp ha he ho
  have hrules := mem_gram_rules hh hg
  obtain ⟨v, k1, k2⟩ := C39_sentence_partial u (fallbackOK hv hh hg) (by
      intro r hr
      obtain ⟨l, a, rhs, line, hi, _, h⟩ := (hrules r.lhs r.rhs).mp ⟨r, hr, rfl, rfl⟩
      rw [h, List.length_map]
      exact hlen _ _ _ _ hi) hgen c fuel (w.map (tokenNumber o items)) (by
      intro t ht
      obtain ⟨X, hX, rfl⟩ := List.mem_map.mp ht
      have := tokenNumber_bounds X (hw X hX)
      rw [gram_nterm hg, nterminal_eq hv hh]
      omega) q evs hp ha he ho
  obtain ⟨w', rfl, k3⟩ := (sentence_iff hv hh hS hg hs v).mp k2
  refine ⟨w', ?_, k3⟩
  have hw' := sentence_tokens hv hh hS hg k3
  clear k3 k2 hp
  rw [List.forall₂_map_left_iff, List.forall₂_map_right_iff] at k1
  induction k1 with
  | nil => exact .nil
  | @cons X Y l l' h _ ih =>
    refine .cons ?_ (ih (fun X hX => hw X (by simp [hX])) fun X hX => hw' X (by simp [hX]))
    obtain ⟨Z, hZ, h1, h2⟩ := takenFor_of hv hh hg h X (hw X (by simp)) rfl
    rw [tokenNumber_inj (hw' Y (by simp)) h1]
    exact h2

/-! ### examples -/

/-- a file, item by item -/
theorem valid_snoc (o : Opts) (items : List Verif.Spec.GFile.Item) (it : Verif.Spec.GFile.Item) (h : Valid o items) (hf : it.Form) (ha : it.Allowed o items) :
    Valid o (items ++ [it]) := by
  intro pre i post he
  rcases List.eq_nil_or_concat post with rfl | ⟨post', x, rfl⟩
  · obtain ⟨rfl, h2⟩ := List.append_inj' he rfl
    cases h2
    exact ⟨hf, ha⟩
  · rw [List.concat_eq_append, ← List.cons_append, ← List.append_assoc] at he
    obtain ⟨h1, _⟩ := List.append_inj' he rfl
    exact h pre i post' h1

theorem isFile_of (items : List Verif.Spec.GFile.Item) (ws : List (Nat × Word))
    (h : (items.flatMap Item.words).length = ws.length ∧ ∀ p ∈ (items.flatMap Item.words).zip ws, p.2.2 = p.1.2 ∧ (p.1.1 = none ∨ p.1.1 = some p.2.1)) : IsFile items ws := by
  unfold IsFile
  rw [List.forall₂_iff_zip]
  refine ⟨h.1, ?_⟩
  intro a b hab
  have := h.2 _ hab
  refine ⟨this.1, ?_⟩
  intro l hl
  rcases this.2 with h | h
  · simp only at h; rw [h] at hl; cases hl
  · simp only at h; rw [h] at hl; cases hl; rfl

def c73Text : List Nat := text "%token_class op PLUS|MINUS.\ns ::= e.\ne ::= e op t.\ne ::= t.\nt ::= ID|NUM. { }\n"

def c73Items : List Verif.Spec.GFile.Item := [.tokenClass (text "op") [(none, text "PLUS"), (some 124, text "MINUS")], .rule (text "s") none [⟨text "e", []⟩] 2,
  .rule (text "e") none [⟨text "e", []⟩, ⟨text "op", []⟩, ⟨text "t", []⟩] 3, .rule (text "e") none [⟨text "t", []⟩] 4,
  .rule (text "t") none [⟨text "ID", [.alt 124 (text "NUM")]⟩] 5, .code (text " ") 5]

def c73Words : List (Nat × Word) := [(1, text "%"), (1, text "token_class"), (1, text "op"), (1, text "PLUS"), (1, text "|MINUS"), (1, text "."),
  (2, text "s"), (2, text "::="), (2, text "e"), (2, text "."), (3, text "e"), (3, text "::="), (3, text "e"), (3, text "op"), (3, text "t"), (3, text "."),
  (4, text "e"), (4, text "::="), (4, text "t"), (4, text "."), (5, text "t"), (5, text "::="), (5, text "ID"), (5, text "|NUM"), (5, text "."), (5, text "{ ")]

theorem upper_text (c : Nat) (t : Word) (h1 : 65 ≤ c) (h2 : c ≤ 90) : Upper (c :: t) := ⟨c, t, rfl, h1, h2⟩
theorem lower_text (c : Nat) (t : Word) (h1 : 97 ≤ c) (h2 : c ≤ 122) : Lower (c :: t) := ⟨c, t, rfl, h1, h2⟩

theorem c73_words : HasWords c73Text c73Words := (C71_words _ _).mp (by decide +kernel)

theorem c73_file : IsFile c73Items c73Words := isFile_of _ _ (by decide +kernel)

theorem c73_valid : Valid c72Opts c73Items := by
  have e1 : text "op" = [111, 112] := by decide
  have e2 : text "PLUS" = [80, 76, 85, 83] := by decide
  have e3 : text "MINUS" = [77, 73, 78, 85, 83] := by decide
  have e4 : text "s" = [115] := by decide
  have e5 : text "e" = [101] := by decide
  have e6 : text "t" = [116] := by decide
  have e7 : text "ID" = [73, 68] := by decide
  have e8 : text "NUM" = [78, 85, 77] := by decide
  refine valid_snoc _ [_, _, _, _, _] _ (valid_snoc _ [_, _, _, _] _ (valid_snoc _ [_, _, _] _ (valid_snoc _ [_, _] _ (valid_snoc _ [_] _ (valid_snoc _ [] _ ?_ ?_ ?_) ?_ ?_) ?_ ?_) ?_ ?_) ?_ ?_) ?_ ?_
  · intro pre it post h; simp at h
  · simp only [Item.Form, e1, e2, e3, List.mem_cons, List.not_mem_nil, or_false]
    refine ⟨lower_text _ _ (by omega) (by omega), ?_⟩
    rintro X (rfl | rfl)
    · exact ⟨upper_text _ _ (by omega) (by omega), by simp⟩
    · exact ⟨upper_text _ _ (by omega) (by omega), by simp⟩
  · show _ ∉ _
    decide +kernel
  · simp only [Item.Form, e4, e5, List.mem_cons, List.not_mem_nil, or_false]
    refine ⟨lower_text _ _ (by omega) (by omega), by simp, ?_⟩
    rintro e rfl
    exact ⟨.inr (lower_text _ _ (by omega) (by omega)), by simp⟩
  · exact ⟨by decide, by simp [Elem.alts]⟩
  · simp only [Item.Form, e1, e5, e6, List.mem_cons, List.not_mem_nil, or_false]
    refine ⟨lower_text _ _ (by omega) (by omega), by simp, ?_⟩
    rintro e (rfl | rfl | rfl) <;> exact ⟨.inr (lower_text _ _ (by omega) (by omega)), by simp⟩
  · exact ⟨by decide, by simp [Elem.alts]⟩
  · simp only [Item.Form, e5, e6, List.mem_cons, List.not_mem_nil, or_false]
    refine ⟨lower_text _ _ (by omega) (by omega), by simp, ?_⟩
    rintro e rfl
    exact ⟨.inr (lower_text _ _ (by omega) (by omega)), by simp⟩
  · exact ⟨by decide, by simp [Elem.alts]⟩
  · simp only [Item.Form, e6, e7, e8, List.mem_cons, List.not_mem_nil, or_false]
    refine ⟨lower_text _ _ (by omega) (by omega), by simp, ?_⟩
    rintro e rfl
    refine ⟨.inl (upper_text _ _ (by omega) (by omega)), ?_⟩
    simp only [List.mem_cons, List.not_mem_nil, or_false]
    rintro p rfl
    exact ⟨.inl rfl, upper_text _ _ (by omega) (by omega)⟩
  · refine ⟨by decide, ?_⟩
    intro e he _
    rw [List.mem_singleton] at he
    subst he
    exact .inl (by rw [e7]; exact upper_text _ _ (by omega) (by omega))
  · trivial
  · exact ⟨⟨.rule (text "e") none [⟨text "t", []⟩] 4, by simp, rfl⟩, by decide +kernel⟩

theorem c73_sound : Sound c72Opts c73Items (text "s") := by
  have hr : ∀ l a rhs line, .rule l a rhs line ∈ c73Items → (l, rhs) ∈ [(text "s", [⟨text "e", []⟩]),
      (text "e", [⟨text "e", []⟩, ⟨text "op", []⟩, ⟨text "t", []⟩]), (text "e", [⟨text "t", []⟩]), (text "t", [⟨text "ID", [.alt 124 (text "NUM")]⟩])] := by
    intro l a rhs line h
    simp only [c73Items, List.mem_cons, List.not_mem_nil, Item.rule.injEq, reduceCtorEq, or_false, false_or] at h
    rcases h with ⟨rfl, _, rfl, _⟩ | ⟨rfl, _, rfl, _⟩ | ⟨rfl, _, rfl, _⟩ | ⟨rfl, _, rfl, _⟩ <;> simp
  refine ⟨by decide +kernel, ⟨text "s", none, [⟨text "e", []⟩], 2, by simp [c73Items]⟩, by decide +kernel, ?_, ?_, by decide +kernel⟩
  · intro l a rhs line h
    exact (show ∀ p ∈ [(text "s", [(⟨text "e", []⟩ : Elem)]), (text "e", [⟨text "e", []⟩, ⟨text "op", []⟩, ⟨text "t", []⟩]), (text "e", [⟨text "t", []⟩]),
      (text "t", [⟨text "ID", [.alt 124 (text "NUM")]⟩])], ∀ e ∈ p.2, e.name ≠ text "s" by decide +kernel) _ (hr l a rhs line h)
  · intro l a rhs line h
    exact (show ∀ p ∈ [(text "s", [(⟨text "e", []⟩ : Elem)]), (text "e", [⟨text "e", []⟩, ⟨text "op", []⟩, ⟨text "t", []⟩]), (text "e", [⟨text "t", []⟩]),
      (text "t", [⟨text "ID", [.alt 124 (text "NUM")]⟩])], isClass c73Items p.1 = false by decide +kernel) _ (hr l a rhs line h)

/-- the numbers of the tokens -/
example : (tokens c72Opts c73Items).map (tokenNumber c72Opts c73Items) = [1, 2, 3, 4] ∧ tokenNumber c72Opts c73Items (text "NUM") = 4 := by decide +kernel

/-- A parser is made for the file of the example, and the hypotheses of `C73_parser_partial` hold. -/
example : ∃ s g m F A cs T, parseText (ropts c72Opts) c72Opts.yacc c73Text = some s ∧ s.1.gram = some g ∧ Generated g s.1.fb true m F A cs T ∧
    T.shiftOfst.length = T.nx ∧ precs c73Items = [] ∧ A.count.err = 0 ∧ wildcards c73Items = [] ∧ (∀ X, fallbackOf c73Items X = none) := by
  obtain ⟨s, h1, h2, h3, hh⟩ := C72_says c72Opts _ _ _ c73_words c73_file c73_valid
  obtain ⟨g, hg, u, hfb, _⟩ := C73_grammar c72Opts c73Items s.1 (text "s") c73_valid hh c73_sound (by decide +kernel)
  have hrow : ((parseText (ropts c72Opts) c72Opts.yacc c73Text).bind fun s => s.1.gram.bind fun g => (makeTables true g s.1.fb 20).map fun T =>
      decide (T.shiftOfst.length = T.nx)) = some true := by decide +kernel
  have hcon : ((parseText (ropts c72Opts) c72Opts.yacc c73Text).bind fun s => s.1.gram.bind fun g => conflicts g 20) = some 0 := by decide +kernel
  rw [h1, Option.bind_some, hg, Option.bind_some] at hrow hcon
  obtain ⟨T, k1, k2⟩ := Option.map_eq_some_iff.mp hrow
  obtain ⟨m, F, A, cs, k3⟩ := generates_of u k1
  exact ⟨s, g, m, F, A, cs, T, h1, hg, k3, by simpa using k2, by decide, count_of u k3.toPrepared hcon, by decide, fun X => rfl⟩

/-- `ID MINUS NUM` is a sentence -/
example : Verif.Spec.GFile.Sentence c73Items (text "s") [text "ID", text "MINUS", text "NUM"] := by
  have hu : Upper (text "ID") := by decide
  refine .rule (v := [text "ID", text "MINUS", text "NUM"]) (w := []) (a := none) (line := 2) (rhs := [⟨text "e", []⟩]) (by simp [c73Items]) ?_ .nil
  refine .rule (v := [text "ID", text "MINUS", text "NUM"]) (w := []) (a := none) (line := 3) (rhs := [⟨text "e", []⟩, ⟨text "op", []⟩, ⟨text "t", []⟩]) (by simp [c73Items]) ?_ .nil
  refine .rule (v := [text "ID"]) (w := [text "MINUS", text "NUM"]) (a := none) (line := 4) (rhs := [⟨text "t", []⟩]) (by simp [c73Items]) ?_ ?_
  · refine .rule (v := [text "ID"]) (w := []) (a := none) (line := 5) (rhs := [⟨text "ID", [.alt 124 (text "NUM")]⟩]) (by simp [c73Items]) ?_ .nil
    exact .token hu (by simp) .nil
  · refine .cls (by decide +kernel) (by decide +kernel) ?_
    refine .rule (v := [text "NUM"]) (w := []) (a := none) (line := 5) (rhs := [⟨text "ID", [.alt 124 (text "NUM")]⟩]) (by simp [c73Items]) ?_ .nil
    exact .token hu (by simp [Elem.alts]) .nil

/-! ### what is wrong -/

/-- C73 is violated: a token class may be the left side of a rule.  No error is reported, and the grammar has a rule whose left side is not a
nonterminal.  (In `FindFirstSets` the field `firstset` of such a symbol is NULL, and `SetAdd` writes through it, lemon.c:932.) -/
theorem C73_class_violated : ((parseText (ropts c72Opts) false (text "%token_class id A|B. s ::= id. id ::= C.")).map fun s =>
    (errorcnt s, s.1.gram.map fun g => g.rules.map fun r => decide (g.nlow ≤ r.lhs))) = some (0, some [true, false]) := by decide +kernel

/-- C73 is violated: the start symbol declared may be a token, without an error being reported here. -/
theorem C73_start_violated : ((parseText (ropts c72Opts) false (text "%start_symbol A s ::= A.")).map fun s =>
    (errorcnt s, s.1.startName, s.1.gram.map fun g => decide (g.start < g.nterm))) = some (0, some (text "A", false), some true) := by decide +kernel

/-- C73 is violated: the error symbol may be a token class; it is then none of the symbols for which there are tables. -/
theorem C73_error_violated : ((parseText (ropts c72Opts) false (text "%token_class error A|B. s ::= error.")).map fun s =>
    (errorcnt s, decide (s.1.nsymbol < s.1.index (text "error")))) = some (0, true) := by decide +kernel

end Verif.Lemon
