import Verif.Proofs.LemonAgain
/-
C119: option `-g` of lemon prints a grammar file that says the same without actions (violated for the stack size, the start symbol and empty token classes).
-/
set_option autoImplicit false
namespace Verif.Lemon
open Verif.Spec.GFile Verif.Spec.Words Verif.Spec.Again
open Verif.Spec.Sql hiding letter
open Verif.Byacc.ToLemon (Wc Wd NB wc_nil nb_append wc_blank wc_char wc_comment wd_name)

variable {o : Opts} {items : List Verif.Spec.GFile.Item} {s : RState}

theorem reprint_words {z : List Nat} {ws : List (Nat × Word)} {S : Word} (hz : HasWords z ws) (hf : IsFile items ws) (hv : Valid o items) (hh : Holds o items s)
    (hp : s.preccounter = (precs items).length) (hS : items.findSome? Item.lhsOf = some S)
    (hc : ∀ p ∈ parts items, ∀ e ∈ rhsOf p.1, choices items e ≠ []) (hk : argOf o items ("stack_size", false) = none) {file : List Nat} (hfile : 10 ∉ file) :
    ∃ t, s.reprint file = some t ∧ Wc t (fileWords (again o items S)) := by
  have hm : ∀ it ∈ items, ∀ x ∈ mentions o it, NameOK x := fun it hi x hx => ⟨mentions_letter o it (valid_form hv it hi) x hx, mention_chars hz hf hv hi hx⟩
  have hname : ∀ x ∈ names o items, x = text "$" ∨ NameOK x := by
    intro x hx
    rcases (mem_names _ _ _).1 hx with rfl | ⟨it, hi, hx⟩
    · exact .inl rfl
    · exact .inr (hm it hi x hx)
  have htok : ∀ x ∈ tokens o items, NameOK x := by
    intro x hx
    obtain ⟨h1, h2⟩ := (mem_tokens x).1 hx
    refine (hname x h1).resolve_left ?_
    rintro rfl
    exact absurd h2 (by decide)
  have hall : ∀ x ∈ tokens o items ++ nonterminals o items, NameOK x := by
    intro x hx
    rcases List.mem_append.1 hx with h | h
    · exact htok x h
    · have := (mem_nonterminals x).1 h
      exact (hname x this.1).resolve_left this.2.2.1
  have hlow : ∀ y ∈ s.symbols.take s.nsymbol, 10 ∉ y.name := by
    have h1 : s.symbols.take s.nsymbol = (text "$" :: (tokens o items ++ nonterminals o items)).map (symOf o items) := by
      have := congrArg (List.map Prod.fst) (low_zip hv hh)
      rw [List.zipIdx_map_fst, List.map_map] at this
      exact this
    intro y hy h10
    rw [h1] at hy
    obtain ⟨x, hx, rfl⟩ := List.mem_map.1 hy
    rcases List.mem_cons.1 hx with rfl | hx
    · exact absurd h10 (show 10 ∉ text "$" by decide)
    · exact absurd ((hall x hx).2 10 h10) (by decide)
  obtain ⟨u, hu, hwu⟩ := wc_rules hv hh hall hm (parts items) none fun p hp => ⟨hp, hc p hp⟩
  have hhead : s.rules.head?.map RRule.lhs = some S := by
    rw [hh.rules, List.head?_map, Option.map_map, ← hS, ← parts_head]
    cases hp : (parts items).head? with
    | none => rfl
    | some p =>
      have := parts_isRule _ _ (List.mem_of_head? hp)
      obtain ⟨it, rest⟩ := p
      cases it <;> simp [Item.isRule] at this
      rfl
  obtain ⟨r, hr, hrS⟩ := Option.map_eq_some_iff.1 hhead
  have hSok : NameOK S := by
    obtain ⟨it, hi, hx⟩ := List.exists_of_findSome?_eq_some hS
    refine hm it hi S ?_
    cases it <;> simp [Item.lhsOf] at hx
    simp [mentions, hx]
  have h1 := wc_numbers (s := s) hfile hlow
  have h2 := wv_decls hv hh htok
  have h3 := wv_fallbacks (o := o) (items := items) (fun x _ hx => by
    obtain ⟨F, hF⟩ := Option.ne_none_iff_exists'.1 hx
    rw [hF]
    exact htok F (fallback_tokens hv hF).2) (tokens o items) fun x hx => ⟨htok x hx, ((mem_tokens x).1 hx).1⟩
  have h4 := wv_flatMap s.reprintPrec (fun j => fileWords (level o items j).toList) (List.range ((precs items).length + 1)) fun j _ => wv_level hv hh htok j
  have h5 : Wv (match s.wildcard with | some x => cstr "\n%wildcard " ++ x ++ cstr " .\n" | none => []) (fileWords ((wildcards items).head?.map fun X => Item.wildcard [X]).toList) := by
    rw [hh.wildcard]
    cases hw : (wildcards items).head? with
    | none => exact wv_nil
    | some W =>
      have := wv_nl.append ((wv_decl (x := text "wildcard") (by decide)).append ((wv_name (htok W (wildcards_token hv W (List.mem_of_head? hw)))).append (wv_sp.append (wv_dot.append wv_nl))))
      convert this using 1
      · simp [show cstr "\n%wildcard " = [10] ++ (37 :: text "wildcard" ++ [32]) by decide, show cstr " .\n" = [32, 46, 10] by decide]
      · simp [fileWords, Item.words, any, show text "%" = [37] by decide, show text "." = [46] by decide]
  have h6 : Wv (cstr "\n%start_symbol " ++ S ++ [10]) (fileWords [.arg "start_symbol" S 0]) := by
    have := wv_nl.append ((wv_decl (x := text "start_symbol") (by decide)).append ((wv_name hSok).append wv_nl))
    convert this using 1
    · simp [show cstr "\n%start_symbol " = [10] ++ (37 :: text "start_symbol" ++ [32]) by decide]
    · simp [fileWords, Item.words, any, show text "%" = [37] by decide]
  refine ⟨_, by rw [RState.reprint, hr, Option.bind_some, hh.rules, hu, Option.map_some], ?_⟩
  rw [hh.args, show Kw.stackSize.text = ("stack_size", false) from rfl, hk, hrS, hp, terminals_eq hv hh]
  have h7 := (h1.append (h2.append (h3.append (h4.append (h5.append h6)))).nl).append hwu
  convert h7 using 1
  · simp [show cstr "\n\n" = [10, 10] by decide]
    rfl
  · simp only [again, fileWords_append, fileWords_filterMap, List.append_assoc, List.nil_append]

/-- C119.  If a text is a valid file for lemon, then `-g` prints a text, and the words of this text are those of the file with the same tokens in the same order, the same fallbacks, precedences and wildcard, the first left side as start
symbol, and the same rules with their marks, without aliases and actions and with classes written out.  (Full statement: also for files with a stack size or an empty class, and with the declared start symbol.  See the violations.) -/
theorem C119_words_partial (o : Opts) (z : List Nat) (ws : List (Nat × Word)) (items : List Verif.Spec.GFile.Item) (S : Word) (hz : HasWords z ws) (hf : IsFile items ws) (hv : Valid o items)
    (hS : items.findSome? Item.lhsOf = some S) (hc : ∀ p ∈ parts items, ∀ e ∈ rhsOf p.1, choices items e ≠ []) (hk : argOf o items ("stack_size", false) = none) (hfile : 10 ∉ o.file) :
    ∃ s t ws', parseText (ropts o) o.yacc z = some s ∧ errorcnt s = 0 ∧ s.1.reprint o.file = some t ∧ HasWords t ws' ∧ ws'.map Prod.snd = fileWords (again o items S) := by
  obtain ⟨s, h1, h2, h3, h4⟩ := says_count o z ws items hz hf hv
  obtain ⟨t, h5, h6⟩ := reprint_words hz hf hv h3 h4 hS hc hk hfile
  obtain ⟨ws', h7, h8⟩ := h6 1 [] [] (.nil _ _)
  exact ⟨s, t, ws', h1, h2, h5, by simpa [HasWords] using h8, h7⟩

theorem parts_of_mem {it : Verif.Spec.GFile.Item} (hr : it.isRule = true) : ∀ {items : List Verif.Spec.GFile.Item}, it ∈ items → ∃ rest, (it, rest) ∈ parts items
  | [], h => by cases h
  | a :: l, h => by
    rw [parts]
    rcases List.mem_cons.1 h with rfl | h
    · rw [if_pos hr]
      exact ⟨_, List.mem_cons_self⟩
    · obtain ⟨rest, h⟩ := parts_of_mem hr h
      split
      · exact ⟨rest, List.mem_cons_of_mem _ h⟩
      · exact ⟨rest, h⟩

theorem again_rule {S l : Word} {a : Option Word} {rhs : List Elem} {line : Nat} :
    .rule l a rhs line ∈ again o items S ↔ ∃ p ∈ parts items, l = lhsOf p.1 ∧ a = none ∧ rhs = (rhsOf p.1).map (writtenOut items) ∧ line = 0 := by
  unfold again
  simp only [List.mem_append, List.mem_flatMap, List.mem_filterMap, List.mem_map, List.mem_singleton]
  constructor
  · rintro ((((( h | h) | h) | h) | h) | h)
    · split at h <;> simp at h
    · simp at h
    · obtain ⟨j, -, h⟩ := h
      unfold level at h
      split at h
      · cases h
      · simp at h
    · simp at h
    · simp at h
    · obtain ⟨p, hp, h⟩ := h
      rw [bare, List.mem_cons] at h
      rcases h with h | h
      · injection h with h1 h2 h3 h4
        exact ⟨p, hp, h1, h2, h3, h4⟩
      · simp at h
  · rintro ⟨p, hp, rfl, rfl, rfl, rfl⟩
    exact .inr ⟨p, hp, List.mem_cons_self⟩

theorem again_class (S x : Word) : isClass (again o items S) x = false := by
  unfold isClass
  rw [List.any_eq_false]
  intro it hi
  cases it <;> simp
  next c Xs =>
  exfalso
  unfold again at hi
  simp only [List.mem_append, List.mem_flatMap, List.mem_filterMap, List.mem_map, List.mem_singleton] at hi
  rcases hi with (((( h | h) | h) | h) | h) | h
  · split at h <;> simp at h
  · simp at h
  · obtain ⟨j, -, h⟩ := h
    unfold level at h
    split at h
    · cases h
    · simp at h
  · simp at h
  · simp at h
  · obtain ⟨p, hp, h⟩ := h
    rw [bare, List.mem_cons] at h
    rcases h with h | h
    · cases h
    · simp at h

theorem writtenOut_alts {e : Elem} {x : Word} {l : List Word} (h : choices items e = x :: l) : (writtenOut items e).name = x ∧ (writtenOut items e).alts = l := by
  refine ⟨by simp [writtenOut, h], ?_⟩
  simp only [writtenOut, h, Elem.alts, List.tail_cons]
  clear h
  induction l with
  | nil => rfl
  | cons y l ih => simpa using ih

theorem stands_again (hv : Valid o items) (S : Word) (hc : ∀ p ∈ parts items, ∀ e ∈ rhsOf p.1, choices items e ≠ []) (hl : ∀ p ∈ parts items, isClass items (lhsOf p.1) = false)
    {es : List Elem} {w : List Word} (h : Stands items es w) : (∀ e ∈ es, choices items e ≠ []) → Stands (again o items S) (es.map (writtenOut items)) w := by
  induction h with
  | nil => exact fun _ => .nil
  | token he hX _ ih =>
    next e es X w _ =>
    intro hes
    have hch : choices items e = e.name :: e.alts := by rw [choices, if_neg (by simp [upper_not_class hv he])]
    obtain ⟨h1, h2⟩ := writtenOut_alts hch
    exact .token (by rwa [h1]) (by rwa [h1, h2]) (ih fun e he => hes e (by simp [he]))
  | cls he hX _ ih =>
    next e es X w _ =>
    intro hes
    have hch : choices items e = membersOf items e.name := by rw [choices, if_pos he]
    cases hm : membersOf items e.name with
    | nil => rw [hm] at hX; cases hX
    | cons x l =>
      obtain ⟨h1, h2⟩ := writtenOut_alts (hch.trans hm)
      have hu : Upper x := ((mem_tokens (o := o) x).1 (members_tokens hv e.name x (by simp [hm]))).2
      exact .token (by rwa [h1]) (by rwa [h1, h2, ← hm]) (ih fun e he => hes e (by simp [he]))
  | rule hr _ _ ih1 ih2 =>
    next e es rhs a line v w _ _ =>
    intro hes
    obtain ⟨rest, hp⟩ := parts_of_mem (by rfl) hr
    have hn := hl _ hp
    have hch : choices items e = e.name :: e.alts := by rw [choices, if_neg (by simpa [lhsOf] using hn)]
    obtain ⟨h1, h2⟩ := writtenOut_alts hch
    refine .rule (a := none) (line := 0) (rhs := rhs.map (writtenOut items)) ?_ (ih1 (hc _ hp)) (ih2 fun e he => hes e (by simp [he]))
    rw [h1]
    exact again_rule.2 ⟨_, hp, rfl, rfl, rfl, rfl⟩

theorem again_stands (hv : Valid o items) (S : Word) (hc : ∀ p ∈ parts items, ∀ e ∈ rhsOf p.1, choices items e ≠ [])
    {es' : List Elem} {w : List Word} (h : Stands (again o items S) es' w) : ∀ es, es' = es.map (writtenOut items) → (∀ e ∈ es, choices items e ≠ []) → Stands items es w := by
  induction h with
  | nil =>
    intro es he _
    rw [List.map_eq_nil_iff.1 he.symm]
    exact .nil
  | token hu hX _ ih =>
    intro es he hes
    obtain ⟨e, es, rfl, rfl, rfl⟩ := List.map_eq_cons_iff.1 he.symm
    have ih := ih es rfl fun e he => hes e (by simp [he])
    cases hch : choices items e with
    | nil => exact absurd hch (hes e (by simp))
    | cons x l =>
      obtain ⟨h1, h2⟩ := writtenOut_alts hch
      rw [h1, h2, ← hch] at hX
      rw [h1] at hu
      unfold choices at hX hch
      by_cases hk : isClass items e.name = true
      · rw [if_pos hk] at hX
        exact .cls hk hX ih
      · rw [if_neg hk] at hX hch
        injection hch with h3 h4
        exact .token (by rwa [h3]) hX ih
  | cls he _ _ _ => simp [again_class] at he
  | rule hr _ _ ih1 ih2 =>
    intro es he hes
    obtain ⟨e, es, rfl, rfl, rfl⟩ := List.map_eq_cons_iff.1 he.symm
    have ih2 := ih2 es rfl fun e he => hes e (by simp [he])
    obtain ⟨p, hp, h1, -, h2, -⟩ := again_rule.1 hr
    have ih1 := ih1 (rhsOf p.1) h2 (hc p hp)
    have hrule := parts_isRule _ _ hp
    have hm := parts_mem hp
    obtain ⟨it, rest⟩ := p
    cases it <;> simp [Item.isRule] at hrule
    next l a rhs line =>
    have hlow : Lower l := (valid_form hv _ hm).1
    simp only [lhsOf, rhsOf] at h1 ih1 hm
    cases hch : choices items e with
    | nil => exact absurd hch (hes e (by simp))
    | cons x xs =>
      rw [(writtenOut_alts hch).1] at h1
      subst h1
      by_cases hk : isClass items e.name = true
      · rw [choices, if_pos hk] at hch
        exact absurd hlow (upper_not_lower ((mem_tokens (o := o) x).1 (members_tokens hv e.name x (by simp [hch]))).2)
      · rw [choices, if_neg hk] at hch
        injection hch with h3 h4
        exact .rule (by rw [h3]; exact hm) ih1 ih2

/-- C119, the language.  The file whose words are printed has the same sentences for each nonterminal.  (Full statement: without the hypotheses on classes: lemon accepts rules for the name of a token class.) -/
theorem C119_language_partial (o : Opts) (items : List Verif.Spec.GFile.Item) (S T : Word) (w : List Word) (hv : Valid o items) (hc : ∀ p ∈ parts items, ∀ e ∈ rhsOf p.1, choices items e ≠ [])
    (hl : ∀ p ∈ parts items, isClass items (lhsOf p.1) = false) (hT : isClass items T = false) : Sentence (again o items S) T w ↔ Sentence items T w := by
  have hch : choices items ⟨T, []⟩ = [T] := by simp [choices, hT, Elem.alts]
  have hw : [(⟨T, []⟩ : Elem)] = [(⟨T, []⟩ : Elem)].map (writtenOut items) := by simp [writtenOut, hch]
  have hne : ∀ e ∈ [(⟨T, []⟩ : Elem)], choices items e ≠ [] := by
    intro e he
    rw [List.mem_singleton.1 he, hch]
    simp
  constructor
  · intro h
    exact again_stands hv S hc h _ hw hne
  · intro h
    unfold Sentence
    rw [hw]
    exact stands_again hv S hc hl h hne

theorem runs_tokens (f : Word → Option Word) : ∀ (l : List Word), ∀ g ∈ fallbackRuns f l, (∀ X ∈ g.2, X ∈ l ∧ f X = some g.1) ∧ g.2 ≠ []
  | [], g, h => by cases h
  | X :: l, g, h => by
    have ih := runs_tokens f l
    rw [fallbackRuns] at h
    cases hX : f X with
    | none =>
      rw [hX] at h
      have := ih g (by simpa using h)
      exact ⟨fun Y hY => ⟨List.mem_cons_of_mem _ (this.1 Y hY).1, (this.1 Y hY).2⟩, this.2⟩
    | some F =>
      rw [hX] at h
      cases hr : fallbackRuns f l with
      | nil =>
        rw [hr] at h
        simp at h
        subst h
        simp [hX]
      | cons g' gs =>
        rw [hr] at h ih
        obtain ⟨F', Ys⟩ := g'
        have hold : ∀ g ∈ (F', Ys) :: gs, (∀ Y ∈ g.2, Y ∈ X :: l ∧ f Y = some g.1) ∧ g.2 ≠ [] := fun g hg =>
          ⟨fun Y hY => ⟨List.mem_cons_of_mem _ ((ih g hg).1 Y hY).1, ((ih g hg).1 Y hY).2⟩, (ih g hg).2⟩
        simp only at h
        split at h
        · next e =>
          subst e
          rcases List.mem_cons.1 h with rfl | h
          · refine ⟨?_, by simp⟩
            intro Y hY
            rcases List.mem_cons.1 hY with rfl | hY
            · exact ⟨by simp, hX⟩
            · exact (hold _ List.mem_cons_self).1 Y hY
          · exact hold g (List.mem_cons_of_mem _ h)
        · rcases List.mem_cons.1 h with rfl | h
          · simp [hX]
          · exact hold g h

/-- the items without the declaration of the tokens -/
theorem again_mentions (hv : Valid o items) (hh : Holds o items s) (S : Word) (hc : ∀ p ∈ parts items, ∀ e ∈ rhsOf p.1, choices items e ≠ []) :
    ∀ it ∈ again o items S, ∀ x ∈ mentions o it, Upper x → x ∈ tokens o items := by
  intro it hi x hx hu
  unfold again at hi
  simp only [List.mem_append, List.mem_flatMap, List.mem_filterMap, List.mem_map, List.mem_singleton] at hi
  rcases hi with (((( h | h) | h) | h) | h) | h
  · split at h
    · cases h
    · rw [List.mem_singleton] at h
      subst h
      exact hx
  · obtain ⟨g, hg, rfl⟩ := h
    obtain ⟨h1, h2⟩ := runs_tokens _ _ g hg
    rcases List.mem_cons.1 hx with rfl | hx
    · obtain ⟨Y, hY⟩ := List.exists_mem_of_ne_nil _ h2
      exact (fallback_tokens hv (h1 Y hY).2).2
    · exact (h1 x hx).1
  · obtain ⟨j, -, h⟩ := h
    unfold level at h
    split at h
    · cases h
    · next X l hf =>
      obtain ⟨p, -, rfl⟩ := Option.map_eq_some_iff.1 h
      simp only [mentions] at hx
      split at hx
      · cases hx
      · rw [← hf] at hx
        exact (List.mem_filter.1 hx).1
  · obtain ⟨W, hW, rfl⟩ := Option.map_eq_some_iff.1 (Option.mem_toList.1 h)
    rw [mentions, List.mem_singleton] at hx
    subst hx
    exact wildcards_token hv _ (List.mem_of_head? hW)
  · subst h
    cases hx
  · obtain ⟨p, hp, h⟩ := h
    have hr := parts_isRule _ _ hp
    have hsub := parts_sub _ _ hp
    have hmem := parts_mem hp
    have hcp := hc p hp
    obtain ⟨it', rest⟩ := p
    cases it' <;> simp [Item.isRule] at hr
    next l a rhs line =>
    rw [bare, List.mem_cons] at h
    rcases h with rfl | h
    · simp only [mentions, lhsOf, rhsOf, List.mem_cons, List.mem_flatMap, List.mem_map] at hx hcp
      rcases hx with rfl | ⟨e', ⟨e, he, rfl⟩, hx⟩
      · exact absurd (valid_form hv _ hmem).1 (upper_not_lower hu)
      · have h4 := (sqlSyms_choices hv hh hmem he).2
        cases hch : choices items e with
        | nil => exact absurd hch (hcp e he)
        | cons y ys =>
          obtain ⟨h1, h2⟩ := writtenOut_alts hch
          rw [h1, h2, ← List.mem_cons, ← hch] at hx
          rcases h4 x hx with h | h
          · exact h
          · exact absurd hu ((mem_nonterminals x).1 h).2.1
    · obtain ⟨X, hX, rfl⟩ := Option.map_eq_some_iff.1 (Option.mem_toList.1 h)
      split at hX
      · cases hX
      · next hi =>
        simp only [mentions, if_neg hi, List.mem_singleton] at hx
        subst hx
        obtain ⟨it, hit, hx⟩ := List.exists_of_findSome?_eq_some hX
        cases it <;> simp [Item.markOf] at hx
        subst hx
        refine (mem_tokens _).2 ⟨(mem_names _ _ _).2 (.inr ⟨_, hsub _ hit, ?_⟩), hu⟩
        simp [mentions, hi]

theorem eraseDups_of_nodup : ∀ {l : List Word}, l.Nodup → l.eraseDups = l
  | [], _ => rfl
  | a :: l, h => by
    obtain ⟨h1, h2⟩ := List.nodup_cons.1 h
    rw [List.eraseDups_cons, List.filter_eq_self.2, eraseDups_of_nodup h2]
    intro b hb
    simp
    rintro rfl
    exact h1 hb

theorem again_tokens (hv : Valid o items) (hh : Holds o items s) (S : Word) (hc : ∀ p ∈ parts items, ∀ e ∈ rhsOf p.1, choices items e ≠ []) :
    tokens o (again o items S) = tokens o items := by
  have hm := again_mentions hv hh S hc
  have hnd : (tokens o items).Nodup := (nodup_names o items).filter _
  have hsplit : ∃ b, (again o items S).flatMap (mentions o) = tokens o items ++ b ∧ ∀ x ∈ b, Upper x → x ∈ tokens o items := by
    rcases Classical.em (tokens o items = []) with h | h
    · refine ⟨(again o items S).flatMap (mentions o), by rw [h]; rfl, ?_⟩
      intro x hx hu
      obtain ⟨it, hi, hx⟩ := List.mem_flatMap.1 hx
      exact hm it hi x hx hu
    · have e : ∃ l, again o items S = .token (tokens o items) :: l := by
        unfold again
        rw [if_neg h]
        simp only [List.append_assoc, List.singleton_append]
        exact ⟨_, rfl⟩
      obtain ⟨l, e⟩ := e
      refine ⟨l.flatMap (mentions o), by rw [e, List.flatMap_cons]; rfl, ?_⟩
      intro x hx hu
      obtain ⟨it, hi, hx⟩ := List.mem_flatMap.1 hx
      exact hm it (by rw [e]; exact List.mem_cons_of_mem _ hi) x hx hu
  obtain ⟨b, e, hb⟩ := hsplit
  have hdol : ¬ Upper (text "$") := by decide
  rw [show tokens o (again o items S) = (names o (again o items S)).filter fun x => decide (Upper x) from rfl, names, e, ← List.cons_append, List.eraseDups_append, List.filter_append]
  have h1 : (text "$" :: tokens o items).eraseDups = text "$" :: tokens o items := by
    refine eraseDups_of_nodup ?_
    refine List.nodup_cons.2 ⟨fun h => hdol ((mem_tokens _).1 h).2, hnd⟩
  rw [h1, List.filter_cons_of_neg (by simpa using hdol), List.filter_eq_self.2, List.filter_eq_nil_iff.2, List.append_nil]
  · intro x hx
    rw [List.mem_eraseDups, List.removeAll, List.mem_filter] at hx
    simp only [decide_eq_true_eq]
    intro hu
    have := hb x hx.1 hu
    simp [this] at hx
  · intro x hx
    simpa using ((mem_tokens x).1 hx).2

/-- C119, the numbers.  The file whose words are printed has the same tokens in the same order, so that they have the same numbers. -/
theorem C119_numbers_partial (o : Opts) (z : List Nat) (ws : List (Nat × Word)) (items : List Verif.Spec.GFile.Item) (S : Word) (hz : HasWords z ws) (hf : IsFile items ws) (hv : Valid o items)
    (hc : ∀ p ∈ parts items, ∀ e ∈ rhsOf p.1, choices items e ≠ []) : ∀ X, tokenNumber o (again o items S) X = tokenNumber o items X := by
  obtain ⟨s, -, -, hh, -⟩ := says_count o z ws items hz hf hv
  intro X
  rw [tokenNumber, again_tokens hv hh S hc, tokenNumber]

/-- C119 is violated for the stack size: the printed declaration ends with a full stop, and lemon does not accept it. -/
theorem C119_stack_violated : ∃ s t s', parseText (ropts c72Opts) false (text "%stack_size 50 s ::= A.") = some s ∧ errorcnt s = 0 ∧ s.1.reprint (text "a.y") = some t ∧
    parseText (ropts c72Opts) false t = some s' ∧ errorcnt s' = 1 := by
  have h : ((parseText (ropts c72Opts) false (text "%stack_size 50 s ::= A.")).bind fun s => if errorcnt s = 0 then (s.1.reprint (text "a.y")).bind fun t =>
      (parseText (ropts c72Opts) false t).map errorcnt else none) = some 1 := by decide +kernel
  obtain ⟨s, h1, h⟩ := Option.bind_eq_some_iff.1 h
  split at h
  · next h0 =>
    obtain ⟨t, h2, h⟩ := Option.bind_eq_some_iff.1 h
    obtain ⟨s', h3, h⟩ := Option.map_eq_some_iff.1 h
    exact ⟨s, t, s', h1, h0, h2, h3, h⟩
  · cases h

/-- C119 is violated for the start symbol: the file declares `t`, and the printed file, which is a valid one, declares `s`. -/
theorem C119_start_violated : ∃ s t s', parseText (ropts c72Opts) false (text "%start_symbol t s ::= A. t ::= s B.") = some s ∧ errorcnt s = 0 ∧ s.1.args .startSymbol = some (text "t") ∧
    s.1.reprint (text "a.y") = some t ∧ parseText (ropts c72Opts) false t = some s' ∧ errorcnt s' = 0 ∧ s'.1.args .startSymbol = some (text "s") := by
  have h : ((parseText (ropts c72Opts) false (text "%start_symbol t s ::= A. t ::= s B.")).bind fun s => if errorcnt s = 0 ∧ s.1.args .startSymbol = some (text "t") then (s.1.reprint (text "a.y")).bind fun t =>
      (parseText (ropts c72Opts) false t).map fun s' => (errorcnt s', s'.1.args .startSymbol) else none) = some (0, some (text "s")) := by decide +kernel
  obtain ⟨s, h1, h⟩ := Option.bind_eq_some_iff.1 h
  split at h
  · next h0 =>
    obtain ⟨t, h2, h⟩ := Option.bind_eq_some_iff.1 h
    obtain ⟨s', h3, h⟩ := Option.map_eq_some_iff.1 h
    simp only [Prod.mk.injEq] at h
    exact ⟨s, t, s', h1, h0.1, h0.2, h2, h3, h.1, h.2⟩
  · cases h

/-- C119 is violated for a token class without tokens: the file is accepted, and `-g` reads outside of the array of tokens. -/
theorem C119_empty_violated : ∃ s, parseText (ropts c72Opts) false (text "%token_class c. s ::= c.") = some s ∧ errorcnt s = 0 ∧ s.1.reprint (text "a.y") = none := by
  have h : ((parseText (ropts c72Opts) false (text "%token_class c. s ::= c.")).map fun s => (errorcnt s, s.1.reprint (text "a.y"))) = some (0, none) := by decide +kernel
  obtain ⟨s, h1, h2⟩ := Option.map_eq_some_iff.1 h
  simp only [Prod.mk.injEq] at h2
  exact ⟨s, h1, h2.1, h2.2⟩

/-! ### example -/

def c119Text : List Nat := text "%left PLUS. %fallback ID NUM. %wildcard ANY. %token_class op PLUS|MINUS.\ns ::= e.\ne ::= e op t. [PLUS]\ne ::= t.\nt(A) ::= ID|NUM. { }\n"

def c119Items : List Verif.Spec.GFile.Item := [.prec .LEFT [text "PLUS"], .fallback [text "ID", text "NUM"], .wildcard [text "ANY"],
  .tokenClass (text "op") [(none, text "PLUS"), (some 124, text "MINUS")], .rule (text "s") none [⟨text "e", []⟩] 2,
  .rule (text "e") none [⟨text "e", []⟩, ⟨text "op", []⟩, ⟨text "t", []⟩] 3, .mark (text "PLUS"), .rule (text "e") none [⟨text "t", []⟩] 4,
  .rule (text "t") (some (text "A")) [⟨text "ID", [.alt 124 (text "NUM")]⟩] 5, .code (text " ") 5]

/-- the hypotheses of `C119_words_partial`, `C119_language_partial` and `C119_numbers_partial` -/
example : fileCheck c119Text c119Items = true ∧ validCheck c72Opts [] c119Items = true ∧ c119Items.findSome? Item.lhsOf = some (text "s") ∧
    (∀ p ∈ parts c119Items, ∀ e ∈ rhsOf p.1, choices c119Items e ≠ []) ∧ argOf c72Opts c119Items ("stack_size", false) = none ∧ 10 ∉ c72Opts.file ∧
    (∀ p ∈ parts c119Items, isClass c119Items (lhsOf p.1) = false) ∧ isClass c119Items (text "s") = false := by decide +kernel

example : again c72Opts c119Items (text "s") = [.token (["PLUS", "ID", "NUM", "ANY", "MINUS"].map text), .fallback [text "ID", text "NUM"], .prec .LEFT [text "PLUS"], .wildcard [text "ANY"],
    .arg "start_symbol" (text "s") 0, .rule (text "s") none [⟨text "e", []⟩] 0,
    .rule (text "e") none [⟨text "e", []⟩, ⟨text "PLUS", [.alt 124 (text "MINUS")]⟩, ⟨text "t", []⟩] 0, .mark (text "PLUS"), .rule (text "e") none [⟨text "t", []⟩] 0,
    .rule (text "t") none [⟨text "ID", [.alt 124 (text "NUM")]⟩] 0] := by decide +kernel

end Verif.Lemon
