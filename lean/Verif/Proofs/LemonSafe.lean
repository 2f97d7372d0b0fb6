import Verif.Lemon.Main
import Verif.Spec.LemonTextRead
import Verif.Proofs.LemonUsable
/-
The names in a grammar file that lemon reads are safe to be printed in comments and strings.
-/
set_option autoImplicit false
namespace Verif.Lemon
open Verif.Spec.GFile Verif.Spec.Words Verif.Spec.LText

theorem safe_names_chars {x : Word} (h : ∀ c ∈ x, inName c) : Safe x := by
  intro c hc
  have := h c hc
  unfold inName letter digit at this
  omega

theorem letter_head {x : Word} (h : Letter x) : ∃ c t, x = c :: t ∧ letter c := by
  rcases h with ⟨c, t, e, h⟩ | ⟨c, t, e, h⟩
  · exact ⟨c, t, e, .inl h⟩
  · exact ⟨c, t, e, .inr h⟩

theorem word_safe {w x rest : List Nat} (h : IsWord w x rest) :
    (Letter x → ∀ c ∈ x, inName c) ∧ ∀ sep X, x = sep :: X → (sep = 124 ∨ sep = 47) → Letter X → ∀ c ∈ X, inName c := by
  constructor
  · intro hl
    obtain ⟨c, t, e, hc⟩ := letter_head hl
    unfold letter at hc
    cases h with
    | string => simp at e; omega
    | code => simp at e; omega
    | name hc' hb =>
      intro d hd
      rcases List.mem_cons.1 hd with rfl | hd
      · rcases hc' with h | h
        · exact .inl h
        · exact .inr (.inl h)
      · exact hb d hd
    | arrow => simp at e; omega
    | alternative hc' => simp at e; omega
    | char hc' =>
      simp at e
      obtain ⟨rfl, -⟩ := e
      exact absurd hc hc'.2.1
  · rintro sep X rfl hs hl
    obtain ⟨c, t, rfl, hc⟩ := letter_head hl
    cases h with
    | string => omega
    | code => omega
    | name hc' hb => unfold letter digit at hc'; omega
    | arrow => omega
    | alternative hc' hd hb =>
      intro d hd'
      rcases List.mem_cons.1 hd' with rfl | hd'
      · exact .inl hd
      · exact hb d hd'

theorem reads_safe {l : Nat} {z e : List Nat} {ws : List (Nat × Word)} (h : Reads l z ws e) : ∀ w ∈ ws,
    (Letter w.2 → ∀ c ∈ w.2, inName c) ∧ ∀ sep X, w.2 = sep :: X → (sep = 124 ∨ sep = 47) → Letter X → ∀ c ∈ X, inName c := by
  induction h with
  | nil => simp
  | skip hw h ih => exact ih
  | word hw h ih =>
    intro w hw'
    rcases List.mem_cons.1 hw' with rfl | hw'
    · exact word_safe hw
    · exact ih w hw'

theorem isFile_mem {items : List Verif.Spec.GFile.Item} {ws : List (Nat × Word)} (hf : IsFile items ws) {it : Verif.Spec.GFile.Item} (hi : it ∈ items) {x : Option Nat × Word} (hx : x ∈ it.words) :
    ∃ w ∈ ws, w.2 = x.2 := by
  have hm : x ∈ items.flatMap Verif.Spec.GFile.Item.words := List.mem_flatMap.2 ⟨it, hi, hx⟩
  unfold IsFile at hf
  generalize items.flatMap Verif.Spec.GFile.Item.words = l at hf hm
  clear hi hx
  induction hf with
  | nil => simp at hm
  | cons h _ ih =>
    rcases List.mem_cons.1 hm with rfl | hm
    · exact ⟨_, by simp, h.1⟩
    · obtain ⟨w, hw, e⟩ := ih hm
      exact ⟨w, by simp [hw], e⟩

variable {o : Opts} {z : List Nat} {ws : List (Nat × Word)} {items : List Verif.Spec.GFile.Item}

/-- the names have only the characters of names -/
theorem mention_chars (hz : HasWords z ws) (hf : IsFile items ws) (hv : Valid o items) {it : Verif.Spec.GFile.Item} (hi : it ∈ items) {x : Word} (hx : x ∈ mentions o it) : ∀ c ∈ x, inName c := by
  have hl := mentions_letter o it (valid_form hv it hi) x hx
  have h1 : ∀ l, (l, x) ∈ it.words → ∀ c ∈ x, inName c := by
    intro l hw
    obtain ⟨w, hm, e⟩ := isFile_mem hf hi hw
    have := (reads_safe hz w hm).1
    rw [e] at this
    exact this hl
  have h2 : ∀ l sep, (sep = 124 ∨ sep = 47) → (l, sep :: x) ∈ it.words → ∀ c ∈ x, inName c := by
    intro l sep hs hw
    obtain ⟨w, hm, e⟩ := isFile_mem hf hi hw
    exact (reads_safe hz w hm).2 sep x e hs hl
  have hform := valid_form hv it hi
  cases it with
  | rule l a rhs line =>
    simp only [mentions, List.mem_cons, List.mem_flatMap] at hx
    rcases hx with rfl | ⟨e, he, hx⟩
    · exact h1 none (by simp [Item.words, any])
    · rcases hx with rfl | hx
      · exact h1 none (by
          simp only [Item.words, List.mem_append, List.mem_flatMap]
          exact .inl (.inr ⟨e, he, by simp [Elem.words, any]⟩))
      · unfold Elem.alts at hx
        rw [List.mem_filterMap] at hx
        obtain ⟨p, hp, hx⟩ := hx
        cases p with
        | label a => simp at hx
        | alt sep X =>
          simp at hx
          subst hx
          have hs := (hform.2.2 e he).2 _ hp
          exact h2 none sep hs.1 (by
            simp only [Item.words, List.mem_append, List.mem_flatMap]
            refine .inl (.inr ⟨e, he, ?_⟩)
            simp only [Elem.words, List.mem_cons, List.mem_flatMap]
            exact .inr ⟨_, hp, by simp [Post.words, any]⟩)
  | mark X =>
    simp only [mentions] at hx
    split at hx <;> simp at hx
    subst hx
    exact h1 none (by simp [Item.words, any])
  | prec a Xs =>
    simp only [mentions] at hx
    split at hx
    · simp at hx
    · exact h1 none (by simp [Item.words, any, hx])
  | destructor X a line => simp [mentions] at hx; subst hx; exact h1 none (by simp [Item.words, any])
  | type X a line => simp [mentions] at hx; subst hx; exact h1 none (by simp [Item.words, any])
  | fallback Xs => exact h1 none (by simp only [mentions] at hx; simp [Item.words, any, hx])
  | token Xs => exact h1 none (by simp only [mentions] at hx; simp [Item.words, any, hx])
  | wildcard Xs => exact h1 none (by simp only [mentions] at hx; simp [Item.words, any, hx])
  | tokenClass c Xs =>
    simp only [mentions, List.mem_cons, List.mem_map] at hx
    rcases hx with rfl | ⟨⟨sep, X⟩, hp, rfl⟩
    · exact h1 none (by simp [Item.words, any])
    · have hs := (hform.2 _ hp).2
      have hw : (none, sep.toList ++ X) ∈ Item.words (.tokenClass c Xs) := by
        simp only [Item.words, List.mem_append, List.mem_map]
        exact .inl (.inr ⟨_, hp, rfl⟩)
      cases sep with
      | none => exact h1 none hw
      | some sep => exact h2 none sep (hs sep rfl) hw
  | code | arg | yaccPrec => simp [mentions] at hx

theorem mention_safe (hz : HasWords z ws) (hf : IsFile items ws) (hv : Valid o items) {it : Verif.Spec.GFile.Item} (hi : it ∈ items) {x : Word} (hx : x ∈ mentions o it) : Safe x :=
  safe_names_chars (mention_chars hz hf hv hi hx)

theorem name_safe (hz : HasWords z ws) (hf : IsFile items ws) (hv : Valid o items) {x : Word} (hx : x ∈ names o items) : Safe x := by
  rcases (mem_names _ _ _).1 hx with rfl | ⟨it, hi, hx⟩
  · unfold Safe; decide
  · exact mention_safe hz hf hv hi hx

theorem mem_intersperse' {x : Word} {l : List Word} (hx : x ∈ List.intersperse [124] l) : x = [124] ∨ x ∈ l := by
  induction l with
  | nil => simp at hx
  | cons a l ih =>
    cases l with
    | nil => simp at hx; simp [hx]
    | cons b l =>
      simp only [List.intersperse_cons₂, List.mem_cons] at hx ih ⊢
      rcases hx with h | h | h
      · exact .inr (.inl h)
      · exact .inl h
      · have := ih h; tauto

theorem safe_intercalate {l : List Word} (h : ∀ x ∈ l, Safe x) : Safe (List.intercalate [124] l) := by
  intro c hc
  rw [List.intercalate] at hc
  obtain ⟨x, hx, hc⟩ := List.mem_flatten.1 hc
  rcases mem_intersperse' hx with rfl | hx'
  · simp at hc; omega
  · exact h x hx' c hc

variable {s : RState}

theorem mem_ruleOf {p : Verif.Spec.GFile.Item × List Verif.Spec.GFile.Item} (hp : p ∈ parts items) : ∃ l a rhs line, p.1 = .rule l a rhs line := by
  have := parts_isRule _ _ hp
  obtain ⟨it, t⟩ := p
  cases it <;> simp [Item.isRule] at this
  exact ⟨_, _, _, _, rfl⟩

theorem part_mem {p : Verif.Spec.GFile.Item × List Verif.Spec.GFile.Item} (hp : p ∈ parts items) : p.1 ∈ items := by
  induction items with
  | nil => simp [parts] at hp
  | cons it t ih =>
    rw [parts] at hp
    split at hp
    · rcases List.mem_cons.1 hp with rfl | hp
      · simp
      · exact List.mem_cons_of_mem _ (ih hp)
    · exact List.mem_cons_of_mem _ (ih hp)

theorem rule_safe (hz : HasWords z ws) (hf : IsFile items ws) (hv : Valid o items) (hh : Holds o items s) {r : RRule} (hr : r ∈ s.rules) :
    Safe r.lhs ∧ ∀ p ∈ r.rhs, Safe (s.refText p.1) := by
  rw [hh.rules, List.mem_map] at hr
  obtain ⟨p, hp, rfl⟩ := hr
  obtain ⟨l, a, rhs, line, e⟩ := mem_ruleOf hp
  have hi := part_mem hp
  rw [e] at hi
  obtain ⟨it, t⟩ := p
  subst e
  refine ⟨mention_safe hz hf hv hi (by simp [mentions, ruleOf]), ?_⟩
  intro q hq
  simp only [ruleOf, List.mem_map] at hq
  obtain ⟨e, he, rfl⟩ := hq
  have hm : ∀ x ∈ e.name :: e.alts, Safe x := fun x hx => mention_safe hz hf hv hi (by
    simp only [mentions, List.mem_cons, List.mem_flatMap]
    exact .inr ⟨e, he, by simpa using hx⟩)
  have hn : e.name ∈ names o items := (mem_names _ _ _).2 (.inr ⟨_, hi, by
    simp only [mentions, List.mem_cons, List.mem_flatMap]
    exact .inr ⟨e, he, by simp⟩⟩)
  simp only [refOf]
  split
  · simp only [RState.refText]
    split
    · refine safe_intercalate ?_
      rw [sym_holds hh _ hn]
      intro x hx
      exact name_safe hz hf hv ((mem_tokens x).1 (members_tokens hv _ x hx)).1
    · exact hm _ (by simp)
  · exact safe_intercalate hm

theorem symbol_safe (hz : HasWords z ws) (hf : IsFile items ws) (hv : Valid o items) (hh : Holds o items s) {y : Sym} (hy : y ∈ s.symbols) :
    Safe y.name ∧ ∀ f, y.fallback = some f → Safe f := by
  rw [symbols_holds hv hh] at hy
  have key : ∀ x, x ∈ names o items → Safe (symOf o items x).name ∧ ∀ f, (symOf o items x).fallback = some f → Safe f := by
    intro x hx
    refine ⟨name_safe hz hf hv hx, ?_⟩
    intro f hfb
    exact name_safe hz hf hv ((mem_tokens f).1 (fallback_tokens hv hfb).2).1
  have hd : text "$" ∈ names o items := (mem_names _ _ _).2 (.inl rfl)
  simp only [List.mem_append, List.mem_map, List.mem_cons, List.not_mem_nil, or_false] at hy
  rcases hy with ((⟨x, hx, rfl⟩ | ⟨x, hx, rfl⟩) | rfl) | ⟨x, hx, rfl⟩
  · rcases hx with rfl | hx
    · exact key _ hd
    · exact key _ ((mem_tokens x).1 hx).1
  · exact key _ ((mem_nonterminals x).1 hx).1
  · refine ⟨by unfold Safe; decide, ?_⟩
    intro f hf
    simp [newSym] at hf
  · exact key _ (class_mem x ((mem_classes x).1 hx))

theorem translateAll_rules (red : Nat → Bool) : ∀ (l : List Nat) (rs : List (RRule × Trans × Bool)), s.translateAll red l = some rs →
    List.Forall₂ (fun k (p : RRule × Trans × Bool) => s.rules[k]? = some p.1 ∧ translateCode s p.1 = some p.2.1 ∧ p.2.2 = red k) l rs := by
  intro l
  induction l with
  | nil => intro rs h; simp [RState.translateAll] at h; subst h; exact .nil
  | cons k l ih =>
    intro rs h
    rw [RState.translateAll, Option.bind_eq_some_iff] at h
    obtain ⟨r, hr, h⟩ := h
    rw [Option.bind_eq_some_iff] at h
    obtain ⟨t, ht, h⟩ := h
    rw [Option.map_eq_some_iff] at h
    obtain ⟨rs', h', rfl⟩ := h
    exact .cons ⟨hr, ht, rfl⟩ (ih rs' h')

/-- The rules in the C file are the rules of the grammar file, in the order of their numbers. -/
theorem ofFile_rules {E : FileConf} {g : Gram} {cs : List CState} {T : Tables} {I : LText} (h : LText.ofFile E s g cs T = some I) :
    I.s = s ∧ I.T = T ∧ I.template = E.template ∧ I.defs = E.defs ∧
    List.Forall₂ (fun k (p : RRule × Trans × Bool) => s.rules[k]? = some p.1 ∧ translateCode s p.1 = some p.2.1 ∧
      p.2.2 = doesReduce cs (resortStates g cs) (nxstate cs (resortStates g cs)) k) s.ruleOrder I.rules := by
  rw [LText.ofFile, Option.map_eq_some_iff] at h
  obtain ⟨rs, h, rfl⟩ := h
  exact ⟨rfl, rfl, rfl, rfl, translateAll_rules _ _ _ h⟩

theorem forall₂_map_eq {α β γ : Type} {R : α → β → Prop} {f : α → γ} {f' : β → γ} (h : ∀ a b, R a b → f a = f' b) : ∀ {l : List α} {l' : List β},
    List.Forall₂ R l l' → l.map f = l'.map f'
  | _, _, .nil => rfl
  | _, _, .cons hab ht => by rw [List.map_cons, List.map_cons, h _ _ hab, forall₂_map_eq h ht]

theorem forall₂_right {α β : Type} {R : α → β → Prop} : ∀ {l : List α} {l' : List β}, List.Forall₂ R l l' → ∀ b ∈ l', ∃ a ∈ l, R a b
  | _, _, .nil, b, hb => by simp at hb
  | _, _, .cons hab ht, b, hb => by
    rcases List.mem_cons.1 hb with rfl | hb
    · exact ⟨_, by simp, hab⟩
    · obtain ⟨a, ha, h⟩ := forall₂_right ht b hb
      exact ⟨a, by simp [ha], h⟩

theorem ofFile_safe {E : FileConf} {g : Gram} {cs : List CState} {T : Tables} {I : LText} (h : LText.ofFile E s g cs T = some I)
    (hz : HasWords z ws) (hf : IsFile items ws) (hv : Valid o items) (hh : Holds o items s) (hp : Safe ((argOf o items ("token_prefix", false)).getD [])) : SafeNames I := by
  obtain ⟨rfl, -, -, -, hr⟩ := ofFile_rules h
  have hrule : ∀ p ∈ I.rules, p.1 ∈ I.s.rules := by
    intro p hp
    obtain ⟨k, -, h, -⟩ := forall₂_right hr p hp
    exact List.mem_of_getElem? h
  refine ⟨?_, ?_, ?_, fun p hp => (rule_safe hz hf hv hh (hrule p hp)).1, fun p hp => (rule_safe hz hf hv hh (hrule p hp)).2⟩
  · unfold arg
    rw [hh.args]
    exact hp
  · intro i hi
    unfold symbolName
    cases hq : I.s.symbols[i]? with
    | none => unfold Safe; simp
    | some y => exact (symbol_safe hz hf hv hh (List.mem_of_getElem? hq)).1
  · intro i f hi e
    cases hq : I.s.symbols[i]? with
    | none => simp [hq] at e
    | some y =>
      rw [hq] at e
      exact (symbol_safe hz hf hv hh (List.mem_of_getElem? hq)).2 f e

/-- The left sides and lengths of the rules in the tables are those of the rules in the C file. -/
theorem ofFile_ruleInfo {E : FileConf} {g : Gram} {cs : List CState} {T : Tables} {I : LText} {S : Word} (h : LText.ofFile E s g cs T = some I)
    (hv : Valid o items) (hh : Holds o items s) (hS : Sound o items S) (hg : s.gram = some g) :
    g.ruleList.map (fun r => g.index r.lhs) = I.rules.map (fun p => s.index p.1.lhs) ∧ g.ruleList.map (fun r => r.rhs.length) = I.rules.map (fun p => p.1.rhs.length) := by
  obtain ⟨-, -, -, -, hr⟩ := ofFile_rules h
  have hmts := gram_mts hg
  have hnt := gram_nterm hg
  obtain ⟨S', _, rfl⟩ := Option.map_eq_some_iff.mp hg
  have hcodes : (s.rules.map s.rule).map Rule.code = s.rules.map fun r => r.code.isSome := by rw [List.map_map]; rfl
  have hat : ∀ (g : Gram), g.rules = s.rules.map s.rule → ∀ k r, s.rules[k]? = some r → g.rule k = s.rule r := by
    intro g he k r hk
    unfold Gram.rule
    rw [he, List.getD_eq_getElem?_getD, List.getElem?_map, hk]
    rfl
  unfold Gram.ruleList
  rw [show sortedRules _ = s.ruleOrder from congrArg sortedRules hcodes, List.map_map, List.map_map]
  refine ⟨forall₂_map_eq ?_ hr, forall₂_map_eq ?_ hr⟩
  · rintro k p ⟨hk, -⟩
    simp only [Function.comp_apply]
    rw [hat _ rfl k p.1 hk]
    have hm : p.1 ∈ s.rules := List.mem_of_getElem? hk
    rw [hh.rules, List.mem_map] at hm
    obtain ⟨q, hq, e⟩ := hm
    obtain ⟨l, a, rhs, line, e'⟩ := mem_ruleOf hq
    have hi := part_mem hq
    rw [e'] at hi
    have hl : p.1.lhs ∈ nonterminals o items := by
      rw [← e]
      obtain ⟨it, t⟩ := q
      subst e'
      exact lhs_nonterminal hv hS.lhs hi
    show Gram.index _ (s.num (.sym p.1.lhs)) = _
    rw [num_nonterminal hv hh _ hl, index_nonterminal hv hh _ hl]
    unfold Gram.index
    rw [hnt, nterminal_eq hv hh, hmts, if_neg (by omega)]
    omega
  · rintro k p ⟨hk, -⟩
    simp only [Function.comp_apply]
    rw [hat _ rfl k p.1 hk]
    simp [RState.rule]

end Verif.Lemon
