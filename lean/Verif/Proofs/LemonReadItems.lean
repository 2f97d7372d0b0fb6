import Verif.Proofs.LemonReadSpec
/-
Helper lemmas for C72: the declarations.
-/
set_option autoImplicit false
namespace Verif.Lemon
open Verif.Spec.GFile

/-- the reader has read the items `pre` -/
structure Inv (o : Opts) (pre : List Item) (s : RState) : Prop where
  holds : Holds o pre s
  bt : s.between
  prec : s.preccounter = (precs pre).length
  lines : ∀ x p, destructorOf o pre x = some p → 0 < p.1
  wild : (wildcards pre).length ≤ 1
  errs : s.errs = []

/-- the words `ws` of the item `it` are read properly -/
def StepOK (o : Opts) (pre : List Item) (s : RState) (it : Item) (ws : List (Nat × Word)) : Prop :=
  ((readTokens (ropts o) s ws).errs = [] → it.Allowed o pre) ∧ (it.Allowed o pre → Inv o (pre ++ [it]) (readTokens (ropts o) s ws))

theorem Inv.rep {o : Opts} {pre : List Item} {s : RState} (h : Inv o pre s) : Rep s (names o pre) (symOf o pre) :=
  ⟨h.holds.syms, fun _ => rfl, symOf_new o pre⟩

theorem is_any (x : Word) (w : Nat × Word) : Is (any x) w ↔ w.2 = x := by simp [Is, any]
theorem is_line (l : Nat) (x : Word) (w : Nat × Word) : Is (some l, x) w ↔ w = (l, x) := by
  obtain ⟨a, b⟩ := w; simp [Is]; tauto

theorem forall₂_any (Xs : List Word) (ws : List (Nat × Word)) : List.Forall₂ Is (Xs.map any) ws ↔ ws.map Prod.snd = Xs := by
  induction Xs generalizing ws with
  | nil => simp
  | cons X Xs ih =>
    cases ws with
    | nil => simp
    | cons w ws => simp [is_any, ih]

theorem forall₂_split {α β : Type} {R : α → β → Prop} (a b : List α) (ws : List β) (h : List.Forall₂ R (a ++ b) ws) :
    ∃ u v, ws = u ++ v ∧ List.Forall₂ R a u ∧ List.Forall₂ R b v := by
  induction a generalizing ws with
  | nil => exact ⟨[], ws, rfl, .nil, h⟩
  | cons x a ih =>
    cases h with
    | cons hx ht =>
      obtain ⟨u, v, rfl, h1, h2⟩ := ih _ ht
      exact ⟨_ :: u, v, rfl, .cons hx h1, h2⟩

theorem keyword_arg (k : Kw) : keyword (text k.text.1) = some (.arg k) := by cases k <;> decide
theorem keyword_arg_name (k : String) (h : k ∈ argKeywords.map Prod.fst) : ∃ k' : Kw, k'.text.1 = k := by
  simp only [argKeywords, List.map_cons, List.map_nil, List.mem_cons, List.not_mem_nil, or_false] at h
  rcases h with rfl | rfl | rfl | rfl | rfl | rfl | rfl | rfl | rfl | rfl | rfl | rfl | rfl | rfl | rfl | rfl | rfl
  exacts [⟨.name, rfl⟩, ⟨.incl, rfl⟩, ⟨.code, rfl⟩, ⟨.tokenDestructor, rfl⟩, ⟨.defaultDestructor, rfl⟩, ⟨.tokenPrefix, rfl⟩, ⟨.syntaxError, rfl⟩,
    ⟨.parseAccept, rfl⟩, ⟨.parseFailure, rfl⟩, ⟨.stackOverflow, rfl⟩, ⟨.extraArgument, rfl⟩, ⟨.extraContext, rfl⟩, ⟨.tokenType, rfl⟩,
    ⟨.defaultType, rfl⟩, ⟨.stackSize, rfl⟩, ⟨.expect, rfl⟩, ⟨.startSymbol, rfl⟩]
theorem kwText_inj (k k' : Kw) (h : k.text.1 = k'.text.1) : k = k' := by
  have h1 := keyword_arg k
  rw [h, keyword_arg k'] at h1
  simpa using h1.symm
theorem lineMacro_eq (k : Kw) : k.lineMacro = k.text.2 := by cases k <;> rfl
theorem keyword_letter (k : Kw) : isAlpha ((text k.text.1).headD 0) = true := by cases k <;> decide

theorem decimal_eq (n : Nat) : decimal n = text (toString n) := by
  simp [decimal, text, Nat.repr]

/-- the text of arguments -/
theorem addArg_eq (o : Opts) (b m : Bool) (line : Nat) (old x : Word) (hm : m = (!o.noLines && b && decide (1 < line))) :
    addArg (ropts o) m line old (if x.headD 0 = 34 ∨ x.headD 0 = 123 then x.drop 1 else x) = addText o b old (line, x) := by
  have hb : (if x.headD 0 = 34 ∨ x.headD 0 = 123 then x.drop 1 else x) = body x := by
    unfold body
    cases x with
    | nil => simp
    | cons c t => simp
  rw [hb]
  unfold addArg addText
  subst hm
  by_cases h : b = true ∧ o.noLines = false ∧ 1 < line
  · rw [if_pos (by simp [h]), if_pos h]
    simp only [List.append_assoc, List.append_cancel_left_eq]
    have h2 : (if old ≠ [] ∧ old.getLast? ≠ some 10 then [10] else []) = (if old = [] ∨ old.getLast? = some 10 then ([] : List Nat) else [10]) := by
      by_cases h1 : old = [] <;> by_cases h2 : old.getLast? = some 10 <;> simp [h1, h2]
    rw [h2]
    congr 1
    simp only [lineMacro, directive, decimal_eq, ropts, List.append_assoc]
    rfl
  · rw [if_neg (by simp at h ⊢; intro h1 h2; exact h h2 h1), if_neg h]
    simp

theorem rd_percent (o : ROpts) {s : RState} (h : s.between) (l : Nat) : readToken o s l (text "%") = s.goto .WAITING_FOR_DECL_KEYWORD := by
  rw [rd_begin _ _ _ h]; rfl

theorem rd_key (o : ROpts) (s : RState) (l : Nat) (x : Word) (hx : isAlpha (x.headD 0) = true) :
    readToken o (s.goto .WAITING_FOR_DECL_KEYWORD) l x = keywordToken (s.goto .WAITING_FOR_DECL_KEYWORD) l x := rd_keyword _ _ _ rfl

theorem keyWord (o : ROpts) {s : RState} (h : s.between) (l1 l2 : Nat) (x : Word) (ws : List (Nat × Word)) :
    readTokens o s ((l1, text "%") :: (l2, x) :: ws) = readTokens o (keywordToken (s.goto .WAITING_FOR_DECL_KEYWORD) l2 x) ws := by
  rw [readTokens_cons, readTokens_cons, rd_percent _ h, rd_keyword _ _ _ rfl]

theorem keyWord_token (o : ROpts) {s : RState} (h : s.between) (l1 l2 : Nat) (ws : List (Nat × Word)) :
    readTokens o s ((l1, text "%") :: (l2, text "token") :: ws) = readTokens o { s with insertLineMacro := true, state := .WAITING_FOR_TOKEN_NAME } ws := by
  have hk : keyword (text "token") = some .token := by decide
  rw [keyWord _ h, keywordToken, if_pos (by decide)]
  simp only [hk]
  rfl
theorem keyWord_wildcard (o : ROpts) {s : RState} (h : s.between) (l1 l2 : Nat) (ws : List (Nat × Word)) :
    readTokens o s ((l1, text "%") :: (l2, text "wildcard") :: ws) = readTokens o { s with insertLineMacro := true, state := .WAITING_FOR_WILDCARD_ID } ws := by
  have hk : keyword (text "wildcard") = some .wildcard := by decide
  rw [keyWord _ h, keywordToken, if_pos (by decide)]
  simp only [hk]
  rfl
theorem keyWord_fallback (o : ROpts) {s : RState} (h : s.between) (l1 l2 : Nat) (ws : List (Nat × Word)) :
    readTokens o s ((l1, text "%") :: (l2, text "fallback") :: ws) = readTokens o { s with insertLineMacro := true, fallback := none, state := .WAITING_FOR_FALLBACK_ID } ws := by
  have hk : keyword (text "fallback") = some .fallback := by decide
  rw [keyWord _ h, keywordToken, if_pos (by decide)]
  simp only [hk]
  rfl
theorem keyWord_tokenClass (o : ROpts) {s : RState} (h : s.between) (l1 l2 : Nat) (ws : List (Nat × Word)) :
    readTokens o s ((l1, text "%") :: (l2, text "token_class") :: ws) = readTokens o { s with insertLineMacro := true, state := .WAITING_FOR_CLASS_ID } ws := by
  have hk : keyword (text "token_class") = some .tokenClass := by decide
  rw [keyWord _ h, keywordToken, if_pos (by decide)]
  simp only [hk]
  rfl
theorem keyWord_destructor (o : ROpts) {s : RState} (h : s.between) (l1 l2 : Nat) (ws : List (Nat × Word)) :
    readTokens o s ((l1, text "%") :: (l2, text "destructor") :: ws) = readTokens o { s with insertLineMacro := true, state := .WAITING_FOR_DESTRUCTOR_SYMBOL } ws := by
  have hk : keyword (text "destructor") = some .destructor := by decide
  rw [keyWord _ h, keywordToken, if_pos (by decide)]
  simp only [hk]
  rfl
theorem keyWord_type (o : ROpts) {s : RState} (h : s.between) (l1 l2 : Nat) (ws : List (Nat × Word)) :
    readTokens o s ((l1, text "%") :: (l2, text "type") :: ws) = readTokens o { s with insertLineMacro := true, state := .WAITING_FOR_DATATYPE_SYMBOL } ws := by
  have hk : keyword (text "type") = some .type := by decide
  rw [keyWord _ h, keywordToken, if_pos (by decide)]
  simp only [hk]
  rfl
theorem keyWord_prec (o : ROpts) {s : RState} (h : s.between) (a : Assoc) (ha : a ≠ .UNK) (l1 l2 : Nat) (ws : List (Nat × Word)) :
    readTokens o s ((l1, text "%") :: (l2, text (precKeyword a)) :: ws) =
      readTokens o { s with preccounter := s.preccounter + 1, declassoc := a, insertLineMacro := true, state := .WAITING_FOR_PRECEDENCE_SYMBOL } ws := by
  have hk : keyword (text (precKeyword a)) = some (.prec a) := by cases a <;> first | decide | exact absurd rfl ha
  have hl : isAlpha ((text (precKeyword a)).headD 0) = true := by cases a <;> first | decide | exact absurd rfl ha
  rw [keyWord _ h, keywordToken, if_pos hl]
  simp only [hk]
  rfl

section
variable {o : Opts} {pre : List Item} {s s' : RState} {it : Item}

theorem Inv.next (_h : Inv o pre s) (hb : s'.between) (he : s'.errs = []) (hr : s'.rules = (parts (pre ++ [it])).map (ruleOf o (isClass (pre ++ [it]))))
    (hs : s'.syms = (names o (pre ++ [it])).map (symOf o (pre ++ [it]))) (ha : ∀ k, s'.args k = argOf o (pre ++ [it]) k.text)
    (hw : s'.wildcard = (wildcards (pre ++ [it])).head?) (hw' : (wildcards (pre ++ [it])).length ≤ 1)
    (hy : s'.yaccPrec = (o.yacc || (pre ++ [it]).contains .yaccPrec)) (hp : s'.preccounter = (precs (pre ++ [it])).length)
    (hl : ∀ x p, destructorOf o (pre ++ [it]) x = some p → 0 < p.1) : Inv o (pre ++ [it]) s' :=
  ⟨⟨hr, hs, ha, hw, hy⟩, hb, hp, hl, hw', he⟩

theorem rules_plain (_h : Inv o pre s) (h0 : plain it = true) (h1 : it.codeOf = none) (h2 : it.markOf = none)
    (h3 : it.isMark = false) (h4 : it.isNever = false) (hr : s'.rules = (parts pre).map (ruleOf o (isClass pre))) :
    s'.rules = (parts (pre ++ [it])).map (ruleOf o (isClass (pre ++ [it]))) := by
  rw [parts_ruleOf _ _ _ _ (by cases it <;> simp [plain] at h0 <;> rfl) h1 h2 h3 h4, isClass_plain _ _ h0]
  exact hr

theorem symOf_plain (h0 : plain it = true) (h1 : ∀ x, fallbackOf [it] x = none) (h2 : precs [it] = []) (h3 : ∀ x, destructorsOf [it] x = [])
    (h4 : ∀ x, typeOf [it] x = none) : symOf o (pre ++ [it]) = symOf o pre := by
  funext x
  simp only [symOf, isClass_plain _ _ h0, fallbackOf_same _ _ h1, precOf_same _ _ _ h2, destructorOf_same _ _ _ h3, typeOf_same _ _ h4, membersOf_same _ _ h0]

theorem lines_same (h : Inv o pre s) (h3 : ∀ x, destructorsOf [it] x = []) : ∀ x p, destructorOf o (pre ++ [it]) x = some p → 0 < p.1 := by
  rw [destructorOf_same _ _ _ h3]; exact h.lines
end

/-! ### `%yacc_prec` -/

theorem step_yaccPrec (o : Opts) (pre : List Item) (s : RState) (h : Inv o pre s) (ws : List (Nat × Word)) (hws : List.Forall₂ Is Item.yaccPrec.words ws) :
    StepOK o pre s .yaccPrec ws := by
  simp only [Item.words, List.forall₂_cons_left_iff, List.forall₂_nil_left_iff, is_any] at hws
  obtain ⟨⟨l1, _⟩, _, rfl, ⟨⟨l2, _⟩, _, rfl, rfl, rfl⟩, rfl⟩ := hws
  have hr : readTokens (ropts o) s [(l1, text "%"), (l2, text "yacc_prec")] =
      { s with insertLineMacro := false, yaccPrec := true, state := .WAITING_FOR_DECL_OR_RULE } := by
    rw [keyWord _ h.bt _ _ _, readTokens_nil, keywordToken, if_pos (by decide)]
    have : keyword (text "yacc_prec") = some .yaccPrec := by decide
    simp only [this]
    rfl
  refine ⟨fun _ => trivial, fun _ => ?_⟩
  rw [hr]
  exact Inv.next h (.inr rfl) h.errs (rules_plain h rfl rfl rfl rfl rfl h.holds.rules)
    (by rw [symOf_plain rfl (fun _ => rfl) rfl (fun _ => rfl) (fun _ => rfl), names_append]; exact h.holds.syms)
    (by rw [argOf_same _ _ _ (fun _ => rfl)]; exact h.holds.args) (by rw [wildcards_same _ _ rfl]; exact h.holds.wildcard)
    (by rw [wildcards_same _ _ rfl]; exact h.wild) (by simp) (by rw [precs_same _ _ rfl]; exact h.prec) (lines_same h fun _ => rfl)

/-! ### declarations with one argument -/

theorem step_arg (o : Opts) (pre : List Item) (s : RState) (h : Inv o pre s) (k : String) (a : Word) (line : Nat) (hf : (Item.arg k a line).Form)
    (ws : List (Nat × Word)) (hws : List.Forall₂ Is (Item.arg k a line).words ws) : StepOK o pre s (.arg k a line) ws := by
  simp only [Item.words, List.forall₂_cons_left_iff, List.forall₂_nil_left_iff, is_any, is_line] at hws
  obtain ⟨⟨l1, _⟩, _, rfl, ⟨⟨l2, _⟩, _, rfl, ⟨⟨_, _⟩, _, hw, rfl, rfl⟩, rfl⟩, rfl⟩ := hws
  simp only [Prod.mk.injEq] at hw
  obtain ⟨rfl, rfl⟩ := hw
  obtain ⟨hk, ha⟩ := hf
  obtain ⟨k, rfl⟩ := keyword_arg_name k hk
  rename_i line a
  have hr : readTokens (ropts o) s [(l1, text "%"), (l2, text k.text.1), (line, a)] =
      { s with slot := .kw k, insertLineMacro := k.lineMacro, state := .WAITING_FOR_DECL_OR_RULE
               args := fun k' => if k' = k then some (addText o k.text.2 ((s.args k).getD []) (line, a)) else s.args k' } := by
    rw [keyWord _ h.bt, keywordToken, if_pos (keyword_letter k)]
    simp only [keyword_arg]
    rw [readTokens_cons, readTokens_nil, rd_arg _ _ _ rfl, argToken]
    simp only
    rw [if_pos ((argument_iff a).mp ha), addArg_eq o k.text.2 _ _ _ _ (by simp [addLineMacro, ropts, lineMacro_eq])]
    rfl
  refine ⟨fun _ => trivial, fun _ => ?_⟩
  rw [hr]
  refine Inv.next h (.inr rfl) h.errs (rules_plain h rfl rfl rfl rfl rfl h.holds.rules)
    (by rw [symOf_plain rfl (fun _ => rfl) rfl (fun _ => rfl) (fun _ => rfl), names_append]; exact h.holds.syms)
    ?_ (by rw [wildcards_same _ _ rfl]; exact h.holds.wildcard)
    (by rw [wildcards_same _ _ rfl]; exact h.wild) (by rw [yacc_same _ _ (by simp)]; exact h.holds.yaccPrec)
    (by rw [precs_same _ _ rfl]; exact h.prec) (lines_same h fun _ => rfl)
  intro k'
  have hk' := h.holds.args k'
  by_cases hkk : k' = k
  · subst hkk
    simp only [if_true, hk', argOf]
    have : argsOf (pre ++ [.arg k'.text.1 a line]) k'.text.1 = argsOf pre k'.text.1 ++ [(line, a)] := by simp [argsOf]
    have hne : argsOf pre k'.text.1 ++ [(line, a)] ≠ [] := by simp
    rw [this, if_neg hne, List.foldl_append]
    by_cases he : argsOf pre k'.text.1 = []
    · simp [he]
    · simp [he]
  · have hne : k.text.1 ≠ k'.text.1 := fun e => hkk (kwText_inj _ _ e.symm)
    simp only [hkk, if_false, hk']
    simp [argOf, argsOf, hne]

/-! ### `%token` -/

/-- the full stop ends a list of tokens -/
theorem rd_stop (o : ROpts) (s : RState) (l : Nat) (h : s.state = .WAITING_FOR_TOKEN_NAME ∨ s.state = .WAITING_FOR_FALLBACK_ID ∨
    s.state = .WAITING_FOR_WILDCARD_ID ∨ s.state = .WAITING_FOR_PRECEDENCE_SYMBOL ∨ s.state = .WAITING_FOR_CLASS_TOKEN) :
    readToken o s l (text ".") = s.goto .WAITING_FOR_DECL_OR_RULE := by
  rcases h with h | h | h | h | h
  · rw [rd_token _ _ _ h]; rfl
  · rw [rd_fallback _ _ _ h]; rfl
  · rw [rd_wildcard _ _ _ h]; rfl
  · rw [rd_prec _ _ _ h]; rfl
  · rw [rd_classMember _ _ _ h]; rfl

/-- the words of a list of tokens -/
theorem words_list (k : Word) (Xs : List Word) (ws : List (Nat × Word)) (h : List.Forall₂ Is ([any (text "%"), any k] ++ Xs.map any ++ [any (text ".")]) ws) :
    ∃ l1 l2 u l3, ws = (l1, text "%") :: (l2, k) :: (u ++ [(l3, text ".")]) ∧ u.map Prod.snd = Xs := by
  rw [List.append_assoc] at h
  obtain ⟨u, v, rfl, h1, h2⟩ := forall₂_split _ _ _ h
  obtain ⟨u', v', rfl, h3, h4⟩ := forall₂_split _ _ _ h2
  simp only [List.forall₂_cons_left_iff, List.forall₂_nil_left_iff, is_any] at h1 h4
  obtain ⟨⟨l1, _⟩, _, rfl, ⟨⟨l2, _⟩, _, rfl, rfl, rfl⟩, rfl⟩ := h1
  obtain ⟨⟨l3, _⟩, _, rfl, rfl, rfl⟩ := h4
  exact ⟨l1, l2, u', l3, rfl, (forall₂_any _ _).mp h3⟩

theorem step_token (o : Opts) (pre : List Item) (s : RState) (h : Inv o pre s) (Xs : List Word) (hf : (Item.token Xs).Form)
    (ws : List (Nat × Word)) (hws : List.Forall₂ Is (Item.token Xs).words ws) : StepOK o pre s (.token Xs) ws := by
  obtain ⟨l1, l2, u, l3, rfl, rfl⟩ := words_list _ _ _ hws
  refine ⟨fun _ => trivial, fun _ => ?_⟩
  have hU : ∀ w ∈ u, Upper w.2 := fun w hw => hf _ (List.mem_map_of_mem hw)
  rw [keyWord_token _ h.bt]
  rw [readTokens_append, tokenLoop o u { s with insertLineMacro := true, state := .WAITING_FOR_TOKEN_NAME } (names o pre) (symOf o pre) ⟨h.holds.syms, fun _ => rfl, symOf_new o pre⟩ rfl hU]
  rw [readTokens_cons, readTokens_nil, rd_stop _ _ _ (.inl rfl)]
  exact Inv.next h (.inr rfl) h.errs (rules_plain h rfl rfl rfl rfl rfl h.holds.rules)
    (by rw [symOf_plain rfl (fun _ => rfl) rfl (fun _ => rfl) (fun _ => rfl), names_append]; rfl)
    (by rw [argOf_same _ _ _ (fun _ => rfl)]; exact h.holds.args) (by rw [wildcards_same _ _ rfl]; exact h.holds.wildcard)
    (by rw [wildcards_same _ _ rfl]; exact h.wild) (by rw [yacc_same _ _ (by simp)]; exact h.holds.yaccPrec)
    (by rw [precs_same _ _ rfl]; exact h.prec) (lines_same h fun _ => rfl)

/-! ### `%wildcard` -/

theorem step_wildcard (o : Opts) (pre : List Item) (s : RState) (h : Inv o pre s) (Xs : List Word) (hf : (Item.wildcard Xs).Form)
    (ws : List (Nat × Word)) (hws : List.Forall₂ Is (Item.wildcard Xs).words ws) : StepOK o pre s (.wildcard Xs) ws := by
  obtain ⟨l1, l2, u, l3, rfl, rfl⟩ := words_list _ _ _ hws
  have hU : ∀ w ∈ u, Upper w.2 := fun w hw => hf _ (List.mem_map_of_mem hw)
  unfold StepOK
  rw [keyWord_wildcard _ h.bt, readTokens_append]
  obtain ⟨i1, i2⟩ := wildcardLoop o u { s with insertLineMacro := true, state := .WAITING_FOR_WILDCARD_ID }
    (names o pre) (symOf o pre) ⟨h.holds.syms, fun _ => rfl, symOf_new o pre⟩ rfl hU
  have hw : u.length + (if s.wildcard.isSome then 1 else 0) ≤ 1 ↔ (wildcards pre).length + u.length ≤ 1 := by
    rw [h.holds.wildcard]
    have := h.wild
    cases hp : wildcards pre with
    | nil => simp
    | cons a l =>
      rw [hp, List.length_cons] at this
      simp only [List.head?_cons, Option.isSome_some, if_true, List.length_cons]
      omega
  constructor
  · intro he
    have := i1 (errs_nil_of _ _ _ he)
    rw [hw] at this
    simpa [Item.Allowed] using this
  · intro ha
    have ha' : (wildcards pre).length + u.length ≤ 1 := by simpa [Item.Allowed] using ha
    rw [i2 (hw.mpr ha'), readTokens_cons, readTokens_nil, rd_stop _ _ _ (.inr (.inr (.inl rfl)))]
    have hww : wildcards (pre ++ [.wildcard (u.map Prod.snd)]) = wildcards pre ++ u.map Prod.snd := by rw [wildcards_append]; simp [wildcards]
    refine Inv.next h (.inr rfl) h.errs (rules_plain h rfl rfl rfl rfl rfl h.holds.rules)
      (by rw [symOf_plain rfl (fun _ => rfl) rfl (fun _ => rfl) (fun _ => rfl), names_append]; rfl)
      (by rw [argOf_same _ _ _ (fun _ => rfl)]; exact h.holds.args) ?_ (by rw [hww]; simpa using ha')
      (by rw [yacc_same _ _ (by simp)]; exact h.holds.yaccPrec)
      (by rw [precs_same _ _ rfl]; exact h.prec) (lines_same h fun _ => rfl)
    rw [hww, List.head?_append, ← h.holds.wildcard]
    rfl

/-! ### `%fallback` -/

theorem step_fallback (o : Opts) (pre : List Item) (s : RState) (h : Inv o pre s) (Xs : List Word) (hf : (Item.fallback Xs).Form)
    (ws : List (Nat × Word)) (hws : List.Forall₂ Is (Item.fallback Xs).words ws) : StepOK o pre s (.fallback Xs) ws := by
  obtain ⟨l1, l2, u, l3, rfl, rfl⟩ := words_list _ _ _ hws
  have hU : ∀ w ∈ u, Upper w.2 := fun w hw => hf _ (List.mem_map_of_mem hw)
  unfold StepOK
  rw [keyWord_fallback _ h.bt, readTokens_append]
  cases u with
  | nil =>
    refine ⟨fun _ => by simp [Item.Allowed], fun _ => ?_⟩
    rw [readTokens_nil, readTokens_cons, readTokens_nil, rd_stop _ _ _ (.inr (.inl rfl))]
    exact Inv.next h (.inr rfl) h.errs (rules_plain h rfl rfl rfl rfl rfl h.holds.rules)
      (by rw [symOf_plain rfl (fun _ => rfl) rfl (fun _ => rfl) (fun _ => rfl), names_append]; exact h.holds.syms)
      (by rw [argOf_same _ _ _ (fun _ => rfl)]; exact h.holds.args) (by rw [wildcards_same _ _ rfl]; exact h.holds.wildcard)
      (by rw [wildcards_same _ _ rfl]; exact h.wild) (by rw [yacc_same _ _ (by simp)]; exact h.holds.yaccPrec)
      (by rw [precs_same _ _ rfl]; exact h.prec) (lines_same h fun _ => rfl)
  | cons w u =>
    have hX : Upper w.2 := hU w (by simp)
    have hrep : Rep { s with insertLineMacro := true, fallback := none, state := .WAITING_FOR_FALLBACK_ID } (names o pre) (symOf o pre) :=
      ⟨h.holds.syms, fun _ => rfl, symOf_new o pre⟩
    have h1 : readToken (ropts o) { s with insertLineMacro := true, fallback := none, state := .WAITING_FOR_FALLBACK_ID } w.1 w.2 =
        { s with insertLineMacro := true, fallback := some w.2, state := .WAITING_FOR_FALLBACK_ID, syms := (ins (names o pre) w.2).map (symOf o pre) } := by
      rw [rd_fallback _ _ _ rfl, fallbackToken, if_neg (upper_ne hX 46 (by omega)), (upper_iff _).mp hX]
      simp only [Bool.not_true, Bool.false_eq_true, if_false]
      rw [hrep.symNew_eq]
    rw [readTokens_cons _ _ w u, h1]
    obtain ⟨i1, i2⟩ := fallbackLoop o u _ _ _ (hrep.ins w.2
      { s with insertLineMacro := true, fallback := some w.2, state := .WAITING_FOR_FALLBACK_ID, syms := (ins (names o pre) w.2).map (symOf o pre) } rfl)
      w.2 rfl rfl (fun v hv => hU v (by simp [hv]))
    constructor
    · intro he
      exact i1 (errs_nil_of _ _ _ he)
    · intro ha
      rw [i2 ha, readTokens_cons, readTokens_nil, rd_stop _ _ _ (.inr (.inl rfl))]
      refine Inv.next h (.inr rfl) h.errs (rules_plain h rfl rfl rfl rfl rfl h.holds.rules) ?_
        (by rw [argOf_same _ _ _ (fun _ => rfl)]; exact h.holds.args) (by rw [wildcards_same _ _ rfl]; exact h.holds.wildcard)
        (by rw [wildcards_same _ _ rfl]; exact h.wild) (by rw [yacc_same _ _ (by simp)]; exact h.holds.yaccPrec)
        (by rw [precs_same _ _ rfl]; exact h.prec) (lines_same h fun _ => rfl)
      rw [names_append]
      refine List.map_congr_left fun y _ => ?_
      have e : fallbackOf [.fallback ((w :: u).map Prod.snd)] y = if y ∈ u.map Prod.snd then some w.2 else none := by
        simp only [fallbackOf, List.map_cons, List.findSome?_cons, List.findSome?_nil]
        split <;> simp_all
      simp only [symOf, isClass_plain _ (.fallback ((w :: u).map Prod.snd)) rfl, fallbackOf_append, e, precOf_same _ _ (.fallback ((w :: u).map Prod.snd)) rfl,
        destructorOf_same _ _ (.fallback ((w :: u).map Prod.snd)) (fun _ => rfl), typeOf_same _ (.fallback ((w :: u).map Prod.snd)) (fun _ => rfl),
        membersOf_same _ (.fallback ((w :: u).map Prod.snd)) rfl]
      by_cases hy : y ∈ u.map Prod.snd
      · simp only [hy, if_true]
        have : fallbackOf pre y = none := ha.2 y hy
        rw [this]; rfl
      · simp only [hy, if_false, Option.or_none]

/-! ### precedences -/

theorem precOf_append (o : Opts) (hu : o.ignorePrec = false) (pre : List Item) (a : Assoc) (Xs : List Word) (x : Word) :
    precOf o (pre ++ [.prec a Xs]) x = (precOf o pre x).or (if x ∈ Xs then some ((precs pre).length + 1, a) else none) := by
  have : precs [.prec a Xs] = [(a, Xs)] := rfl
  simp only [precOf, hu, Bool.false_eq_true, if_false, precs_append, this, List.zipIdx_append, List.findSome?_append]
  congr 1
  simp only [List.zipIdx_cons, List.zipIdx_nil, List.findSome?_cons, List.findSome?_nil]
  split <;> simp_all

theorem precOf_u (o : Opts) (hu : o.ignorePrec = true) (items : List Item) : precOf o items = fun _ => none := by
  funext x; simp [precOf, hu]

theorem prec_neg (o : Opts) (pre : List Item) (x : Word) : (symOf o pre x).prec < 0 ↔ precOf o pre x = none := by
  unfold symOf
  cases h : precOf o pre x with
  | none => simp
  | some p => simp

theorem step_prec (o : Opts) (pre : List Item) (s : RState) (h : Inv o pre s) (a : Assoc) (Xs : List Word) (hf : (Item.prec a Xs).Form)
    (ws : List (Nat × Word)) (hws : List.Forall₂ Is (Item.prec a Xs).words ws) : StepOK o pre s (.prec a Xs) ws := by
  obtain ⟨l1, l2, u, l3, rfl, rfl⟩ := words_list _ _ _ hws
  have hU : ∀ w ∈ u, Upper w.2 := fun w hw => hf.2 _ (List.mem_map_of_mem hw)
  unfold StepOK
  rw [keyWord_prec _ h.bt a hf.1, readTokens_append]
  have hpp : s.preccounter + 1 = (precs (pre ++ [.prec a (u.map Prod.snd)])).length := by rw [precs_append, List.length_append, h.prec]; rfl
  cases hu : o.ignorePrec with
  | true =>
    rw [precLoop_u o hu u _ rfl hU, readTokens_cons, readTokens_nil, rd_stop _ _ _ (.inr (.inr (.inr (.inl rfl))))]
    refine ⟨fun _ => by simp [Item.Allowed, hu], fun _ => ?_⟩
    refine Inv.next h (.inr rfl) h.errs (rules_plain h rfl rfl rfl rfl rfl h.holds.rules) ?_
      (by rw [argOf_same _ _ _ (fun _ => rfl)]; exact h.holds.args) (by rw [wildcards_same _ _ rfl]; exact h.holds.wildcard)
      (by rw [wildcards_same _ _ rfl]; exact h.wild) (by rw [yacc_same _ _ (by simp)]; exact h.holds.yaccPrec) hpp (lines_same h fun _ => rfl)
    rw [names_append]
    have hm : mentions o (.prec a (u.map Prod.snd)) = [] := by simp [mentions, hu]
    rw [hm]
    have : symOf o (pre ++ [.prec a (u.map Prod.snd)]) = symOf o pre := by
      funext y
      simp only [symOf, isClass_plain _ (.prec a (u.map Prod.snd)) rfl, fallbackOf_same _ (.prec a (u.map Prod.snd)) (fun _ => rfl), precOf_u o hu,
        destructorOf_same _ _ (.prec a (u.map Prod.snd)) (fun _ => rfl), typeOf_same _ (.prec a (u.map Prod.snd)) (fun _ => rfl),
        membersOf_same _ (.prec a (u.map Prod.snd)) rfl]
    rw [this]
    exact h.holds.syms
  | false =>
    have hrep : Rep { s with preccounter := s.preccounter + 1, declassoc := a, insertLineMacro := true, state := .WAITING_FOR_PRECEDENCE_SYMBOL }
        (names o pre) (symOf o pre) := ⟨h.holds.syms, fun _ => rfl, symOf_new o pre⟩
    obtain ⟨i1, i2⟩ := precLoop o hu u _ _ _ hrep rfl hU
    simp only [prec_neg] at i1 i2
    constructor
    · intro he _
      exact i1 (errs_nil_of _ _ _ he)
    · intro ha
      have ha := ha hu
      rw [i2 ha, readTokens_cons, readTokens_nil, rd_stop _ _ _ (.inr (.inr (.inr (.inl rfl))))]
      refine Inv.next h (.inr rfl) h.errs (rules_plain h rfl rfl rfl rfl rfl h.holds.rules) ?_
        (by rw [argOf_same _ _ _ (fun _ => rfl)]; exact h.holds.args) (by rw [wildcards_same _ _ rfl]; exact h.holds.wildcard)
        (by rw [wildcards_same _ _ rfl]; exact h.wild) (by rw [yacc_same _ _ (by simp)]; exact h.holds.yaccPrec) hpp (lines_same h fun _ => rfl)
      rw [names_append]
      have hm : mentions o (.prec a (u.map Prod.snd)) = u.map Prod.snd := by simp [mentions, hu]
      rw [hm]
      refine List.map_congr_left fun y _ => ?_
      simp only [symOf, isClass_plain _ (.prec a (u.map Prod.snd)) rfl, fallbackOf_same _ (.prec a (u.map Prod.snd)) (fun _ => rfl), precOf_append o hu,
        destructorOf_same _ _ (.prec a (u.map Prod.snd)) (fun _ => rfl), typeOf_same _ (.prec a (u.map Prod.snd)) (fun _ => rfl),
        membersOf_same _ (.prec a (u.map Prod.snd)) rfl]
      by_cases hy : y ∈ u.map Prod.snd
      · simp only [hy, if_true, ha.2 y hy, h.prec]
        rfl
      · simp only [hy, if_false, Option.or_none]

end Verif.Lemon
