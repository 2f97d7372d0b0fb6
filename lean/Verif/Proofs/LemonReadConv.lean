import Verif.Proofs.LemonReadRule
import Verif.Spec.LemonScan
/-
Helper lemmas for C72: words read without error are the words of items.
-/
set_option autoImplicit false
namespace Verif.Lemon
open Verif.Spec.GFile

/-- words with certain first characters are punctuation: what the reader relies on -/
structure Punct (x : Word) : Prop where
  single : ∀ c ∈ [37, 91, 93, 40, 41, 46], x.headD 0 = c → x = [c]
  arrow : isArrow x = true → x = text "::="

theorem Punct.of_isWord {w x rest : Word} (h : Verif.Spec.Words.IsWord w x rest) : Punct x := by
  constructor
  · intro c hc hx
    have hc' : c = 37 ∨ c = 91 ∨ c = 93 ∨ c = 40 ∨ c = 41 ∨ c = 46 := by simpa using hc
    cases h with
    | string => simp at hx; omega
    | code => simp at hx; omega
    | name h => simp at hx; simp [Verif.Spec.Words.letter, Verif.Spec.Words.digit] at h; omega
    | arrow => simp at hx; omega
    | alternative h => simp at hx; omega
    | char => simp at hx; rw [hx]
  · intro ha
    simp only [isArrow, beq_iff_eq] at ha
    cases h with
    | string => simp at ha
    | code => simp at ha
    | name h => simp at ha; simp [Verif.Spec.Words.letter, Verif.Spec.Words.digit] at h; omega
    | arrow => decide
    | alternative h => simp at ha; omega
    | char => simp at ha

theorem isWord_ne {w x rest : Word} (h : Verif.Spec.Words.IsWord w x rest) : x ≠ [] := by cases h <;> simp

/-- reading the words gives no error, and an item is complete at the end -/
def GoodRead (o : ROpts) (s : RState) (ws : List (Nat × Word)) : Prop := (readTokens o s ws).errs = [] ∧ (readTokens o s ws).between

theorem GoodRead.cons {o : ROpts} {s : RState} {w : Nat × Word} {ws : List (Nat × Word)} (h : GoodRead o s (w :: ws)) :
    GoodRead o (readToken o s w.1 w.2) ws ∧ (readToken o s w.1 w.2).errs = [] := ⟨h, errs_nil_of _ _ _ h.1⟩

theorem GoodRead.ne_nil {o : ROpts} {s : RState} {ws : List (Nat × Word)} (h : GoodRead o s ws) (hs : ¬ s.between) : ∃ w v, ws = w :: v := by
  cases ws with
  | nil => exact absurd h.2 hs
  | cons w v => exact ⟨w, v, rfl⟩

/-! ### lists of tokens -/

theorem symNew_state (s : RState) (x : Word) : (s.symNew x).state = s.state := by unfold RState.symNew; split <;> rfl
theorem symNew_rhs (s : RState) (x : Word) : (s.symNew x).rhs = s.rhs := by unfold RState.symNew; split <;> rfl
theorem upd_state (s : RState) (x : Word) (f : Sym → Sym) : (s.upd x f).state = s.state := rfl
theorem err_state (s : RState) (l : Nat) (e : RErr) : (s.err l e).state = s.state := rfl

def listState (st : RSt) : Prop :=
  st = .WAITING_FOR_PRECEDENCE_SYMBOL ∨ st = .WAITING_FOR_FALLBACK_ID ∨ st = .WAITING_FOR_TOKEN_NAME ∨ st = .WAITING_FOR_WILDCARD_ID

theorem list_token (o : ROpts) (s : RState) (hs : listState s.state) (l : Nat) (x : Word) (h : (readToken o s l x).errs = []) :
    x.headD 0 = 46 ∨ (Upper x ∧ (readToken o s l x).state = s.state) := by
  by_cases h0 : x.headD 0 = 46
  · exact .inl h0
  right
  rcases hs with hs | hs | hs | hs
  · rw [rd_prec _ _ _ hs, precToken, if_neg h0] at h ⊢
    by_cases hu : isUpper (x.headD 0) = true
    · refine ⟨(upper_iff x).mpr hu, ?_⟩
      rw [if_pos hu]
      simp only
      split
      · rfl
      · split <;> simp [err_state, upd_state, symNew_state]
    · rw [if_neg hu] at h; simp [err_errs] at h
  · rw [rd_fallback _ _ _ hs, fallbackToken, if_neg h0] at h ⊢
    by_cases hu : isUpper (x.headD 0) = true
    · refine ⟨(upper_iff x).mpr hu, ?_⟩
      rw [if_neg (by rw [hu]; simp)]
      simp only
      split
      · simp [symNew_state]
      · split <;> simp [err_state, upd_state, symNew_state]
    · rw [if_pos (by simpa using hu)] at h; simp [err_errs] at h
  · rw [rd_token _ _ _ hs, tokenToken, if_neg h0] at h ⊢
    by_cases hu : isUpper (x.headD 0) = true
    · refine ⟨(upper_iff x).mpr hu, ?_⟩
      rw [if_neg (by rw [hu]; simp)]
      simp [symNew_state]
    · rw [if_pos (by simpa using hu)] at h; simp [err_errs] at h
  · rw [rd_wildcard _ _ _ hs, wildcardToken, if_neg h0] at h ⊢
    by_cases hu : isUpper (x.headD 0) = true
    · refine ⟨(upper_iff x).mpr hu, ?_⟩
      rw [if_neg (by rw [hu]; simp)]
      simp only
      split
      · simp [symNew_state]
      · simp [err_state, symNew_state]
    · rw [if_pos (by simpa using hu)] at h; simp [err_errs] at h

theorem list_conv (o : ROpts) (ws : List (Nat × Word)) (s : RState) (hs : listState s.state) (hp : ∀ w ∈ ws, Punct w.2) (h : GoodRead o s ws) :
    ∃ u l v, ws = u ++ (l, text ".") :: v ∧ ∀ w ∈ u, Upper w.2 := by
  induction ws generalizing s with
  | nil =>
    have := h.2
    rcases this with h | h <;> rcases hs with h' | h' | h' | h' <;> (simp only [readTokens_nil] at h; rw [h] at h'; simp at h')
  | cons w ws ih =>
    obtain ⟨hg, he⟩ := h.cons
    rcases list_token o s hs w.1 w.2 he with h0 | ⟨hu, hst⟩
    · refine ⟨[], w.1, ws, ?_, by simp⟩
      have : w = (w.1, text ".") := Prod.ext rfl ((hp w (by simp)).single 46 (by simp) h0)
      rw [this]; rfl
    · obtain ⟨u, l, v, rfl, hu'⟩ := ih _ (by rw [hst]; exact hs) (fun w hw => hp w (by simp [hw])) hg
      refine ⟨w :: u, l, v, rfl, ?_⟩
      intro y hy
      rcases List.mem_cons.mp hy with rfl | hy
      · exact hu
      · exact hu' y hy

theorem class_conv (o : ROpts) (ws : List (Nat × Word)) (s : RState) (hs : s.state = .WAITING_FOR_CLASS_TOKEN) (hp : ∀ w ∈ ws, Punct w.2) (h : GoodRead o s ws) :
    ∃ u l v, ws = u ++ (l, text ".") :: v ∧ ∃ Xs : List (Option Nat × Word), u.map Prod.snd = Xs.map (fun x => x.1.toList ++ x.2) ∧
      ∀ X ∈ Xs, Upper X.2 ∧ ∀ sep, X.1 = some sep → sep = 124 ∨ sep = 47 := by
  induction ws generalizing s with
  | nil =>
    rcases h.2 with h | h <;> (simp only [readTokens_nil] at h; rw [h] at hs; simp at hs)
  | cons w ws ih =>
    obtain ⟨hg, he⟩ := h.cons
    rw [rd_classMember _ _ _ hs, classMember] at hg he
    simp only at hg he
    by_cases h0 : w.2.headD 0 = 46
    · refine ⟨[], w.1, ws, ?_, [], rfl, by simp⟩
      have : w = (w.1, text ".") := Prod.ext rfl ((hp w (by simp)).single 46 (by simp) h0)
      rw [this]; rfl
    · rw [if_neg h0] at hg he
      by_cases hu : isUpper (w.2.headD 0) = true ∨ (w.2.headD 0 = 124 ∨ w.2.headD 0 = 47) ∧ isUpper ((w.2[1]?).getD 0) = true
      · rw [if_pos hu] at hg he
        obtain ⟨u, l, v, rfl, Xs, h1, h2⟩ := ih _ (by simp [upd_state, symNew_state, hs]) (fun w hw => hp w (by simp [hw])) hg
        obtain ⟨wl, x⟩ := w
        simp only at hu
        by_cases hux : Upper x
        · refine ⟨(wl, x) :: u, l, v, rfl, (none, x) :: Xs, by simp [h1], ?_⟩
          intro X hX
          rcases List.mem_cons.mp hX with rfl | hX
          · exact ⟨hux, by simp⟩
          · exact h2 X hX
        · rcases hu with hu | ⟨h3, h4⟩
          · exact absurd ((upper_iff x).mpr hu) hux
          · cases x with
            | nil => simp at h3
            | cons sep X =>
              refine ⟨(wl, sep :: X) :: u, l, v, rfl, (some sep, X) :: Xs, by simp [h1], ?_⟩
              intro Y hY
              rcases List.mem_cons.mp hY with rfl | hY
              · refine ⟨(upper_iff X).mpr ?_, fun s' hs' => ?_⟩
                · cases X with
                  | nil => simp [isUpper] at h4
                  | cons d t => simpa using h4
                · simp at hs'; subst hs'; simpa using h3
              · exact h2 Y hY
      · rw [if_neg hu] at he; simp [fail_errs] at he

/-! ### the right side of a rule -/

theorem rhs_conv (o : ROpts) (n : Nat) (ws : List (Nat × Word)) (hn : ws.length ≤ n) (s : RState) (hs : s.state = .IN_RHS) (hp : ∀ w ∈ ws, Punct w.2) (h : GoodRead o s ws) :
    ∃ (ps : List Post) (es : List Elem) (l : Nat) (u v : List (Nat × Word)), ws = u ++ (l, text ".") :: v ∧ (s.rhs = [] → ps = []) ∧ (∀ p ∈ ps, PostForm p) ∧ (∀ e ∈ es, Letter e.name ∧ ∀ p ∈ e.posts, PostForm p) ∧
      List.Forall₂ Is (ps.flatMap Post.words ++ es.flatMap Elem.words) u := by
  induction n generalizing ws s with
  | zero =>
    have : ws = [] := List.length_eq_zero_iff.mp (by omega)
    subst this
    rcases h.2 with h | h <;> (simp only [readTokens_nil] at h; rw [h] at hs; simp at hs)
  | succ n ih =>
    cases ws with
    | nil => rcases h.2 with h | h <;> (simp only [readTokens_nil] at h; rw [h] at hs; simp at hs)
    | cons w ws =>
      obtain ⟨wl, x⟩ := w
      obtain ⟨hg, he⟩ := h.cons
      simp only at hg he
      have hpx := hp _ (List.mem_cons_self ..)
      simp only at hpx
      have hp' : ∀ w ∈ ws, Punct w.2 := fun w hw => hp w (by simp [hw])
      have hlen : ws.length ≤ n := by simp at hn; omega
      rw [rd_rhs _ _ _ hs, rhsToken] at hg he
      simp only at hg he
      by_cases h0 : x.headD 0 = 46
      · refine ⟨[], [], wl, [], ws, ?_, fun _ => rfl, by simp, by simp, .nil⟩
        have := hpx.single 46 (by simp) h0
        rw [this]; rfl
      rw [if_neg h0] at hg he
      by_cases ha : isAlpha (x.headD 0) = true
      · rw [if_pos ha] at hg he
        by_cases hm : s.rhs.length ≥ MAXRHS
        · rw [if_pos hm] at he; simp [fail_errs] at he
        rw [if_neg hm] at hg he
        obtain ⟨ps, es, l, u, v, rfl, h1, h2, h3, h4⟩ := ih ws hlen _ (by simp [symNew_state, hs]) hp' hg
        refine ⟨[], ⟨x, ps⟩ :: es, l, (wl, x) :: u, v, rfl, fun _ => rfl, by simp, ?_, ?_⟩
        · intro e he'
          rcases List.mem_cons.mp he' with rfl | he'
          · exact ⟨(letter_iff x).mpr ha, h2⟩
          · exact h3 e he'
        · simp only [List.flatMap_nil, List.nil_append, List.flatMap_cons, Elem.words, List.cons_append]
          exact .cons ((is_any _ _).mpr rfl) h4
      rw [if_neg ha] at hg he
      rcases Option.eq_none_or_eq_some s.rhs.getLast? with hl | ⟨⟨m, a⟩, hl⟩
      · simp only [hl] at he; simp [fail_errs] at he
      simp only [hl] at hg he
      have hne : s.rhs ≠ [] := by rintro h; simp [h] at hl
      by_cases hc : (x.headD 0 = 124 ∨ x.headD 0 = 47) ∧ isUpper ((x[1]?).getD 0) = true
      · rw [if_pos hc] at hg he
        have hst : (altToken s wl x m a).state = .IN_RHS := by
          unfold altToken
          cases m with
          | sym y =>
            simp only
            split
            · split <;> simp [err_state, upd_state, symNew_state, hs]
            · split <;> simp [err_state, symNew_state, hs]
          | alts lst =>
            simp only
            split <;> simp [err_state, symNew_state, hs]
        obtain ⟨ps, es, l, u, v, rfl, h1, h2, h3, h4⟩ := ih ws hlen _ hst hp' hg
        obtain ⟨h5, h6⟩ := hc
        cases x with
        | nil => simp at h5
        | cons sep X =>
          refine ⟨.alt sep X :: ps, es, l, (wl, sep :: X) :: u, v, rfl, fun h => absurd h hne, ?_, h3, ?_⟩
          · intro p hp
            rcases List.mem_cons.mp hp with rfl | hp
            · refine ⟨by simpa using h5, (upper_iff X).mpr ?_⟩
              cases X with
              | nil => simp [isUpper] at h6
              | cons d t => simpa using h6
            · exact h2 p hp
          · simp only [List.flatMap_cons, Post.words, List.cons_append, List.nil_append]
            exact .cons ((is_any _ _).mpr rfl) h4
      rw [if_neg hc] at hg he
      by_cases h40 : x.headD 0 = 40
      · rw [if_pos h40] at hg he
        have hx := hpx.single 40 (by simp) h40
        obtain ⟨⟨l2, y⟩, ws, rfl⟩ := hg.ne_nil (by rintro (h | h) <;> simp [RState.goto] at h)
        obtain ⟨hg, he⟩ := hg.cons
        simp only at hg he
        rw [rd_rhsAlias1 o l2 y rfl, rhsAliasToken] at hg he
        have hl' : (s.goto .RHS_ALIAS_1).rhs.getLast? = some (m, a) := hl
        simp only [hl'] at hg he
        by_cases hy : isAlpha (y.headD 0) = true
        · rw [if_pos hy] at hg he
          obtain ⟨⟨l3, z⟩, ws, rfl⟩ := hg.ne_nil (by rintro (h | h) <;> simp at h)
          obtain ⟨hg, he⟩ := hg.cons
          simp only at hg he
          rw [rd_rhsAlias2 o l3 z rfl] at hg he
          by_cases hz : z.headD 0 = 41
          · rw [if_pos hz] at hg he
            have hz' := (hp (l3, z) (by simp)).single 41 (by simp) hz
            simp only at hz'
            obtain ⟨ps, es, l, u, v, rfl, h1, h2, h3, h4⟩ := ih ws (by simp at hlen; omega) _ rfl (fun w hw => hp w (by simp [hw])) hg
            refine ⟨.label y :: ps, es, l, (wl, x) :: (l2, y) :: (l3, z) :: u, v, rfl, fun h => absurd h hne, ?_, h3, ?_⟩
            · intro p hp
              rcases List.mem_cons.mp hp with rfl | hp
              · exact (letter_iff y).mpr hy
              · exact h2 p hp
            · simp only [List.flatMap_cons, Post.words, List.cons_append, List.nil_append]
              exact .cons ((is_any _ _).mpr hx) (.cons ((is_any _ _).mpr rfl) (.cons ((is_any _ _).mpr hz') h4))
          · rw [if_neg hz] at he; simp [fail_errs] at he
        · rw [if_neg hy] at he; simp [fail_errs] at he
      · rw [if_neg h40] at he; simp [fail_errs] at he

/-! ### items -/

theorem keyword_some (x : Word) (k : Keyword) (h : keyword x = some k) : (x, k) ∈ keywords := by
  unfold keyword at h
  rw [Option.map_eq_some_iff] at h
  obtain ⟨⟨y, k'⟩, h1, rfl⟩ := h
  have h2 := List.mem_of_find?_eq_some h1
  have h3 := List.find?_some h1
  simp only [beq_iff_eq] at h3
  subst h3
  exact h2

/-- the text of a keyword -/
def Keyword.spell : Keyword → Word
  | .arg k => text k.text.1 | .prec a => text (precKeyword a) | .destructor => text "destructor" | .type => text "type" | .fallback => text "fallback"
  | .token => text "token" | .wildcard => text "wildcard" | .tokenClass => text "token_class" | .yaccPrec => text "yacc_prec"

theorem keyword_text (x : Word) (k : Keyword) (h : keyword x = some k) : x = k.spell ∧ k ≠ .prec .UNK := by
  have h1 := keyword_some x k h
  have : ∀ p ∈ keywords, p.1 = p.2.spell ∧ p.2 ≠ .prec .UNK := by decide
  exact this _ h1

theorem kw_mem (k : Kw) : k.text.1 ∈ argKeywords.map Prod.fst := by cases k <;> decide

theorem item_conv (o : ROpts) (w : Nat × Word) (ws : List (Nat × Word)) (s : RState) (hs : s.between) (hp : ∀ y ∈ w :: ws, Punct y.2) (h : GoodRead o s (w :: ws)) :
    ∃ (it : Item) (u v : List (Nat × Word)), w :: ws = u ++ v ∧ u ≠ [] ∧ it.Form ∧ List.Forall₂ Is it.words u := by
  obtain ⟨wl, x⟩ := w
  obtain ⟨hg, he⟩ := h.cons
  have hpx := hp _ (List.mem_cons_self ..)
  have hp' : ∀ w ∈ ws, Punct w.2 := fun w hw => hp w (by simp [hw])
  simp only at hg he hpx
  rw [rd_begin _ _ _ hs, beginToken] at hg he
  simp only at hg he
  by_cases h37 : x.headD 0 = 37
  · -- a declaration
    rw [if_pos h37] at hg he
    have hx := hpx.single 37 (by simp) h37
    obtain ⟨⟨l2, y⟩, ws, rfl⟩ := hg.ne_nil (by rintro (h | h) <;> simp [RState.goto] at h)
    obtain ⟨hg, he⟩ := hg.cons
    simp only at hg he
    rw [rd_keyword o l2 y rfl, keywordToken] at hg he
    by_cases hy : isAlpha (y.headD 0) = true
    swap
    · rw [if_neg hy] at he; simp [fail_errs] at he
    rw [if_pos hy] at hg he
    have hpw : ∀ w ∈ ws, Punct w.2 := fun w hw => hp' w (by simp [hw])
    rcases Option.eq_none_or_eq_some (keyword y) with hk | ⟨k, hk⟩
    · simp only [hk] at he; simp [fail_errs] at he
    obtain ⟨hky, hku⟩ := keyword_text y k hk
    simp only [hk] at hg he
    have i1 : Is (any (text "%")) (wl, x) := (is_any _ _).mpr hx
    have list : ∀ it : List Word → Item, ∀ kw : String, y = text kw → (∀ Xs, (it Xs).words = [any (text "%"), any (text kw)] ++ Xs.map any ++ [any (text ".")]) →
        (∀ Xs : List Word, (∀ X ∈ Xs, Upper X) → (it Xs).Form) → (∃ u l v, ws = u ++ (l, text ".") :: v ∧ ∀ w ∈ u, Upper w.2) →
        ∃ (it : Item) (u v : List (Nat × Word)), (wl, x) :: (l2, y) :: ws = u ++ v ∧ u ≠ [] ∧ it.Form ∧ List.Forall₂ Is it.words u := by
      rintro it kw hkw hws hf ⟨u, l, v, rfl, hu⟩
      refine ⟨it (u.map Prod.snd), (wl, x) :: (l2, y) :: (u ++ [(l, text ".")]), v, by simp, by simp, hf _ ?_, ?_⟩
      · intro X hX; simp only [List.mem_map] at hX; obtain ⟨w, hw, rfl⟩ := hX; exact hu w hw
      · rw [hws]
        simp only [List.cons_append, List.nil_append]
        refine .cons i1 (.cons ((is_any _ _).mpr hkw) (List.rel_append ((forall₂_any _ _).mpr rfl) (.cons ((is_any _ _).mpr rfl) .nil)))
    cases k with
    | arg k =>
      obtain ⟨⟨l3, z⟩, ws, rfl⟩ := hg.ne_nil (by rintro (h | h) <;> simp at h)
      obtain ⟨hg, he⟩ := hg.cons
      simp only at hg he
      rw [rd_arg o l3 z rfl, argToken] at he
      simp only at he
      by_cases hz : z.headD 0 = 123 ∨ z.headD 0 = 34 ∨ isAlnum (z.headD 0) = true
      · refine ⟨.arg k.text.1 z l3, [(wl, x), (l2, y), (l3, z)], ws, rfl, by simp, ⟨kw_mem k, (argument_iff z).mpr hz⟩, ?_⟩
        exact .cons i1 (.cons ((is_any _ _).mpr hky) (.cons ((is_line _ _ _).mpr rfl) .nil))
      · rw [if_neg hz] at he; simp [fail_errs] at he
    | prec a =>
      refine list (.prec a) (precKeyword a) hky (fun _ => rfl) (fun Xs h => ⟨fun ha => hku (by rw [ha]), h⟩) ?_
      exact list_conv o ws _ (.inl rfl) hpw hg
    | destructor =>
      obtain ⟨⟨l3, z⟩, ws, rfl⟩ := hg.ne_nil (by rintro (h | h) <;> simp at h)
      obtain ⟨hg, he⟩ := hg.cons
      simp only at hg he
      rw [rd_destructor o l3 z rfl, destructorToken] at hg he
      by_cases hz : isAlpha (z.headD 0) = true
      · rw [if_neg (by rw [hz]; simp)] at hg he
        obtain ⟨⟨l4, a⟩, ws, rfl⟩ := hg.ne_nil (by rintro (h | h) <;> simp at h)
        obtain ⟨hg, he⟩ := hg.cons
        simp only at hg he
        rw [rd_arg o l4 a rfl, argToken] at he
        simp only at he
        by_cases ha : a.headD 0 = 123 ∨ a.headD 0 = 34 ∨ isAlnum (a.headD 0) = true
        · refine ⟨.destructor z a l4, [(wl, x), (l2, y), (l3, z), (l4, a)], ws, rfl, by simp, ⟨(letter_iff z).mpr hz, (argument_iff a).mpr ha⟩, ?_⟩
          exact .cons i1 (.cons ((is_any _ _).mpr hky) (.cons ((is_any _ _).mpr rfl) (.cons ((is_line _ _ _).mpr rfl) .nil)))
        · rw [if_neg ha] at he; simp [fail_errs] at he
      · rw [if_pos (by simpa using hz)] at he; simp [fail_errs] at he
    | type =>
      obtain ⟨⟨l3, z⟩, ws, rfl⟩ := hg.ne_nil (by rintro (h | h) <;> simp at h)
      obtain ⟨hg, he⟩ := hg.cons
      simp only at hg he
      rw [rd_datatype o l3 z rfl, datatypeToken] at hg he
      by_cases hz : isAlpha (z.headD 0) = true
      · rw [if_neg (by rw [hz]; simp)] at hg he
        split at he
        · simp [fail_errs] at he
        next hd =>
        rw [if_neg hd] at hg
        obtain ⟨⟨l4, a⟩, ws, rfl⟩ := hg.ne_nil (by rintro (h | h) <;> simp at h)
        obtain ⟨hg, he⟩ := hg.cons
        simp only at hg he
        rw [rd_arg o l4 a rfl, argToken] at he
        simp only at he
        by_cases ha : a.headD 0 = 123 ∨ a.headD 0 = 34 ∨ isAlnum (a.headD 0) = true
        · refine ⟨.type z a l4, [(wl, x), (l2, y), (l3, z), (l4, a)], ws, rfl, by simp, ⟨(letter_iff z).mpr hz, (argument_iff a).mpr ha⟩, ?_⟩
          exact .cons i1 (.cons ((is_any _ _).mpr hky) (.cons ((is_any _ _).mpr rfl) (.cons ((is_line _ _ _).mpr rfl) .nil)))
        · rw [if_neg ha] at he; simp [fail_errs] at he
      · rw [if_pos (by simpa using hz)] at he; simp [fail_errs] at he
    | fallback =>
      refine list .fallback "fallback" hky (fun _ => rfl) (fun Xs h => h) ?_
      exact list_conv o ws _ (.inr (.inl rfl)) hpw hg
    | token =>
      refine list .token "token" hky (fun _ => rfl) (fun Xs h => h) ?_
      exact list_conv o ws _ (.inr (.inr (.inl rfl))) hpw hg
    | wildcard =>
      refine list .wildcard "wildcard" hky (fun _ => rfl) (fun Xs h => h) ?_
      exact list_conv o ws _ (.inr (.inr (.inr rfl))) hpw hg
    | tokenClass =>
      obtain ⟨⟨l3, c⟩, ws, rfl⟩ := hg.ne_nil (by rintro (h | h) <;> simp at h)
      obtain ⟨hg, he⟩ := hg.cons
      simp only at hg he
      rw [rd_class o l3 c rfl, classToken] at hg he
      by_cases hc : isLower (c.headD 0) = true
      swap
      · rw [if_pos (by simpa using hc)] at he; simp [fail_errs] at he
      rw [if_neg (by rw [hc]; simp)] at hg he
      split at he
      · simp [fail_errs] at he
      next hd =>
      rw [if_neg hd] at hg
      obtain ⟨u, l, v, rfl, Xs, h1, h2⟩ := class_conv o ws _ rfl (fun w hw => hpw w (by simp [hw])) hg
      refine ⟨.tokenClass c Xs, (wl, x) :: (l2, y) :: (l3, c) :: (u ++ [(l, text ".")]), v, by simp, by simp, ⟨(lower_iff c).mpr hc, h2⟩, ?_⟩
      simp only [Item.words, List.cons_append, List.nil_append]
      refine .cons i1 (.cons ((is_any _ _).mpr hky) (.cons ((is_any _ _).mpr rfl) (List.rel_append ?_ (.cons ((is_any _ _).mpr rfl) .nil))))
      have := (forall₂_any _ _).mpr h1
      rwa [List.map_map] at this
    | yaccPrec =>
      exact ⟨.yaccPrec, [(wl, x), (l2, y)], ws, rfl, by simp, trivial, .cons i1 (.cons ((is_any _ _).mpr hky) .nil)⟩
  rw [if_neg h37] at hg he
  by_cases hlo : isLower (x.headD 0) = true
  · -- a rule
    rw [if_pos hlo] at hg he
    have fin : ∀ (a : Option Word) (q : List (Nat × Word)) (l2 : Nat) (y : Word) (ws' : List (Nat × Word)) (s' : RState), ws = q ++ (l2, y) :: ws' → isArrow y = true → (∀ z, a = some z → Letter z) →
        List.Forall₂ Is (match a with | none => [] | some a => [any (text "("), any a, any (text ")")]) q → s'.state = .IN_RHS → s'.rhs = [] → GoodRead o s' ws' →
        ∃ (it : Item) (u v : List (Nat × Word)), (wl, x) :: ws = u ++ v ∧ u ≠ [] ∧ it.Form ∧ List.Forall₂ Is it.words u := by
      intro a q l2 y ws' s' hws hy ha hq hst hrh hg'
      subst hws
      obtain ⟨ps, es, l, u, v, rfl, h1, h2, h3, h4⟩ := rhs_conv o _ ws' le_rfl s' hst (fun w hw => hp' w (by simp [hw])) hg'
      rw [h1 hrh] at h4
      have hy' := (hp' (l2, y) (by simp)).arrow hy
      simp only at hy'
      refine ⟨.rule x a es l, (wl, x) :: (q ++ (l2, y) :: (u ++ [(l, text ".")])), v, by simp, by simp, ⟨(lower_iff x).mpr hlo, ha, fun e he => ⟨(h3 e he).1, fun p hp => ?_⟩⟩, ?_⟩
      · have := (h3 e he).2 p hp
        cases p <;> exact this
      · simp only [Item.words, List.cons_append, List.nil_append, List.append_assoc]
        refine .cons ((is_any _ _).mpr rfl) (List.rel_append hq (.cons ((is_any _ _).mpr hy') (List.rel_append ?_ (.cons ((is_line _ _ _).mpr rfl) .nil))))
        simpa using h4
    obtain ⟨⟨l2, y⟩, ws', rfl⟩ := hg.ne_nil (by rintro (h | h) <;> simp at h)
    obtain ⟨hg, he⟩ := hg.cons
    simp only at hg he
    rw [rd_arrow o l2 y rfl] at hg he
    by_cases hy : isArrow y = true
    · rw [if_pos hy] at hg he
      exact fin none [] l2 y ws' _ rfl hy (by simp) .nil rfl rfl hg
    rw [if_neg hy] at hg he
    by_cases h40 : y.headD 0 = 40
    · rw [if_pos h40] at hg he
      have hy' := (hp' (l2, y) (by simp)).single 40 (by simp) h40
      simp only at hy'
      obtain ⟨⟨l3, z⟩, ws', rfl⟩ := hg.ne_nil (by rintro (h | h) <;> simp [RState.goto] at h)
      obtain ⟨hg, he⟩ := hg.cons
      simp only at hg he
      rw [rd_lhs1 o l3 z rfl] at hg he
      by_cases hz : isAlpha (z.headD 0) = true
      · rw [if_pos hz] at hg he
        obtain ⟨⟨l4, p⟩, ws', rfl⟩ := hg.ne_nil (by rintro (h | h) <;> simp at h)
        obtain ⟨hg, he⟩ := hg.cons
        simp only at hg he
        rw [rd_lhs2 o l4 p rfl] at hg he
        by_cases hpp : p.headD 0 = 41
        · rw [if_pos hpp] at hg he
          have hp41 := (hp' (l4, p) (by simp)).single 41 (by simp) hpp
          simp only at hp41
          obtain ⟨⟨l5, q⟩, ws', rfl⟩ := hg.ne_nil (by rintro (h | h) <;> simp [RState.goto] at h)
          obtain ⟨hg, he⟩ := hg.cons
          simp only at hg he
          rw [rd_lhs3 o l5 q rfl] at hg he
          by_cases hq : isArrow q = true
          · rw [if_pos hq] at hg he
            refine fin (some z) [(l2, y), (l3, z), (l4, p)] l5 q ws' _ rfl hq ?_ ?_ rfl rfl hg
            · intro z' hz'; simp at hz'; subst hz'; exact (letter_iff z).mpr hz
            · exact .cons ((is_any _ _).mpr hy') (.cons ((is_any _ _).mpr rfl) (.cons ((is_any _ _).mpr hp41) .nil))
          · rw [if_neg hq] at he; simp [fail_errs] at he
        · rw [if_neg hpp] at he; simp [fail_errs] at he
      · rw [if_neg hz] at he; simp [fail_errs] at he
    · rw [if_neg h40] at he; simp [fail_errs] at he
  rw [if_neg hlo] at hg he
  by_cases h123 : x.headD 0 = 123
  · cases x with
    | nil => simp at h123
    | cons c t =>
      simp at h123
      subst h123
      exact ⟨.code t wl, [(wl, 123 :: t)], ws, rfl, by simp, trivial, .cons ((is_line _ _ _).mpr rfl) .nil⟩
  rw [if_neg h123] at hg he
  by_cases h91 : x.headD 0 = 91
  · rw [if_pos h91] at hg he
    have hx := hpx.single 91 (by simp) h91
    obtain ⟨⟨l2, y⟩, ws, rfl⟩ := hg.ne_nil (by rintro (h | h) <;> simp [RState.goto] at h)
    obtain ⟨hg, he⟩ := hg.cons
    simp only at hg he
    rw [rd_mark1 o l2 y rfl, markToken] at hg he
    by_cases hu : isUpper (y.headD 0) = true
    swap
    · simp only [hu] at he; simp [err_errs, goto_errs] at he
    obtain ⟨⟨l3, z⟩, ws, rfl⟩ := hg.ne_nil (by rintro (h | h) <;> simp [RState.goto] at h)
    obtain ⟨hg, he⟩ := hg.cons
    simp only at hg he
    rw [rd_mark2 o l3 z rfl] at he
    by_cases hz : z.headD 0 = 93
    · have hz' := (hp' (l3, z) (by simp)).single 93 (by simp) hz
      simp only at hz'
      exact ⟨.mark y, [(wl, x), (l2, y), (l3, z)], ws, rfl, by simp, (upper_iff y).mpr hu,
        .cons ((is_any _ _).mpr hx) (.cons ((is_any _ _).mpr rfl) (.cons ((is_any _ _).mpr hz') .nil))⟩
    · have hz2 : z.headD 0 ≠ 93 := hz
      rw [if_pos hz2] at he
      simp [err_errs, goto_errs] at he
  rw [if_neg h91] at he
  simp [err_errs] at he

end Verif.Lemon
