import Verif.Proofs.LemonRead
/-
Helper lemmas for C72: lists of tokens in declarations.
-/
set_option autoImplicit false
namespace Verif.Lemon
open Verif.Spec.GFile

theorem upper_iff (x : Word) : Upper x ↔ isUpper (x.headD 0) = true := by
  cases x with
  | nil => simp [isUpper, Upper]
  | cons c t => simp [isUpper, Upper]
theorem lower_iff (x : Word) : Lower x ↔ isLower (x.headD 0) = true := by
  cases x with
  | nil => simp [isLower, Lower]
  | cons c t => simp [isLower, Lower]
theorem letter_iff (x : Word) : Letter x ↔ isAlpha (x.headD 0) = true := by
  cases x with
  | nil => simp [isAlpha, Letter, Upper, Lower]
  | cons c t => simp [isAlpha, Letter, Upper, Lower]
theorem argument_iff (x : Word) : Argument x ↔ (x.headD 0 = 123 ∨ x.headD 0 = 34 ∨ isAlnum (x.headD 0) = true) := by
  cases x with
  | nil => simp [isAlnum, isAlpha, Argument, Letter, Upper, Lower]
  | cons c t => simp [isAlnum, isAlpha, Argument, Letter, Upper, Lower]; omega
theorem upper_ne {x : Word} (h : Upper x) (c : Nat) (hc : c < 65 ∨ 90 < c) : x.headD 0 ≠ c := by
  obtain ⟨d, t, rfl, h⟩ := h; simp; omega
theorem lower_ne {x : Word} (h : Lower x) (c : Nat) (hc : c < 97 ∨ 122 < c) : x.headD 0 ≠ c := by
  obtain ⟨d, t, rfl, h⟩ := h; simp; omega
theorem upper_not_lower {x : Word} (h : Upper x) : ¬ Lower x := by
  obtain ⟨d, t, rfl, h⟩ := h; rintro ⟨e, u, h1, h2⟩; simp at h1; omega

section
variable {s : RState} (o : ROpts) (l : Nat) (x : Word)
theorem rd_prec (h : s.state = .WAITING_FOR_PRECEDENCE_SYMBOL) : readToken o s l x = precToken o s l x := by
  unfold readToken; rw [h]
theorem rd_fallback (h : s.state = .WAITING_FOR_FALLBACK_ID) : readToken o s l x = fallbackToken s l x := by
  unfold readToken; rw [h]
theorem rd_token (h : s.state = .WAITING_FOR_TOKEN_NAME) : readToken o s l x = tokenToken s l x := by
  unfold readToken; rw [h]
theorem rd_wildcard (h : s.state = .WAITING_FOR_WILDCARD_ID) : readToken o s l x = wildcardToken s l x := by
  unfold readToken; rw [h]
theorem rd_classMember (h : s.state = .WAITING_FOR_CLASS_TOKEN) : readToken o s l x = classMember s l x := by
  unfold readToken; rw [h]
theorem rd_class (h : s.state = .WAITING_FOR_CLASS_ID) : readToken o s l x = classToken s l x := by
  unfold readToken; rw [h]
theorem rd_arg (h : s.state = .WAITING_FOR_DECL_ARG) : readToken o s l x = argToken o s l x := by
  unfold readToken; rw [h]
theorem rd_datatype (h : s.state = .WAITING_FOR_DATATYPE_SYMBOL) : readToken o s l x = datatypeToken s l x := by
  unfold readToken; rw [h]
theorem rd_destructor (h : s.state = .WAITING_FOR_DESTRUCTOR_SYMBOL) : readToken o s l x = destructorToken s l x := by
  unfold readToken; rw [h]
theorem rd_keyword (h : s.state = .WAITING_FOR_DECL_KEYWORD) : readToken o s l x = keywordToken s l x := by
  unfold readToken; rw [h]
theorem rd_rhsAlias1 (h : s.state = .RHS_ALIAS_1) : readToken o s l x = rhsAliasToken s l x := by
  unfold readToken; rw [h]
theorem rd_rhs (h : s.state = .IN_RHS) : readToken o s l x = rhsToken s l x := by
  unfold readToken; rw [h]
theorem rd_mark1 (h : s.state = .PRECEDENCE_MARK_1) : readToken o s l x = markToken o s l x := by
  unfold readToken; rw [h]
theorem rd_mark2 (h : s.state = .PRECEDENCE_MARK_2) : readToken o s l x = (if x.headD 0 ≠ 93 then s.err l .noBracket else s).goto .WAITING_FOR_DECL_OR_RULE := by
  unfold readToken; rw [h]
theorem rd_arrow (h : s.state = .WAITING_FOR_ARROW) : readToken o s l x = if isArrow x then s.goto .IN_RHS else if x.headD 0 = 40 then s.goto .LHS_ALIAS_1 else s.fail l (.noColon s.lhs) .RESYNC_AFTER_RULE_ERROR := by
  unfold readToken; rw [h]
theorem rd_lhs1 (h : s.state = .LHS_ALIAS_1) : readToken o s l x = if isAlpha (x.headD 0) then { s with lhsalias := some x, state := .LHS_ALIAS_2 } else s.fail l (.badLhsAlias x s.lhs) .RESYNC_AFTER_RULE_ERROR := by
  unfold readToken; rw [h]
theorem rd_lhs2 (h : s.state = .LHS_ALIAS_2) : readToken o s l x = if x.headD 0 = 41 then s.goto .LHS_ALIAS_3 else s.fail l (.noLhsParen s.lhsalias) .RESYNC_AFTER_RULE_ERROR := by
  unfold readToken; rw [h]
theorem rd_lhs3 (h : s.state = .LHS_ALIAS_3) : readToken o s l x = if isArrow x then s.goto .IN_RHS else s.fail l (.noArrow s.lhs s.lhsalias) .RESYNC_AFTER_RULE_ERROR := by
  unfold readToken; rw [h]
theorem rd_rhsAlias2 (h : s.state = .RHS_ALIAS_2) : readToken o s l x = if x.headD 0 = 41 then s.goto .IN_RHS else s.fail l (.noRhsParen s.lhsalias) .RESYNC_AFTER_RULE_ERROR := by
  unfold readToken; rw [h]
theorem rd_begin (h : s.between) : readToken o s l x = beginToken s l x := by
  rcases h with h | h <;> (unfold readToken; rw [h])
end

/-- `%left` and so on -/
theorem precLoop (o : Opts) (hu : o.ignorePrec = false) (ws : List (Nat × Word)) (s : RState) (ns : List Word) (f : Word → Sym) (h : Rep s ns f)
    (hst : s.state = .WAITING_FOR_PRECEDENCE_SYMBOL) (hU : ∀ w ∈ ws, Upper w.2) :
    ((readTokens (ropts o) s ws).errs = [] → (ws.map Prod.snd).Nodup ∧ ∀ X ∈ ws.map Prod.snd, (f X).prec < 0) ∧
    ((ws.map Prod.snd).Nodup ∧ (∀ X ∈ ws.map Prod.snd, (f X).prec < 0) → readTokens (ropts o) s ws =
      { s with syms := (adds ns (ws.map Prod.snd)).map fun y => if y ∈ ws.map Prod.snd then { f y with prec := s.preccounter, assoc := s.declassoc } else f y }) := by
  induction ws generalizing s ns f with
  | nil =>
    refine ⟨fun _ => by simp, fun _ => ?_⟩
    simp [readTokens_nil, adds, ← h.syms]
  | cons w ws ih =>
    have hX : Upper w.2 := hU w (by simp)
    have h1 := upper_ne hX 46 (by omega)
    have h2 := (upper_iff _).mp hX
    have hr : readToken (ropts o) s w.1 w.2 =
        if (f w.2).prec ≥ 0 then ({ s with syms := (ins ns w.2).map f }).err w.1 (.precDefined w.2)
        else { s with syms := (ins ns w.2).map fun y => if y = w.2 then { f y with prec := s.preccounter, assoc := s.declassoc } else f y } := by
      rw [rd_prec _ _ _ hst]
      simp only [precToken, h1, if_false, h2, if_true, ropts, hu, Bool.false_eq_true]
      rw [h.symNew_eq]
      have h' := h.ins w.2 { s with syms := (ins ns w.2).map f } rfl
      rw [h'.sym]
      split
      · rfl
      · rw [h'.upd_eq]
    rw [readTokens_cons, hr]
    by_cases hp : (f w.2).prec ≥ 0
    · rw [if_pos hp]
      constructor
      · intro he
        have := errs_nil_of _ _ _ he
        simp [err_errs] at this
      · rintro ⟨_, h4⟩
        have := h4 w.2 (by simp)
        omega
    · rw [if_neg hp]
      have h' := h.ins w.2 { s with syms := (ins ns w.2).map f } rfl
      have h'' := h'.change ((mem_ins _ _ _).mpr (.inr rfl)) (fun y => { y with prec := s.preccounter, assoc := s.declassoc }) (fun y => rfl)
        { s with syms := (ins ns w.2).map fun y => if y = w.2 then { f y with prec := s.preccounter, assoc := s.declassoc } else f y } rfl
      obtain ⟨i1, i2⟩ := ih _ _ _ h'' hst (fun v hv => hU v (by simp [hv]))
      constructor
      · intro he
        obtain ⟨j1, j2⟩ := i1 he
        have hn : w.2 ∉ ws.map Prod.snd := by
          intro hm
          have := j2 _ hm
          simp at this
          omega
        refine ⟨List.nodup_cons.mpr ⟨hn, j1⟩, fun X hX => ?_⟩
        simp only [List.map_cons, List.mem_cons] at hX
        rcases hX with rfl | hX
        · omega
        · have := j2 X hX
          rw [if_neg (by rintro rfl; exact hn hX)] at this
          exact this
      · rintro ⟨j1, j2⟩
        rw [List.map_cons, List.nodup_cons] at j1
        rw [i2 ⟨j1.2, fun X hX => by
          rw [if_neg (by rintro rfl; exact j1.1 hX)]
          exact j2 X (by simp [hX])⟩]
        simp only [List.map_cons, adds_cons, RState.mk.injEq, true_and, and_true]
        apply List.map_congr_left
        intro y _
        by_cases hy : y = w.2
        · subst hy
          have := j1.1
          simp only [List.mem_cons, this, or_false, if_true, if_false]
        · by_cases hm : y ∈ ws.map Prod.snd <;> simp only [List.mem_cons, hy, false_or, hm, if_true, if_false]

/-- `%left` and so on with option `-u` -/
theorem precLoop_u (o : Opts) (hu : o.ignorePrec = true) (ws : List (Nat × Word)) (s : RState)
    (hst : s.state = .WAITING_FOR_PRECEDENCE_SYMBOL) (hU : ∀ w ∈ ws, Upper w.2) : readTokens (ropts o) s ws = s := by
  induction ws with
  | nil => rfl
  | cons w ws ih =>
    have hX : Upper w.2 := hU w (by simp)
    have h1 := upper_ne hX 46 (by omega)
    have h2 := (upper_iff _).mp hX
    have hr : readToken (ropts o) s w.1 w.2 = s := by
      rw [rd_prec _ _ _ hst]
      simp only [precToken, h1, if_false, h2, if_true, ropts, hu]
    rw [readTokens_cons, hr]
    exact ih fun v hv => hU v (by simp [hv])

/-- `%fallback`, after the first token -/
theorem fallbackLoop (o : Opts) (ws : List (Nat × Word)) (s : RState) (ns : List Word) (f : Word → Sym) (h : Rep s ns f) (t : Word)
    (ht : s.fallback = some t) (hst : s.state = .WAITING_FOR_FALLBACK_ID) (hU : ∀ w ∈ ws, Upper w.2) :
    ((readTokens (ropts o) s ws).errs = [] → (ws.map Prod.snd).Nodup ∧ ∀ X ∈ ws.map Prod.snd, (f X).fallback = none) ∧
    ((ws.map Prod.snd).Nodup ∧ (∀ X ∈ ws.map Prod.snd, (f X).fallback = none) → readTokens (ropts o) s ws =
      { s with syms := (adds ns (ws.map Prod.snd)).map fun y => if y ∈ ws.map Prod.snd then { f y with fallback := some t } else f y }) := by
  induction ws generalizing s ns f with
  | nil =>
    refine ⟨fun _ => by simp, fun _ => ?_⟩
    simp [readTokens_nil, adds, ← h.syms]
  | cons w ws ih =>
    have hX : Upper w.2 := hU w (by simp)
    have h1 := upper_ne hX 46 (by omega)
    have h2 := (upper_iff _).mp hX
    have hr : readToken (ropts o) s w.1 w.2 =
        if (f w.2).fallback.isSome then ({ s with syms := (ins ns w.2).map f }).err w.1 (.secondFallback w.2)
        else { s with syms := (ins ns w.2).map fun y => if y = w.2 then { f y with fallback := some t } else f y } := by
      rw [rd_fallback _ _ _ hst]
      simp only [fallbackToken, h1, if_false, h2, Bool.not_true, Bool.false_eq_true, ht]
      rw [h.symNew_eq]
      have h' := h.ins w.2 { s with syms := (ins ns w.2).map f } rfl
      rw [h'.sym]
      split
      · simp only [ht]
      · rw [h'.upd_eq]; simp only [ht]
    rw [readTokens_cons, hr]
    by_cases hp : (f w.2).fallback.isSome
    · rw [if_pos hp]
      constructor
      · intro he
        have := errs_nil_of _ _ _ he
        simp [err_errs] at this
      · rintro ⟨_, h4⟩
        have := h4 w.2 (by simp)
        simp [this] at hp
    · rw [if_neg hp]
      have h' := h.ins w.2 { s with syms := (ins ns w.2).map f } rfl
      have h'' := h'.change ((mem_ins _ _ _).mpr (.inr rfl)) (fun y => { y with fallback := some t }) (fun y => rfl)
        { s with syms := (ins ns w.2).map fun y => if y = w.2 then { f y with fallback := some t } else f y } rfl
      obtain ⟨i1, i2⟩ := ih _ _ _ h'' ht hst (fun v hv => hU v (by simp [hv]))
      constructor
      · intro he
        obtain ⟨j1, j2⟩ := i1 he
        have hn : w.2 ∉ ws.map Prod.snd := by
          intro hm
          have := j2 _ hm
          simp at this
        refine ⟨List.nodup_cons.mpr ⟨hn, j1⟩, fun X hX => ?_⟩
        simp only [List.map_cons, List.mem_cons] at hX
        rcases hX with rfl | hX
        · simpa using hp
        · have := j2 X hX
          rw [if_neg (by rintro rfl; exact hn hX)] at this
          exact this
      · rintro ⟨j1, j2⟩
        rw [List.map_cons, List.nodup_cons] at j1
        rw [i2 ⟨j1.2, fun X hX => by
          rw [if_neg (by rintro rfl; exact j1.1 hX)]
          exact j2 X (by simp [hX])⟩]
        simp only [List.map_cons, adds_cons, RState.mk.injEq, true_and, and_true]
        apply List.map_congr_left
        intro y _
        by_cases hy : y = w.2
        · subst hy
          have := j1.1
          simp only [List.mem_cons, this, or_false, if_true, if_false]
        · by_cases hm : y ∈ ws.map Prod.snd <;> simp only [List.mem_cons, hy, false_or, hm, if_true, if_false]

/-- `%token` -/
theorem tokenLoop (o : Opts) (ws : List (Nat × Word)) (s : RState) (ns : List Word) (f : Word → Sym) (h : Rep s ns f)
    (hst : s.state = .WAITING_FOR_TOKEN_NAME) (hU : ∀ w ∈ ws, Upper w.2) :
    readTokens (ropts o) s ws = { s with syms := (adds ns (ws.map Prod.snd)).map f } := by
  induction ws generalizing s ns with
  | nil => simp [readTokens_nil, adds, ← h.syms]
  | cons w ws ih =>
    have hX : Upper w.2 := hU w (by simp)
    have h1 := upper_ne hX 46 (by omega)
    have h2 := (upper_iff _).mp hX
    have hr : readToken (ropts o) s w.1 w.2 = { s with syms := (ins ns w.2).map f } := by
      rw [rd_token _ _ _ hst]
      simp only [tokenToken, h1, if_false, h2, Bool.not_true, Bool.false_eq_true]
      rw [h.symNew_eq]
    rw [readTokens_cons, hr]
    exact ih _ _ (h.ins w.2 _ rfl) hst fun v hv => hU v (by simp [hv])

/-- `%wildcard` -/
theorem wildcardLoop (o : Opts) (ws : List (Nat × Word)) (s : RState) (ns : List Word) (f : Word → Sym) (h : Rep s ns f)
    (hst : s.state = .WAITING_FOR_WILDCARD_ID) (hU : ∀ w ∈ ws, Upper w.2) :
    ((readTokens (ropts o) s ws).errs = [] → ws.length + (if s.wildcard.isSome then 1 else 0) ≤ 1) ∧
    (ws.length + (if s.wildcard.isSome then 1 else 0) ≤ 1 → readTokens (ropts o) s ws =
      { s with syms := (adds ns (ws.map Prod.snd)).map f, wildcard := s.wildcard.or (ws.map Prod.snd).head? }) := by
  induction ws generalizing s ns with
  | nil =>
    refine ⟨fun _ => by simp; split <;> omega, fun _ => ?_⟩
    simp [readTokens_nil, adds, ← h.syms]
  | cons w ws ih =>
    have hX : Upper w.2 := hU w (by simp)
    have h1 := upper_ne hX 46 (by omega)
    have h2 := (upper_iff _).mp hX
    cases hw : s.wildcard with
    | some v =>
      have hr : readToken (ropts o) s w.1 w.2 = ({ s with syms := (ins ns w.2).map f }).err w.1 (.secondWildcard w.2) := by
        rw [rd_wildcard _ _ _ hst]
        simp only [wildcardToken, h1, if_false, h2, Bool.not_true, Bool.false_eq_true, hw]
        rw [h.symNew_eq]; simp only [hw]
      rw [readTokens_cons, hr]
      constructor
      · intro he
        have := errs_nil_of _ _ _ he
        simp [err_errs] at this
      · intro h4; simp at h4
    | none =>
      have hr : readToken (ropts o) s w.1 w.2 = { s with syms := (ins ns w.2).map f, wildcard := some w.2 } := by
        rw [rd_wildcard _ _ _ hst]
        simp only [wildcardToken, h1, if_false, h2, Bool.not_true, Bool.false_eq_true, hw]
        rw [h.symNew_eq]
      rw [readTokens_cons, hr]
      obtain ⟨i1, i2⟩ := ih { s with syms := (ins ns w.2).map f, wildcard := some w.2 } _ (h.ins w.2 _ rfl) hst (fun v hv => hU v (by simp [hv]))
      constructor
      · intro he
        have := i1 he
        simpa using this
      · intro h4
        rw [i2 (by simpa using h4)]
        simp [adds_cons]

/-- `%token_class` -/
theorem classLoop (o : Opts) (Xs : List (Option Nat × Word)) (ws : List (Nat × Word)) (s : RState) (ns : List Word) (f : Word → Sym) (h : Rep s ns f)
    (hc : s.tkclass ∈ ns) (hst : s.state = .WAITING_FOR_CLASS_TOKEN) (hws : ws.map Prod.snd = Xs.map fun x => x.1.toList ++ x.2)
    (hU : ∀ X ∈ Xs, Upper X.2 ∧ ∀ sep, X.1 = some sep → sep = 124 ∨ sep = 47) :
    readTokens (ropts o) s ws =
      { s with syms := (adds ns (Xs.map Prod.snd)).map fun y => if y = s.tkclass then { f y with subsym := (f y).subsym ++ Xs.map Prod.snd } else f y } := by
  induction ws generalizing s ns f Xs with
  | nil =>
    obtain rfl : Xs = [] := by simpa using hws.symm
    simp only [readTokens_nil, adds, List.map_nil, List.foldl_nil, List.append_nil, ite_self, ← h.syms]
  | cons w ws ih =>
    obtain ⟨⟨sep, X⟩, Xs, rfl⟩ : ∃ x Xs', Xs = x :: Xs' := by
      cases Xs with
      | nil => simp at hws
      | cons x Xs => exact ⟨_, _, rfl⟩
    simp only [List.map_cons, List.cons.injEq] at hws
    obtain ⟨hw, hws⟩ := hws
    obtain ⟨hX, hsep⟩ := hU (sep, X) (by simp)
    dsimp only at hX hsep hw
    have hr : readToken (ropts o) s w.1 w.2 =
        { s with syms := (ins ns X).map fun y => if y = s.tkclass then { f y with subsym := (f y).subsym ++ [X] } else f y } := by
      have h2 := (upper_iff _).mp hX
      have key : (if isUpper (w.2.headD 0) = true then w.2 else w.2.drop 1) = X ∧ w.2.headD 0 ≠ 46 ∧
          (isUpper (w.2.headD 0) = true ∨ ((w.2.headD 0 = 124 ∨ w.2.headD 0 = 47) ∧ isUpper (w.2[1]?.getD 0) = true)) := by
        rw [hw]
        cases sep with
        | none => simp only [Option.toList_none, List.nil_append, h2, if_true, true_or, and_true, true_and]; exact upper_ne hX 46 (by omega)
        | some sep =>
          obtain ⟨c, t, rfl, hc1, hc2⟩ := hX
          have := hsep sep rfl
          have h0 : isUpper sep = false := by simp [isUpper]; omega
          have h3 : isUpper c = true := by simpa using h2
          simp [h0, h3, this]; omega
      obtain ⟨k1, k2, k3⟩ := key
      rw [rd_classMember _ _ _ hst]
      simp only [classMember, k1, k2, if_false, if_pos k3]
      rw [h.symNew_eq]
      have h' := h.ins X { s with syms := (ins ns X).map f } rfl
      rw [h'.upd_eq]
    rw [readTokens_cons, hr]
    have h' := h.ins X { s with syms := (ins ns X).map f } rfl
    have h'' := h'.change ((mem_ins _ _ _).mpr (.inl hc)) (fun y => { y with subsym := y.subsym ++ [X] }) (fun y => rfl)
      { s with syms := (ins ns X).map fun y => if y = s.tkclass then { f y with subsym := (f y).subsym ++ [X] } else f y } rfl
    rw [ih Xs _ _ _ h'' ((mem_ins _ _ _).mpr (.inl hc)) hst hws (fun Y hY => hU Y (by simp [hY]))]
    simp only [List.map_cons, adds_cons, RState.mk.injEq, true_and, and_true]
    apply List.map_congr_left
    intro y _
    by_cases hy : y = s.tkclass <;> simp [hy]

end Verif.Lemon
