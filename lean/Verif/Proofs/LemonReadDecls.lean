import Verif.Proofs.LemonReadItems
/-
Helper lemmas for C72: `%type`, `%destructor`, `%token_class`, code and precedence of rules.
-/
set_option autoImplicit false
namespace Verif.Lemon
open Verif.Spec.GFile

/-! ### `%type` -/

theorem addText_false (o : Opts) (line : Nat) (a : Word) (old : Word) : addText o false old (line, a) = old ++ body a := by simp [addText]

theorem isAlpha_letter {x : Word} (h : Letter x) : isAlpha (x.headD 0) = true := (letter_iff x).mp h

theorem step_type (o : Opts) (pre : List Item) (s : RState) (h : Inv o pre s) (X a : Word) (line : Nat) (hf : (Item.type X a line).Form)
    (ws : List (Nat × Word)) (hws : List.Forall₂ Is (Item.type X a line).words ws) : StepOK o pre s (.type X a line) ws := by
  simp only [Item.words, List.forall₂_cons_left_iff, List.forall₂_nil_left_iff, is_any, is_line] at hws
  obtain ⟨⟨l1, _⟩, _, rfl, ⟨⟨l2, _⟩, _, rfl, ⟨⟨l3, _⟩, _, rfl, ⟨⟨_, _⟩, _, hw, rfl, rfl⟩, rfl⟩, rfl⟩, rfl⟩ := hws
  simp only [Prod.mk.injEq] at hw
  obtain ⟨rfl, rfl⟩ := hw
  rename_i X line a
  obtain ⟨hX, ha⟩ := hf
  unfold StepOK
  rw [keyWord_type _ h.bt, readTokens_cons]
  have hrep : Rep { s with insertLineMacro := true, state := .WAITING_FOR_DATATYPE_SYMBOL } (names o pre) (symOf o pre) :=
    ⟨h.holds.syms, fun _ => rfl, symOf_new o pre⟩
  have h1 : readToken (ropts o) { s with insertLineMacro := true, state := .WAITING_FOR_DATATYPE_SYMBOL } l3 X =
      if (typeOf pre X).isSome then ({ s with insertLineMacro := true, state := .WAITING_FOR_DATATYPE_SYMBOL } : RState).fail l3 (.typeDefined X) .RESYNC_AFTER_DECL_ERROR
      else { s with insertLineMacro := false, state := .WAITING_FOR_DECL_ARG, slot := .datatype X, syms := (ins (names o pre) X).map (symOf o pre) } := by
    rw [rd_datatype _ _ _ rfl, datatypeToken, isAlpha_letter hX]
    simp only [Bool.not_true, Bool.false_eq_true, if_false]
    rw [hrep.find, hrep.symNew_eq]
    have : ((if X ∈ names o pre then some (symOf o pre X) else none).any fun y => y.datatype.isSome) = (typeOf pre X).isSome := by
      by_cases hm : X ∈ names o pre
      · simp [hm, symOf]
      · have hd : typeOf pre X = none := congrArg Sym.datatype (symOf_new o pre X hm)
        simp [hm, hd]
    rw [this]
  rw [h1]
  by_cases ht : (typeOf pre X).isSome
  · rw [if_pos ht]
    refine ⟨fun he => ?_, fun ha' => ?_⟩
    · have := errs_nil_of _ _ _ he
      simp [fail_errs] at this
    · have : typeOf pre X = none := ha'
      simp [this] at ht
  · rw [if_neg ht]
    have ht' : typeOf pre X = none := by simpa using ht
    refine ⟨fun _ => ht', fun _ => ?_⟩
    have hrep' := hrep.ins X { s with insertLineMacro := false, state := .WAITING_FOR_DECL_ARG, slot := .datatype X, syms := (ins (names o pre) X).map (symOf o pre) } rfl
    rw [readTokens_cons, readTokens_nil, rd_arg _ _ _ rfl, argToken]
    simp only
    rw [if_pos ((argument_iff a).mp ha), hrep'.upd_eq]
    refine Inv.next h (.inr rfl) h.errs (rules_plain h rfl rfl rfl rfl rfl h.holds.rules) ?_
      (by rw [argOf_same _ _ _ (fun _ => rfl)]; exact h.holds.args) (by rw [wildcards_same _ _ rfl]; exact h.holds.wildcard)
      (by rw [wildcards_same _ _ rfl]; exact h.wild) (by rw [yacc_same _ _ (by simp)]; exact h.holds.yaccPrec)
      (by rw [precs_same _ _ rfl]; exact h.prec) (lines_same h fun _ => rfl)
    rw [names_append]
    refine List.map_congr_left fun y _ => ?_
    have e : typeOf [.type X a line] y = if X = y then some (body a) else none := by
      simp only [typeOf, List.findSome?_cons, List.findSome?_nil]; split <;> simp_all
    simp only [symOf, isClass_plain _ (.type X a line) rfl, fallbackOf_same _ (.type X a line) (fun _ => rfl), precOf_same _ _ (.type X a line) rfl,
      destructorOf_same _ _ (.type X a line) (fun _ => rfl), typeOf_append, e, membersOf_same _ (.type X a line) rfl]
    by_cases hy : y = X
    · subst hy
      simp only [if_true, ht', Option.none_or, Option.getD_none]
      rw [addArg_eq o false _ _ _ _ (by simp [addLineMacro]), addText_false]
      rfl
    · have hy' : ¬ X = y := fun e => hy e.symm
      simp only [hy, hy', if_false, Option.or_none]

/-! ### `%destructor` -/

theorem destructorOf_append (o : Opts) (pre : List Item) (X a : Word) (line : Nat) (x : Word) : destructorOf o (pre ++ [.destructor X a line]) x =
    if X = x then
      match destructorOf o pre x with
      | none => some (line, body a)
      | some p => some (p.1, addText o true p.2 (line, a))
    else destructorOf o pre x := by
  have e : destructorsOf [.destructor X a line] x = if X = x then [(line, a)] else [] := by
    simp only [destructorsOf, List.filterMap_cons, List.filterMap_nil]; split <;> simp_all
  unfold destructorOf
  rw [destructorsOf_append, e]
  by_cases hx : X = x
  · simp only [hx, if_true]
    cases destructorsOf pre x with
    | nil => rfl
    | cons p ps => simp
  · simp only [hx, if_false, List.append_nil]

theorem step_destructor (o : Opts) (pre : List Item) (s : RState) (h : Inv o pre s) (X a : Word) (line : Nat) (hl : 0 < line) (hf : (Item.destructor X a line).Form)
    (ws : List (Nat × Word)) (hws : List.Forall₂ Is (Item.destructor X a line).words ws) : StepOK o pre s (.destructor X a line) ws := by
  simp only [Item.words, List.forall₂_cons_left_iff, List.forall₂_nil_left_iff, is_any, is_line] at hws
  obtain ⟨⟨l1, _⟩, _, rfl, ⟨⟨l2, _⟩, _, rfl, ⟨⟨l3, _⟩, _, rfl, ⟨⟨_, _⟩, _, hw, rfl, rfl⟩, rfl⟩, rfl⟩, rfl⟩ := hws
  simp only [Prod.mk.injEq] at hw
  obtain ⟨rfl, rfl⟩ := hw
  rename_i X line a
  obtain ⟨hX, ha⟩ := hf
  unfold StepOK
  refine ⟨fun _ => trivial, fun _ => ?_⟩
  rw [keyWord_destructor _ h.bt, readTokens_cons]
  have hrep : Rep { s with insertLineMacro := true, state := .WAITING_FOR_DESTRUCTOR_SYMBOL } (names o pre) (symOf o pre) :=
    ⟨h.holds.syms, fun _ => rfl, symOf_new o pre⟩
  have h1 : readToken (ropts o) { s with insertLineMacro := true, state := .WAITING_FOR_DESTRUCTOR_SYMBOL } l3 X =
      { s with insertLineMacro := true, state := .WAITING_FOR_DECL_ARG, slot := .destructor X, syms := (ins (names o pre) X).map (symOf o pre) } := by
    rw [rd_destructor _ _ _ rfl, destructorToken, isAlpha_letter hX]
    simp only [Bool.not_true, Bool.false_eq_true, if_false]
    rw [hrep.symNew_eq]
  rw [h1]
  have hrep' := hrep.ins X { s with insertLineMacro := true, state := .WAITING_FOR_DECL_ARG, slot := .destructor X, syms := (ins (names o pre) X).map (symOf o pre) } rfl
  rw [readTokens_cons, readTokens_nil, rd_arg _ _ _ rfl, argToken]
  simp only
  rw [if_pos ((argument_iff a).mp ha), hrep'.upd_eq]
  refine Inv.next h (.inr rfl) h.errs (rules_plain h rfl rfl rfl rfl rfl h.holds.rules) ?_
    (by rw [argOf_same _ _ _ (fun _ => rfl)]; exact h.holds.args) (by rw [wildcards_same _ _ rfl]; exact h.holds.wildcard)
    (by rw [wildcards_same _ _ rfl]; exact h.wild) (by rw [yacc_same _ _ (by simp)]; exact h.holds.yaccPrec)
    (by rw [precs_same _ _ rfl]; exact h.prec) ?_
  · rw [names_append]
    refine List.map_congr_left fun y _ => ?_
    simp only [symOf, isClass_plain _ (.destructor X a line) rfl, fallbackOf_same _ (.destructor X a line) (fun _ => rfl), precOf_same _ _ (.destructor X a line) rfl,
      destructorOf_append, typeOf_same _ (.destructor X a line) (fun _ => rfl), membersOf_same _ (.destructor X a line) rfl]
    by_cases hy : y = X
    · subst hy
      simp only [if_true]
      have hs : (RState.sym { s with insertLineMacro := true, state := .WAITING_FOR_DECL_ARG, slot := .destructor y, syms := (ins (names o pre) y).map (symOf o pre) } y).destLineno =
        ((destructorOf o pre y).map Prod.fst).getD 0 := by rw [hrep'.sym]; rfl
      rcases Option.eq_none_or_eq_some (destructorOf o pre y) with hd | ⟨p, hd⟩
      · rw [hd] at hs
        simp only [hd]
        rw [addArg_eq o false _ _ _ _ (by simp only [addLineMacro]; rw [hs]; simp)]
        simp [addText_false]
      · have hp := h.lines y p hd
        rw [hd] at hs
        simp only [hd]
        rw [addArg_eq o true _ _ _ _ (by
          simp only [addLineMacro]; rw [hs]
          have : p.1 ≠ 0 := by omega
          simp [ropts, this])]
        have hz : ¬ p.1 = 0 := by omega
        simp only [Option.map_some, Option.getD_some, hz, if_false]
    · have hy' : ¬ X = y := fun e => hy e.symm
      simp only [hy, hy', if_false]
  · intro x p hp
    rw [destructorOf_append] at hp
    split at hp
    · split at hp
      · simp at hp; subst hp; exact hl
      · next q hq =>
        simp at hp; subst hp; exact h.lines x q hq
    · exact h.lines x p hp

/-! ### `%token_class` -/

theorem mem_parts (items : List Item) (p : Item × List Item) (h : p ∈ parts items) : p.1 ∈ items := by
  induction items with
  | nil => simp [parts] at h
  | cons a t ih =>
    rw [parts] at h
    split at h
    · simp at h
      rcases h with rfl | h
      · simp
      · exact List.mem_cons_of_mem _ (ih h)
    · exact List.mem_cons_of_mem _ (ih h)

theorem ruleOf_congr (o : Opts) (c1 c2 : Word → Bool) (items : List Item) (h : ∀ x ∈ names o items, c1 x = c2 x) :
    (parts items).map (ruleOf o c1) = (parts items).map (ruleOf o c2) := by
  refine List.map_congr_left fun p hp => ?_
  have hm := mem_parts items p hp
  unfold ruleOf
  split
  · next l a rhs line he =>
    congr 1
    refine List.map_congr_left fun e hee => ?_
    have : e.name ∈ names o items := by
      rw [mem_names]
      right
      refine ⟨_, hm, ?_⟩
      rw [he]
      simp only [mentions, List.mem_cons, List.mem_flatMap]
      exact .inr ⟨e, hee, by simp⟩
    simp only [refOf, h _ this]
  · rfl

theorem mem_names_class (o : Opts) (items : List Item) (c : Word) (h : isClass items c = true) : c ∈ names o items := by
  by_contra hc
  have := congrArg Sym.type (symOf_new o items c hc)
  simp [symOf, h, newSym] at this
  split at this <;> simp at this

theorem words_class (c : Word) (Xs : List (Option Nat × Word)) (ws : List (Nat × Word)) (h : List.Forall₂ Is (Item.tokenClass c Xs).words ws) :
    ∃ l1 l2 l4 u l3, ws = (l1, text "%") :: (l2, text "token_class") :: (l4, c) :: (u ++ [(l3, text ".")]) ∧ u.map Prod.snd = Xs.map fun x => x.1.toList ++ x.2 := by
  simp only [Item.words] at h
  rw [List.append_assoc] at h
  obtain ⟨u, v, rfl, h1, h2⟩ := forall₂_split _ _ _ h
  obtain ⟨u', v', rfl, h3, h4⟩ := forall₂_split _ _ _ h2
  simp only [List.forall₂_cons_left_iff, List.forall₂_nil_left_iff, is_any] at h1 h4
  obtain ⟨⟨l1, _⟩, _, rfl, ⟨⟨l2, _⟩, _, rfl, ⟨⟨l4, _⟩, _, rfl, rfl, rfl⟩, rfl⟩, rfl⟩ := h1
  obtain ⟨⟨l3, _⟩, _, rfl, rfl, rfl⟩ := h4
  refine ⟨l1, l2, l4, u', l3, rfl, (forall₂_any _ _).mp ?_⟩
  simpa [List.map_map, Function.comp_def] using h3

theorem step_class (o : Opts) (pre : List Item) (s : RState) (h : Inv o pre s) (c : Word) (Xs : List (Option Nat × Word)) (hf : (Item.tokenClass c Xs).Form)
    (ws : List (Nat × Word)) (hws : List.Forall₂ Is (Item.tokenClass c Xs).words ws) : StepOK o pre s (.tokenClass c Xs) ws := by
  obtain ⟨l1, l2, l4, u, l3, rfl, hu⟩ := words_class _ _ _ hws
  obtain ⟨hc, hXs⟩ := hf
  unfold StepOK
  rw [keyWord_tokenClass _ h.bt, readTokens_cons]
  have hrep : Rep { s with insertLineMacro := true, state := .WAITING_FOR_CLASS_ID } (names o pre) (symOf o pre) :=
    ⟨h.holds.syms, fun _ => rfl, symOf_new o pre⟩
  rw [rd_class _ _ _ rfl, classToken, (lower_iff c).mp hc]
  simp only [Bool.not_true, Bool.false_eq_true, if_false]
  rw [hrep.find]
  by_cases hm : c ∈ names o pre
  · rw [if_pos hm, if_pos (by simp)]
    refine ⟨fun he => ?_, fun ha' => absurd hm ha'⟩
    have := errs_nil_of _ _ _ he
    simp [fail_errs] at this
  · rw [if_neg hm, if_neg (by simp)]
    refine ⟨fun _ => hm, fun _ => ?_⟩
    rw [hrep.symNew_eq]
    have hrep1 := hrep.ins c { s with insertLineMacro := true, state := .WAITING_FOR_CLASS_ID, syms := (ins (names o pre) c).map (symOf o pre) } rfl
    rw [hrep1.upd_eq]
    have hrep2 := hrep1.change ((mem_ins _ _ _).mpr (.inr rfl)) (fun y => { y with type := .MULTITERMINAL }) (fun _ => rfl)
      { s with insertLineMacro := true, state := .WAITING_FOR_CLASS_TOKEN, tkclass := c
               syms := (ins (names o pre) c).map fun y => if y = c then { symOf o pre y with type := .MULTITERMINAL } else symOf o pre y } rfl
    rw [readTokens_append, classLoop o Xs u _ _ _ hrep2 ((mem_ins _ _ _).mpr (.inr rfl)) rfl hu hXs]
    rw [readTokens_cons, readTokens_nil, rd_stop _ _ _ (.inr (.inr (.inr (.inr rfl))))]
    have hcls : ∀ x, isClass (pre ++ [.tokenClass c Xs]) x = (isClass pre x || c == x) := by intro x; simp [isClass]
    have hnc : isClass pre c = false := by
      by_contra hcc
      exact hm (mem_names_class o pre c (by simpa using hcc))
    refine Inv.next h (.inr rfl) h.errs ?_ ?_
      (by rw [argOf_same _ _ _ (fun _ => rfl)]; exact h.holds.args) (by rw [wildcards_same _ _ rfl]; exact h.holds.wildcard)
      (by rw [wildcards_same _ _ rfl]; exact h.wild) (by rw [yacc_same _ _ (by simp)]; exact h.holds.yaccPrec)
      (by rw [precs_same _ _ rfl]; exact h.prec) (lines_same h fun _ => rfl)
    · rw [parts_ruleOf _ _ _ _ rfl rfl rfl rfl rfl, ruleOf_congr o _ (isClass pre) pre]
      · exact h.holds.rules
      · intro x hx
        rw [hcls]
        have : ¬ c = x := by rintro rfl; exact hm hx
        simp [this]
    · rw [names_append]
      refine List.map_congr_left fun y hy => ?_
      have hnot : ∀ it ∈ pre, c ∉ mentions o it := by
        rw [mem_names] at hm
        push Not at hm
        exact hm.2
      have hmem : membersOf (pre ++ [.tokenClass c Xs]) y = if y = c then Xs.map Prod.snd else membersOf pre y := by
        unfold membersOf
        rw [hcls]
        by_cases hyc : y = c
        · subst hyc
          simp only [hnc, beq_self_eq_true, Bool.or_true, if_true, List.flatMap_append]
          refine Eq.trans (congrArg (· ++ _) (List.flatMap_eq_nil_iff.mpr ?_)) ?_
          · intro it hit
            have hn := hnot it hit
            split
            · simp [mentions] at hn
              simp; exact fun h => absurd h.symm hn.1
            · rw [List.flatMap_eq_nil_iff]
              intro e he
              simp only [mentions, List.mem_cons, List.mem_flatMap, not_or, not_exists, not_and] at hn
              have := hn.2 e he
              rw [if_neg]; intro h'; exact this.1 h'.symm
            · rfl
          · simp
        · have hyc' : ¬ c = y := fun e => hyc e.symm
          simp [hyc, hyc', List.flatMap_append]
      simp only [symOf, hcls, fallbackOf_same _ (.tokenClass c Xs) (fun _ => rfl), precOf_same _ _ (.tokenClass c Xs) rfl,
        destructorOf_same _ _ (.tokenClass c Xs) (fun _ => rfl), typeOf_same _ (.tokenClass c Xs) (fun _ => rfl), hmem]
      by_cases hyc : y = c
      · subst hyc
        have h0 : membersOf pre y = [] := by unfold membersOf; rw [hnc]; rfl
        simp [h0]
      · have hyc' : ¬ c = y := fun e => hyc e.symm
        simp [hyc, hyc']

/-! ### code -/

theorem updRule_append (s : RState) (R : List RRule) (r : RRule) (h : s.rules = R ++ [r]) (f : RRule → RRule) :
    s.updRule f = { s with rules := R ++ [f r] } := by
  unfold RState.updRule
  rw [h]; simp

theorem symOf_inert (o : Opts) (pre : List Item) (it : Item) (h0 : plain it = true) (h1 : ∀ x, fallbackOf [it] x = none) (h2 : precs [it] = [])
    (h3 : ∀ x, destructorsOf [it] x = []) (h4 : ∀ x, typeOf [it] x = none) : symOf o (pre ++ [it]) = symOf o pre := symOf_plain h0 h1 h2 h3 h4

theorem neverText (t : Word) : 123 :: t = neverReduceText ↔ t = neverReduce := by
  have : neverReduceText = 123 :: neverReduce := by decide
  rw [this]; simp

theorem step_code (o : Opts) (pre : List Item) (s : RState) (h : Inv o pre s) (t : Word) (line : Nat)
    (ws : List (Nat × Word)) (hws : List.Forall₂ Is (Item.code t line).words ws) : StepOK o pre s (.code t line) ws := by
  simp only [Item.words, List.forall₂_cons_left_iff, List.forall₂_nil_left_iff, is_line] at hws
  obtain ⟨_, _, rfl, rfl, rfl⟩ := hws
  unfold StepOK
  have hr : readTokens (ropts o) s [(line, 123 :: t)] = codeToken s line (123 :: t) := by
    rw [readTokens_cons, readTokens_nil, rd_begin _ _ _ h.bt, beginToken]
    rfl
  rw [hr]
  rcases parts_other pre (.code t line) rfl with ⟨hno, e1, e2⟩ | ⟨P, r, hrule, hr, e1, e2⟩
  · have hrules : s.rules = [] := by rw [h.holds.rules, e1]; rfl
    have : codeToken s line (123 :: t) = s.err line .noRuleForCode := by unfold codeToken; rw [hrules]; rfl
    rw [this]
    refine ⟨fun he => by simp [err_errs] at he, fun ha => ?_⟩
    obtain ⟨⟨i, hi, hi'⟩, _⟩ := ha
    simp [hno i hi] at hi'
  · cases r <;> simp [Item.isRule] at hr
    rename_i lhs lab rhs rl
    have hrules : s.rules = P.map (ruleOf o (isClass pre)) ++ [ruleOf o (isClass pre) (.rule lhs lab rhs rl, sinceRule pre)] := by
      rw [h.holds.rules, e1, List.map_append]; rfl
    have hlast : s.rules.getLast? = some (ruleOf o (isClass pre) (.rule lhs lab rhs rl, sinceRule pre)) := by rw [hrules]; simp
    have hcode : (ruleOf o (isClass pre) (.rule lhs lab rhs rl, sinceRule pre)).code.isSome = ((sinceRule pre).findSome? Item.codeOf).isSome := by
      change (Option.map Prod.snd _).isSome = _
      rw [Option.isSome_map]
    have hinert : ∀ s' : RState, s'.state = s.state → s'.syms = s.syms → s'.args = s.args → s'.wildcard = s.wildcard → s'.yaccPrec = s.yaccPrec →
        s'.preccounter = s.preccounter → s'.errs = s.errs →
        s'.rules = P.map (ruleOf o (isClass pre)) ++ [ruleOf o (isClass pre) (.rule lhs lab rhs rl, sinceRule pre ++ [.code t line])] →
        Inv o (pre ++ [.code t line]) s' := by
      intro s' g1 g2 g3 g4 g5 g6 g7 g8
      refine Inv.next h (by rw [RState.between, g1]; exact h.bt) (by rw [g7]; exact h.errs) ?_
        (by rw [symOf_plain rfl (fun _ => rfl) rfl (fun _ => rfl) (fun _ => rfl), names_append, g2]; exact h.holds.syms)
        (by rw [argOf_same _ _ _ (fun _ => rfl), g3]; exact h.holds.args) (by rw [wildcards_same _ _ rfl, g4]; exact h.holds.wildcard)
        (by rw [wildcards_same _ _ rfl]; exact h.wild) (by rw [yacc_same _ _ (by simp), g5]; exact h.holds.yaccPrec)
        (by rw [precs_same _ _ rfl, g6]; exact h.prec) (lines_same h fun _ => rfl)
      rw [g8, e2, isClass_plain _ _ rfl, List.map_append]
      rfl
    unfold codeToken
    rw [hlast]
    simp only
    rw [hcode]
    by_cases hc : ((sinceRule pre).findSome? Item.codeOf).isSome
    · rw [if_pos hc]
      refine ⟨fun he => by simp [err_errs] at he, fun ha => ?_⟩
      rw [ha.2] at hc
      simp at hc
    · rw [if_neg hc]
      have hc' : (sinceRule pre).findSome? Item.codeOf = none := by simpa using hc
      refine ⟨fun _ => ⟨hrule, hc'⟩, fun _ => ?_⟩
      by_cases hn : t = neverReduce
      · rw [if_pos ((neverText t).mpr hn), updRule_append s _ _ hrules]
        apply hinert <;> try rfl
        simp only
        congr 2
        simp [ruleOf, List.findSome?_append, hc', Item.codeOf, Item.markOf, Item.isMark, Item.isNever, hn]
      · rw [if_neg (fun e => hn ((neverText t).mp e)), updRule_append s _ _ hrules]
        apply hinert <;> try rfl
        simp only
        congr 2
        simp [ruleOf, List.findSome?_append, hc', Item.codeOf, Item.markOf, Item.isMark, Item.isNever, hn]

/-! ### precedence of a rule -/

theorem step_mark (o : Opts) (pre : List Item) (s : RState) (h : Inv o pre s) (X : Word) (hX : Upper X)
    (ws : List (Nat × Word)) (hws : List.Forall₂ Is (Item.mark X).words ws) : StepOK o pre s (.mark X) ws := by
  simp only [Item.words, List.forall₂_cons_left_iff, List.forall₂_nil_left_iff, is_any] at hws
  obtain ⟨⟨l1, _⟩, _, rfl, ⟨⟨l2, _⟩, _, rfl, ⟨⟨l3, _⟩, _, rfl, rfl, rfl⟩, rfl⟩, rfl⟩ := hws
  rename_i X
  unfold StepOK
  have hr : readTokens (ropts o) s [(l1, text "["), (l2, X), (l3, text "]")] =
      (markToken (ropts o) (s.goto .PRECEDENCE_MARK_1) l2 X).goto .WAITING_FOR_DECL_OR_RULE := by
    rw [readTokens_cons, readTokens_cons, readTokens_cons, readTokens_nil, rd_begin _ _ _ h.bt]
    have : beginToken s l1 (text "[") = s.goto .PRECEDENCE_MARK_1 := rfl
    simp only [this]
    rw [rd_mark1 (ropts o) l2 X rfl, rd_mark2 (ropts o) l3 (text "]") rfl]
    rfl
  simp only [hr]
  unfold markToken
  rw [(upper_iff X).mp hX]
  simp only [Bool.not_true, Bool.false_eq_true, if_false]
  rcases parts_other pre (.mark X) rfl with ⟨hno, e1, e2⟩ | ⟨P, r, hrule, hr, e1, e2⟩
  · have hrules : (s.goto .PRECEDENCE_MARK_1).rules = [] := by
      change s.rules = []; rw [h.holds.rules, e1]; rfl
    rw [hrules]
    refine ⟨fun he => by simp [err_errs, goto_errs] at he, fun ha => ?_⟩
    obtain ⟨⟨i, hi, hi'⟩, _⟩ := ha
    simp [hno i hi] at hi'
  · cases r <;> simp [Item.isRule] at hr
    rename_i lhs lab rhs rl
    have hrules : s.rules = P.map (ruleOf o (isClass pre)) ++ [ruleOf o (isClass pre) (.rule lhs lab rhs rl, sinceRule pre)] := by
      rw [h.holds.rules, e1, List.map_append]; rfl
    have hlast : (s.goto .PRECEDENCE_MARK_1).rules.getLast? = some (ruleOf o (isClass pre) (.rule lhs lab rhs rl, sinceRule pre)) := by
      change s.rules.getLast? = _; rw [hrules]; simp
    have hprec : (ruleOf o (isClass pre) (.rule lhs lab rhs rl, sinceRule pre)).precsym.isSome =
        (!o.ignorePrec && ((sinceRule pre).findSome? Item.markOf).isSome) := by
      cases hu : o.ignorePrec <;> simp [ruleOf, hu]
    have hinert : ∀ s' : RState, s'.state = .WAITING_FOR_DECL_OR_RULE → s'.syms = (adds (names o pre) (mentions o (.mark X))).map (symOf o pre) → s'.args = s.args →
        s'.wildcard = s.wildcard → s'.yaccPrec = s.yaccPrec → s'.preccounter = s.preccounter → s'.errs = s.errs →
        s'.rules = P.map (ruleOf o (isClass pre)) ++ [ruleOf o (isClass pre) (.rule lhs lab rhs rl, sinceRule pre ++ [.mark X])] →
        Inv o (pre ++ [.mark X]) s' := by
      intro s' g1 g2 g3 g4 g5 g6 g7 g8
      refine Inv.next h (.inr g1) (by rw [g7]; exact h.errs) ?_
        (by rw [symOf_plain rfl (fun _ => rfl) rfl (fun _ => rfl) (fun _ => rfl), names_append, g2])
        (by rw [argOf_same _ _ _ (fun _ => rfl), g3]; exact h.holds.args) (by rw [wildcards_same _ _ rfl, g4]; exact h.holds.wildcard)
        (by rw [wildcards_same _ _ rfl]; exact h.wild) (by rw [yacc_same _ _ (by simp), g5]; exact h.holds.yaccPrec)
        (by rw [precs_same _ _ rfl, g6]; exact h.prec) (lines_same h fun _ => rfl)
      rw [g8, e2, isClass_plain _ _ rfl, List.map_append]
      rfl
    rw [hlast]
    simp only
    rw [hprec]
    cases hu : o.ignorePrec with
    | true =>
      simp only [Bool.not_true, Bool.false_and, Bool.false_eq_true, if_false, ropts, hu, if_true]
      refine ⟨fun _ => ⟨hrule, by simp [hu]⟩, fun _ => ?_⟩
      rw [updRule_append _ _ _ (show (s.goto .PRECEDENCE_MARK_1).rules = _ from hrules)]
      refine hinert _ rfl ?_ rfl rfl rfl rfl rfl ?_
      · simp only [mentions, hu, if_true]; exact h.holds.syms
      · simp only [RState.goto]
        congr 2
        simp [ruleOf, List.findSome?_append, Item.codeOf, Item.isMark, Item.isNever, hu]
    | false =>
      simp only [Bool.not_false, Bool.true_and, ropts, hu, Bool.false_eq_true, if_false]
      by_cases hm : ((sinceRule pre).findSome? Item.markOf).isSome
      · rw [if_pos hm]
        refine ⟨fun he => by simp [err_errs, goto_errs] at he, fun ha => ?_⟩
        rw [ha.2 hu] at hm
        simp at hm
      · rw [if_neg hm]
        have hm' : (sinceRule pre).findSome? Item.markOf = none := by simpa using hm
        refine ⟨fun _ => ⟨hrule, fun _ => hm'⟩, fun _ => ?_⟩
        have hrep : Rep (s.goto .PRECEDENCE_MARK_1) (names o pre) (symOf o pre) := ⟨h.holds.syms, fun _ => rfl, symOf_new o pre⟩
        rw [hrep.symNew_eq, updRule_append { s.goto .PRECEDENCE_MARK_1 with syms := _ } _ _ (show s.rules = _ from hrules)]
        refine hinert _ rfl ?_ rfl rfl rfl rfl rfl ?_
        · simp only [mentions, hu]; rfl
        · simp only [RState.goto]
          congr 2
          simp [ruleOf, List.findSome?_append, Item.codeOf, Item.markOf, Item.isMark, Item.isNever, hu, hm']

end Verif.Lemon
