import Verif.Proofs.LemonReprint
/-
C48: conversion of a grammar to yacc form.
-/
set_option autoImplicit false
namespace Verif.Lemon
open Verif.Spec

/-- `l` are the yacc rules for the rule `r`: one for every choice of terminals for the multi-terminals,
with the precedence `q`. -/
def RulesFor (g : Gram) (r : Rule) (q : Option Nat) (l : List YaccRule) : Prop :=
  ∀ y, y ∈ l ↔ y.lhs = r.lhs ∧ Choice g r.rhs y.rhs ∧ y.prec = q

theorem mapM_forall₂ {α β : Type} {f : α → Option β} {l : List α} {bs : List β} (h : l.mapM f = some bs) :
    List.Forall₂ (fun a b => f a = some b) l bs := by
  induction l generalizing bs with
  | nil => cases h; exact .nil
  | cons a l ih =>
    rw [List.mapM_cons] at h
    cases e : f a with
    | none => rw [e] at h; cases h
    | some c =>
      rw [e] at h
      cases e' : l.mapM f with
      | none => rw [e'] at h; cases h
      | some cs =>
        rw [e'] at h
        cases h
        exact .cons e (ih e')

theorem forall₂_imp_mem {α β : Type} {R S : α → β → Prop} {l : List α} {m : List β} (h : List.Forall₂ R l m) (hi : ∀ a ∈ l, ∀ b, R a b → S a b) :
    List.Forall₂ S l m := by
  induction h with
  | nil => exact .nil
  | cons hab _ ih => exact .cons (hi _ (by simp) _ hab) (ih fun a ha => hi a (by simp [ha]))

theorem ruleYaccs_some {g : Gram} {r : Rule} (one : (r.rhs.filter g.isMT).length ≤ 1) (p : Rule → Option Nat) : ruleYaccs g p r ≠ none := by
  intro h
  obtain ⟨k, hk, e⟩ := mapM_none.1 h
  unfold ruleAt at e
  rw [Option.map_eq_none_iff] at e
  obtain ⟨Z, hZ, eZ⟩ := mapM_none.1 e
  unfold yaccSym at eZ
  split at eZ
  · rename_i hmt
    unfold ruleNums at hk
    cases ef : r.rhs.find? g.isMT with
    | none =>
      rw [List.find?_eq_none] at ef
      exact ef Z hZ hmt
    | some X =>
      rw [ef] at hk
      have hX : X = Z := by
        have h1 : X ∈ r.rhs.filter g.isMT := List.mem_filter.2 ⟨List.mem_of_find?_eq_some ef, List.find?_some ef⟩
        have h2 : Z ∈ r.rhs.filter g.isMT := List.mem_filter.2 ⟨hZ, hmt⟩
        generalize r.rhs.filter g.isMT = l at one h1 h2
        match l, one, h1, h2 with
        | [x], _, h1, h2 => rw [List.mem_singleton.1 h1, List.mem_singleton.1 h2]
      subst hX
      simp only [List.mem_map, List.mem_range] at hk
      obtain ⟨j, hj, rfl⟩ := hk
      simp only [Option.bind_some, List.getElem?_eq_none_iff] at eZ
      omega
  · cases eZ

/-- C48.  Take a grammar whose start symbol is the left-hand side of the first rule and that has at most
one multi-terminal in each rule.  The words printed are those of a yacc file `Y` (and of only one,
`YaccFile.text_inj`) that declares all the tokens; that gives them their associativity and order of
precedence; that has the same start symbol; whose rules are, in the same order, those of `g` with all
choices for a multi-terminal, with the precedence symbol of the rule; and whose sentences are the
sentences of `g`. -/
theorem C48_partial (g : Gram) (wf : g.WF) (top : Nat) (hp : PrecDecl g top) (p : Rule → Option Nat) (first : Rule) (rest : List Rule)
    (hr : g.rules = first :: rest) (hs : g.start = first.lhs) (one : ∀ r ∈ g.rules, (r.rhs.filter g.isMT).length ≤ 1) :
    ∃ Y : YaccFile, reprintYacc g top p = some Y.text ∧ (∀ Z : YaccFile, Z.text = Y.text → Z = Y) ∧
      Y.tokens = List.range' 1 (g.nterm - 1) ∧ PrecLines g Y.levels ∧ Y.start = g.start ∧
      (∃ ls, Y.rules = ls.flatten ∧ List.Forall₂ (fun r l => RulesFor g r (p r) l) g.rules ls) ∧
      ∀ w, (Y.cfg g.nterm).Sentence Y.start w ↔ g.cfg.Sentence g.start w := by
  cases e : g.rules.mapM (ruleYaccs g p) with
  | none =>
    obtain ⟨r, hr', er⟩ := mapM_none.1 e
    exact absurd er (ruleYaccs_some (one r hr') p)
  | some rs =>
    have hmem : ∀ r ∈ g.rules, ∀ l, ruleYaccs g p r = some l → RulesFor g r (p r) l := by
      intro r hr' l hl y
      rw [mapM_mem hl]
      constructor
      · rintro ⟨k, -, hk⟩
        unfold ruleAt at hk
        obtain ⟨α, hα, rfl⟩ := Option.map_eq_some_iff.1 hk
        exact ⟨rfl, choice_of_mapM hα, rfl⟩
      · rintro ⟨h1, h2, h3⟩
        obtain ⟨k, hk, hk'⟩ := choice_printed h2 (one r hr') r.lhs r.code r.prec (p r)
        refine ⟨k, hk, ?_⟩
        rw [hk', ← h1, ← h3]
    refine ⟨⟨List.range' 1 (g.nterm - 1), (List.range (top + 1)).filterMap (levelOf g), first.lhs, rs.flatten⟩, ?_,
      fun Z hZ => YaccFile.text_inj hZ, rfl, precLines hp, hs.symm, ⟨rs, rfl, ?_⟩, ?_⟩
    · rw [reprintYacc_eq]
      unfold yaccFile
      split
      · rename_i h0
        rw [hr] at h0
        cases h0
      · rename_i f l h0
        rw [hr] at h0
        cases h0
        rw [e]
        rfl
    · exact forall₂_imp_mem (mapM_forall₂ e) hmem
    · intro w
      have hrule : ∀ A α, (A, α) ∈ rs.flatten.map (fun r => (r.lhs, r.rhs)) ↔ ∃ r ∈ g.rules, r.lhs = A ∧ Choice g r.rhs α := by
        intro A α
        simp only [List.mem_map, List.mem_flatten, Prod.mk.injEq]
        constructor
        · rintro ⟨y, ⟨l, hl, hy⟩, rfl, rfl⟩
          obtain ⟨r, hr', er⟩ := (mapM_mem e l).1 hl
          obtain ⟨h1, h2, -⟩ := (hmem r hr' l er y).1 hy
          exact ⟨r, hr', h1.symm, h2⟩
        · rintro ⟨r, hr', rfl, hc⟩
          cases er : ruleYaccs g p r with
          | none => exact absurd er (ruleYaccs_some (one r hr') p)
          | some l => exact ⟨⟨r.lhs, α, p r⟩, ⟨l, (mapM_mem e l).2 ⟨r, hr', er⟩, (hmem r hr' l er _).2 ⟨rfl, hc, rfl⟩⟩, rfl, rfl⟩
      rw [hs]
      constructor
      · rintro ⟨h1, h2⟩
        exact ⟨h1, derives_of_rules (fun A α hA => (hrule A α).1 hA) h2⟩
      · rintro ⟨h1, h2⟩
        refine ⟨h1, ?_⟩
        obtain ⟨u, hu, hd⟩ := rules_of_derives wf (G := YaccFile.cfg ⟨List.range' 1 (g.nterm - 1), (List.range (top + 1)).filterMap (levelOf g), first.lhs, rs.flatten⟩ g.nterm)
          (fun r hr' α hc => (hrule _ _).2 ⟨r, hr', rfl, hc⟩) h1 h2
        have : u = [first.lhs] := by
          have hl := wf.lhs first (by rw [hr]; simp)
          cases hu with
          | cons hx hu =>
            cases hu
            rw [if_neg (by simp [Gram.isMT]; omega)] at hx
            rw [hx]
        rw [this] at hd
        exact hd

/-- Whatever the grammar: what is printed, if no memory outside of a list is read, has only sentences
of the grammar for the printed start symbol, the left-hand side of the first rule. -/
theorem C48_sound_partial (g : Gram) (top : Nat) (p : Rule → Option Nat) (text : List Word) (h : reprintYacc g top p = some text) :
    ∃ Y : YaccFile, text = Y.text ∧ g.rules.head?.map Rule.lhs = some Y.start ∧
      ∀ w, (Y.cfg g.nterm).Sentence Y.start w → g.cfg.Sentence Y.start w := by
  rw [reprintYacc_eq] at h
  obtain ⟨Y, hY, rfl⟩ := Option.map_eq_some_iff.1 h
  refine ⟨Y, rfl, ?_⟩
  unfold yaccFile at hY
  split at hY
  · cases hY
  · rename_i first rest e
    obtain ⟨rs, hrs, rfl⟩ := Option.map_eq_some_iff.1 hY
    rw [e]
    refine ⟨rfl, ?_⟩
    rintro w ⟨h1, h2⟩
    refine ⟨h1, derives_of_rules (fun A α hA => ?_) h2⟩
    simp only [YaccFile.cfg, List.mem_map, Prod.mk.injEq] at hA
    obtain ⟨y, hy, rfl, rfl⟩ := hA
    obtain ⟨r, hr, k, -, hk⟩ := (rules_mem hrs y).1 hy
    unfold ruleAt at hk
    obtain ⟨α, hα, rfl⟩ := Option.map_eq_some_iff.1 hk
    exact ⟨r, hr, rfl, choice_of_mapM hα⟩

/-- When memory outside of a list is read: in some rule a multi-terminal has fewer terminals than the
first one. -/
theorem C48_overrun (g : Gram) (top : Nat) (p : Rule → Option Nat) (hr : g.rules ≠ []) :
    reprintYacc g top p = none ↔
      ∃ r ∈ g.rules, ∃ a X b, r.rhs = a ++ X :: b ∧ (∀ Y ∈ a, ¬ g.isMT Y) ∧ g.isMT X ∧ ∃ Y ∈ b, g.isMT Y ∧ (g.subsym Y).length < (g.subsym X).length := by
  have h1 : reprintYacc g top p = none ↔ ∃ r ∈ g.rules, ∃ k ∈ ruleNums g r, ∃ Y ∈ r.rhs, yaccSym g k Y = none := by
    rw [reprintYacc_eq, Option.map_eq_none_iff]
    unfold yaccFile
    split
    · contradiction
    · rw [Option.map_eq_none_iff, mapM_none]
      simp only [ruleYaccs, mapM_none, ruleAt, Option.map_eq_none_iff]
  rw [h1]
  constructor
  · rintro ⟨r, hr, k, hk, Y, hY, e⟩
    refine ⟨r, hr, ?_⟩
    unfold yaccSym at e
    split at e
    · rename_i hmt
      unfold ruleNums at hk
      cases ef : r.rhs.find? g.isMT with
      | none =>
        rw [List.find?_eq_none] at ef
        exact absurd hmt (ef Y hY)
      | some X =>
        rw [ef] at hk
        simp only [List.mem_map, List.mem_range] at hk
        obtain ⟨j, hj, rfl⟩ := hk
        simp only [Option.bind_some, List.getElem?_eq_none_iff] at e
        rw [List.find?_eq_some_iff_append] at ef
        obtain ⟨hX, a, b, hab, ha⟩ := ef
        refine ⟨a, X, b, hab, ?_, hX, Y, ?_, hmt, by omega⟩
        · intro Z hZ
          have := ha Z hZ
          simpa using this
        · rw [hab] at hY
          simp only [List.mem_append, List.mem_cons] at hY
          rcases hY with h | h | h
          · have := ha Y h
            simp [hmt] at this
          · rw [h] at e
            omega
          · exact h
    · cases e
  · rintro ⟨r, hr, a, X, b, hab, ha, hX, Y, hY, hmt, hl⟩
    have ef : r.rhs.find? g.isMT = some X := by
      rw [List.find?_eq_some_iff_append]
      refine ⟨hX, a, b, hab, ?_⟩
      intro Z hZ
      have := ha Z hZ
      simpa using this
    refine ⟨r, hr, some (g.subsym Y).length, ?_, Y, by rw [hab]; simp [hY], ?_⟩
    · unfold ruleNums
      rw [ef]
      simp [hl]
    · simp [yaccSym, hmt]

/-- `s ::= A|B C|D.` with the tokens `A B C D` = 1 … 4, the multi-terminals 5, 6 and `s` = 7 -/
def exDiagonal : Gram where
  nterm := 5
  mts := [[1, 2], [3, 4]]
  nsym := 8
  rules := [⟨7, [5, 6], none, false⟩]
  start := 7
  errsym := none
  wildcard := none
  prec := fun _ => -1
  assoc := fun _ => .UNK

/-- `%start_symbol s`, `x ::= A. s ::= x B|C.`: `A B C` = 1 2 3, `B|C` = 4, `x s` = 5 6;
`%left A. %nonassoc C B.` -/
def exStartDecl (start : Nat) : Gram where
  nterm := 4
  mts := [[2, 3]]
  nsym := 7
  rules := [⟨6, [5, 4], some 1, false⟩, ⟨5, [1], none, false⟩, ⟨5, [], none, true⟩]
  start := start
  errsym := none
  wildcard := none
  prec := fun t => if t = 1 then 1 else 2
  assoc := fun t => if t = 1 then .LEFT else .NONE

theorem exStartDecl_wf (S : Nat) : (exStartDecl S).WF :=
  have h : (exStartDecl 0).WF := ⟨by decide, by decide, by decide, by decide, by decide⟩
  ⟨h.nterm, h.nsym, h.lhs, h.rhs, h.mts⟩

theorem exStartDecl_prec (S : Nat) : PrecDecl (exStartDecl S) 2 where
  le := by
    intro t _ _
    simp only [exStartDecl]
    split <;> omega
  same := by
    intro s t _ _ _ _ _
    simp only [exStartDecl]
    by_cases h : s = 1 <;> by_cases h' : t = 1 <;> simp [h, h']

/-- the hypotheses of `C48_partial` are met, and the words printed -/
example : (exStartDecl 6).WF ∧ PrecDecl (exStartDecl 6) 2 ∧ (∀ r ∈ (exStartDecl 6).rules, (r.rhs.filter (exStartDecl 6).isMT).length ≤ 1) ∧
    reprintYacc (exStartDecl 6) 2 Rule.prec = some
      [.token, .sym 1, .sym 2, .sym 3, .assoc .LEFT, .sym 1, .assoc .NONE, .sym 2, .sym 3, .start, .sym 6, .sep,
        .sym 6, .colon, .sym 5, .sym 2, .prec, .sym 1, .semi,
        .sym 6, .colon, .sym 5, .sym 3, .prec, .sym 1, .semi,
        .sym 5, .colon, .sym 1, .semi, .sym 5, .colon, .semi] :=
  ⟨exStartDecl_wf 6, exStartDecl_prec 6, by decide, by decide +kernel⟩

/-- the full precedences (option `-Y`) -/
example : (reprintYacc (exStartDecl 6) 2 (findRulePrec (exStartDecl 6) false false)).map (fun l => l.drop 26) = some
    [.sym 5, .colon, .sym 1, .prec, .sym 1, .semi, .sym 5, .colon, .semi] := by
  decide +kernel

/-- the hypothesis of `C48_overrun`: `s ::= A|B C.` with a class of the one token `C` -/
example : let g : Gram := { exDiagonal with mts := [[1, 2], [3]] }
    reprintYacc g 0 Rule.prec = none := by
  decide +kernel

theorem exDiagonal_derives {Y : YaccFile} (hY : Y.rules = [⟨7, [1, 3], none⟩, ⟨7, [2, 4], none⟩]) {w : List Nat} (h : (Y.cfg 5).Derives [7] w) :
    w = [7] ∨ w = [1, 3] ∨ w = [2, 4] := by
  induction h with
  | refl => exact .inl rfl
  | tail _ hs ih =>
    cases hs with
    | @mk u v A α hr =>
      simp only [YaccFile.cfg, hY, List.map_cons, List.map_nil, List.mem_cons, List.not_mem_nil, or_false, Prod.mk.injEq] at hr
      have hA : A = 7 := by rcases hr with h | h <;> exact h.1
      subst hA
      have h7 : u = [] ∧ v = [] := by
        rcases ih with h | h | h
        · cases u with
          | nil => simpa using h
          | cons a u => simp at h
        · exfalso
          have : (7 : Nat) ∈ [1, 3] := by rw [← h]; simp
          simp at this
        · exfalso
          have : (7 : Nat) ∈ [2, 4] := by rw [← h]; simp
          simp at this
      obtain ⟨rfl, rfl⟩ := h7
      rcases hr with h | h <;> simp [h.2]

theorem exStartDecl_derives {Y : YaccFile} (hY : Y.rules = [⟨6, [5, 2], some 1⟩, ⟨6, [5, 3], some 1⟩, ⟨5, [1], none⟩, ⟨5, [], none⟩]) {w : List Nat}
    (h : (Y.cfg 4).Derives [6] w) : w ≠ [1] := by
  have : w = [6] ∨ w.getLast? = some 2 ∨ w.getLast? = some 3 := by
    induction h with
    | refl => exact .inl rfl
    | tail _ hs ih =>
      cases hs with
      | @mk u v A α hr =>
        simp only [YaccFile.cfg, hY, List.map_cons, List.map_nil, List.mem_cons, List.not_mem_nil, or_false, Prod.mk.injEq] at hr
        right
        rcases List.eq_nil_or_concat v with rfl | ⟨v', x, rfl⟩
        · rcases ih with h | h | h
          · have h6 : u = [] ∧ A = 6 := by
              cases u with
              | nil => simpa using h
              | cons a u => simp at h
            obtain ⟨rfl, rfl⟩ := h6
            rcases hr with h | h | h | h
            · simp [h.2]
            · simp [h.2]
            · simp at h
            · simp at h
          · have : A = 2 := by simpa using h
            rcases hr with h | h | h | h <;> omega
          · have : A = 3 := by simpa using h
            rcases hr with h | h | h | h <;> omega
        · rcases ih with h | h | h
          · exfalso
            have := congrArg List.length h
            simp at this
            omega
          · left
            rw [List.concat_eq_append, ← List.cons_append, ← List.append_assoc, List.getLast?_concat] at h
            rw [List.concat_eq_append, ← List.append_assoc, ← List.append_assoc, List.getLast?_concat]
            exact h
          · right
            rw [List.concat_eq_append, ← List.cons_append, ← List.append_assoc, List.getLast?_concat] at h
            rw [List.concat_eq_append, ← List.append_assoc, ← List.append_assoc, List.getLast?_concat]
            exact h
  rintro rfl
  simp at this

/-- What C48 claims is false in general.  With two multi-terminals in a rule sentences are lost; with a
declared start symbol that is not the left-hand side of the first rule the file is for another
language. -/
theorem C48_violated :
    (∃ (g : Gram) (Y : YaccFile), g.WF ∧ g.rules.head?.map Rule.lhs = some g.start ∧ reprintYacc g 0 Rule.prec = some Y.text ∧
      g.cfg.Sentence g.start [1, 4] ∧ ¬ (Y.cfg g.nterm).Sentence Y.start [1, 4]) ∧
    (∃ (g : Gram) (Y : YaccFile), g.WF ∧ (∀ r ∈ g.rules, (r.rhs.filter g.isMT).length ≤ 1) ∧ reprintYacc g 2 Rule.prec = some Y.text ∧
      g.cfg.Sentence g.start [1] ∧ ¬ (Y.cfg g.nterm).Sentence Y.start [1]) := by
  constructor
  · refine ⟨exDiagonal, ⟨[1, 2, 3, 4], [], 7, [⟨7, [1, 3], none⟩, ⟨7, [2, 4], none⟩]⟩,
      ⟨by decide, by decide, by decide, by decide, by decide⟩, rfl, by decide +kernel, ⟨by decide, ?_⟩, ?_⟩
    · have h1 : exDiagonal.cfg.Step [7] [5, 6] := CFG.Step.mk [] [] (A := 7) (α := [5, 6]) (by decide)
      have h2 : exDiagonal.cfg.Step [5, 6] [1, 6] := CFG.Step.mk [] [6] (α := [1]) (by decide)
      have h3 : exDiagonal.cfg.Step [1, 6] [1, 4] := CFG.Step.mk [1] [] (α := [4]) (by decide)
      exact .tail (.tail (.single h1) h2) h3
    · rintro ⟨-, h⟩
      have := exDiagonal_derives rfl h
      simp at this
  · refine ⟨exStartDecl 5, ⟨[1, 2, 3], [(.LEFT, [1]), (.NONE, [2, 3])], 6, [⟨6, [5, 2], some 1⟩, ⟨6, [5, 3], some 1⟩, ⟨5, [1], none⟩, ⟨5, [], none⟩]⟩,
      exStartDecl_wf 5, by decide, by decide +kernel, ⟨by decide, ?_⟩, ?_⟩
    · have h1 : (exStartDecl 5).cfg.Step [5] [1] := CFG.Step.mk [] [] (α := [1]) (by decide)
      exact .single h1
    · rintro ⟨-, h⟩
      exact exStartDecl_derives rfl h rfl

end Verif.Lemon
