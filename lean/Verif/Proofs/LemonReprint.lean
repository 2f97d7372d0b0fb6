import Verif.Spec.LemonReprint
import Mathlib.Data.List.Forall2
set_option autoImplicit false
namespace Verif.Lemon
open Verif.Spec

/-! ### the text that text determines -/

theorem sym_prefix {α β : List Nat} {u v : List Word} (hu : ∀ X w, u ≠ .sym X :: w) (hv : ∀ X w, v ≠ .sym X :: w)
    (h : α.map Word.sym ++ u = β.map Word.sym ++ v) : α = β ∧ u = v := by
  induction α generalizing β with
  | nil =>
    cases β with
    | nil => exact ⟨rfl, h⟩
    | cons b β => exact absurd h (hu b _)
  | cons a α ih =>
    cases β with
    | nil => exact absurd h.symm (hv a _)
    | cons b β =>
      simp only [List.map_cons, List.cons_append, List.cons.injEq, Word.sym.injEq] at h
      obtain ⟨rfl, h⟩ := h
      obtain ⟨rfl, h'⟩ := ih h
      exact ⟨rfl, h'⟩

theorem ruleText_inj {r s : YaccRule} {u v : List Word} (h : r.text ++ u = s.text ++ v) : r = s ∧ u = v := by
  obtain ⟨l, α, p⟩ := r
  obtain ⟨l', α', p'⟩ := s
  simp only [YaccRule.text, List.cons_append, List.nil_append, List.append_assoc, List.cons.injEq, Word.sym.injEq, true_and] at h
  obtain ⟨rfl, h⟩ := h
  obtain ⟨rfl, h'⟩ := sym_prefix (by cases p <;> simp) (by cases p' <;> simp) h
  cases p <;> cases p' <;> simp at h'
  · exact ⟨rfl, h'⟩
  · obtain ⟨rfl, h'⟩ := h'
    exact ⟨rfl, h'⟩

theorem rulesText_inj {rs ss : List YaccRule} (h : rs.flatMap YaccRule.text = ss.flatMap YaccRule.text) : rs = ss := by
  induction rs generalizing ss with
  | nil =>
    cases ss with
    | nil => rfl
    | cons s ss => simp [YaccRule.text] at h
  | cons r rs ih =>
    cases ss with
    | nil => simp [YaccRule.text] at h
    | cons s ss =>
      simp only [List.flatMap_cons] at h
      obtain ⟨rfl, h'⟩ := ruleText_inj h
      rw [ih h']

theorem levelsText_inj {ls ms : List (Assoc × List Nat)} {u v : List Word} (hu : ∃ w, u = .start :: w) (hv : ∃ w, v = .start :: w)
    (h : ls.flatMap (fun l => Word.assoc l.1 :: l.2.map .sym) ++ u = ms.flatMap (fun l => Word.assoc l.1 :: l.2.map .sym) ++ v) :
    ls = ms ∧ u = v := by
  obtain ⟨u, rfl⟩ := hu
  obtain ⟨v, rfl⟩ := hv
  induction ls generalizing ms with
  | nil =>
    cases ms with
    | nil => exact ⟨rfl, h⟩
    | cons m ms => simp at h
  | cons l ls ih =>
    cases ms with
    | nil => simp at h
    | cons m ms =>
      simp only [List.flatMap_cons, List.cons_append, List.append_assoc, List.cons.injEq, Word.assoc.injEq] at h
      obtain ⟨e, h⟩ := h
      obtain ⟨e', h1⟩ := sym_prefix (by cases ls <;> simp) (by cases ms <;> simp) h
      obtain ⟨rfl, h2⟩ := ih h1
      exact ⟨by rw [Prod.ext e e'], h2⟩

/-- the words determine the file -/
theorem YaccFile.text_inj {Y Z : YaccFile} (h : Y.text = Z.text) : Y = Z := by
  obtain ⟨t, l, s, r⟩ := Y
  obtain ⟨t', l', s', r'⟩ := Z
  have ht : t = t' ∧ (l.flatMap (fun l => Word.assoc l.1 :: l.2.map .sym) ++ (Word.start :: .sym s :: .sep :: r.flatMap YaccRule.text)) =
      (l'.flatMap (fun l => Word.assoc l.1 :: l.2.map .sym) ++ (Word.start :: .sym s' :: .sep :: r'.flatMap YaccRule.text)) := by
    simp only [YaccFile.text, List.append_assoc, List.cons_append, List.nil_append] at h
    have key : ∀ (l : List (Assoc × List Nat)) (w : List Word) X v, l.flatMap (fun l => Word.assoc l.1 :: l.2.map .sym) ++ Word.start :: w ≠ .sym X :: v := by
      intro l w X v
      cases l <;> simp
    have key' : ∀ (l : List (Assoc × List Nat)) (w : List Word) v, l.flatMap (fun l => Word.assoc l.1 :: l.2.map .sym) ++ Word.start :: w ≠ .token :: v := by
      intro l w v
      cases l <;> simp
    by_cases h1 : t = [] <;> by_cases h2 : t' = []
    · simp only [h1, h2, if_true, List.nil_append] at h
      exact ⟨h1.trans h2.symm, h⟩
    · simp only [h1, h2, if_true, if_false, List.nil_append, List.cons_append] at h
      exact absurd h (key' _ _ _)
    · simp only [h1, h2, if_true, if_false, List.nil_append, List.cons_append] at h
      exact absurd h.symm (key' _ _ _)
    · simp only [h1, h2, if_false, List.cons_append, List.cons.injEq, true_and] at h
      exact sym_prefix (key _ _) (key _ _) h
  obtain ⟨rfl, h1⟩ := ht
  obtain ⟨rfl, h2⟩ := levelsText_inj ⟨_, rfl⟩ ⟨_, rfl⟩ h1
  simp only [List.cons.injEq, Word.sym.injEq, true_and] at h2
  obtain ⟨rfl, h3⟩ := h2
  rw [rulesText_inj h3]

/-! ### declarations -/

/-- the level `j` as a line -/
def levelOf (g : Gram) (j : Nat) : Option (Assoc × List Nat) :=
  match (List.range' 1 (g.nterm - 1)).filter (fun t => g.prec t == (j : Int)) with
  | [] => none
  | t :: ts => some (g.assoc t, t :: ts)

theorem reprintLevel_eq (g : Gram) (j : Nat) :
    reprintLevel g j = (levelOf g j).toList.flatMap (fun l => Word.assoc l.1 :: l.2.map .sym) := by
  unfold reprintLevel levelOf
  generalize (List.range' 1 (g.nterm - 1)).filter (fun t => g.prec t == (j : Int)) = l
  cases l <;> simp

theorem levels_eq (g : Gram) (js : List Nat) :
    js.flatMap (reprintLevel g) = (js.filterMap (levelOf g)).flatMap (fun l => Word.assoc l.1 :: l.2.map .sym) := by
  induction js with
  | nil => rfl
  | cons j js ih =>
    rw [List.flatMap_cons, ih, reprintLevel_eq, List.filterMap_cons]
    cases levelOf g j <;> simp

theorem levelOf_mem {g : Gram} {j : Nat} {l : Assoc × List Nat} (h : levelOf g j = some l) :
    (∀ t, t ∈ l.2 ↔ 0 < t ∧ t < g.nterm ∧ g.prec t = j) ∧ ∃ t ∈ l.2, g.assoc t = l.1 := by
  unfold levelOf at h
  split at h
  · cases h
  · rename_i t ts e
    injection h with h
    subst h
    refine ⟨?_, t, by simp, rfl⟩
    intro x
    dsimp only
    rw [← e]
    simp only [List.mem_filter, List.mem_range'_1, beq_iff_eq]
    omega

theorem levelOf_none {g : Gram} {j : Nat} (h : levelOf g j = none) (t : Nat) : ¬ (0 < t ∧ t < g.nterm ∧ g.prec t = j) := by
  unfold levelOf at h
  split at h
  · rename_i e
    intro ht
    have : t ∈ (List.range' 1 (g.nterm - 1)).filter (fun t => g.prec t == (j : Int)) := by
      simp only [List.mem_filter, List.mem_range'_1, beq_iff_eq]
      omega
    rw [e] at this
    cases this
  · cases h

theorem precLines {g : Gram} {top : Nat} (h : PrecDecl g top) : PrecLines g ((List.range (top + 1)).filterMap (levelOf g)) := by
  refine ⟨?_, ?_, ?_, ?_⟩
  · intro l hl s hs t ht
    obtain ⟨j, -, hj⟩ := List.mem_filterMap.1 hl
    obtain ⟨k, -⟩ := levelOf_mem hj
    rw [((k s).1 hs).2.2, ((k t).1 ht).2.2]
  · intro l hl t ht
    obtain ⟨j, -, hj⟩ := List.mem_filterMap.1 hl
    obtain ⟨k, s, hs, es⟩ := levelOf_mem hj
    have a := (k s).1 hs
    have b := (k t).1 ht
    rw [← es]
    exact h.same t s b.1 b.2.1 a.1 a.2.1 (by omega) (by omega)
  · intro t
    constructor
    · rintro ⟨l, hl, ht⟩
      obtain ⟨j, -, hj⟩ := List.mem_filterMap.1 hl
      have b := ((levelOf_mem hj).1 t).1 ht
      exact ⟨b.1, b.2.1, by omega⟩
    · rintro ⟨h1, h2, h3⟩
      have h4 := h.le t h1 h2
      have hj : (g.prec t).toNat ∈ List.range (top + 1) := by
        rw [List.mem_range]
        omega
      cases e : levelOf g (g.prec t).toNat with
      | none => exact absurd ⟨h1, h2, by omega⟩ (levelOf_none e t)
      | some l => exact ⟨l, List.mem_filterMap.2 ⟨_, hj, e⟩, ((levelOf_mem e).1 t).2 ⟨h1, h2, by omega⟩⟩
  · rw [List.pairwise_filterMap]
    refine List.Pairwise.imp ?_ List.pairwise_lt_range
    intro i j hij l hl l' hl' s hs t ht
    rw [((levelOf_mem hl).1 s).1 hs |>.2.2, ((levelOf_mem hl').1 t).1 ht |>.2.2]
    omega

theorem tokenDecl_eq (g : Gram) :
    reprintTokenDecl g = if List.range' 1 (g.nterm - 1) = [] then [] else Word.token :: (List.range' 1 (g.nterm - 1)).map Word.sym := by
  unfold reprintTokenDecl
  by_cases h : g.nterm ≤ 1
  · rw [if_pos h, if_pos (by simp; omega)]
  · rw [if_neg h, if_neg (by simp; omega)]

/-! ### rules -/

/-- the rule with number `k` chosen from the multi-terminals -/
def ruleAt (g : Gram) (r : Rule) (p : Option Nat) (k : Option Nat) : Option YaccRule :=
  (r.rhs.mapM (yaccSym g k)).map fun α => ⟨r.lhs, α, p⟩

theorem ruleYacc0_eq (g : Gram) (r : Rule) (p : Option Nat) (k : Option Nat) :
    (ruleYacc0 g r k).map (· ++ ruleYaccEnd p) = (ruleAt g r p k).map YaccRule.text := by
  unfold ruleYacc0 ruleAt
  cases r.rhs.mapM (yaccSym g k) with
  | none => rfl
  | some α => cases p <;> simp [YaccRule.text, ruleYaccEnd]

/-- the numbers for which a rule is printed -/
def ruleNums (g : Gram) (r : Rule) : List (Option Nat) :=
  match r.rhs.find? g.isMT with
  | some X => (List.range (g.subsym X).length).map some
  | none => [none]

theorem mapM_map_opt {α β γ : Type} (f : α → Option β) (h : β → γ) (l : List α) :
    l.mapM (fun x => (f x).map h) = (l.mapM f).map (List.map h) := by
  induction l with
  | nil => rfl
  | cons a l ih =>
    rw [List.mapM_cons, List.mapM_cons, ih]
    cases f a <;> simp
    cases l.mapM f <;> simp

theorem ruleYacc_eq (g : Gram) (r : Rule) (p : Option Nat) :
    ruleYacc g r p = ((ruleNums g r).mapM (ruleAt g r p)).map (List.flatMap YaccRule.text) := by
  unfold ruleYacc ruleNums
  cases r.rhs.find? g.isMT with
  | none =>
    simp only [ruleYacc0_eq, List.mapM_cons, List.mapM_nil]
    cases ruleAt g r p none <;> simp
  | some X =>
    dsimp only
    simp only [ruleYacc0_eq]
    rw [List.mapM_map, mapM_map_opt]
    change Option.map _ (Option.map _ (List.mapM (ruleAt g r p ∘ some) _)) = _
    cases List.mapM (ruleAt g r p ∘ some) (List.range (g.subsym X).length) with
    | none => rfl
    | some l => simp [List.flatMap]

/-- the rules printed for a rule -/
def ruleYaccs (g : Gram) (p : Rule → Option Nat) (r : Rule) : Option (List YaccRule) := (ruleNums g r).mapM (ruleAt g r (p r))

/-- the file printed -/
def yaccFile (g : Gram) (top : Nat) (p : Rule → Option Nat) : Option YaccFile :=
  match g.rules with
  | [] => none
  | first :: _ => (g.rules.mapM (ruleYaccs g p)).map fun rs =>
      ⟨List.range' 1 (g.nterm - 1), (List.range (top + 1)).filterMap (levelOf g), first.lhs, rs.flatten⟩

theorem reprintYacc_eq (g : Gram) (top : Nat) (p : Rule → Option Nat) : reprintYacc g top p = (yaccFile g top p).map YaccFile.text := by
  unfold reprintYacc yaccFile
  split
  · simp_all
  · rename_i first rest e
    rw [e]
    dsimp only
    rw [← e]
    have : (fun r => ruleYacc g r (p r)) = fun r => (ruleYaccs g p r).map (List.flatMap YaccRule.text) := by
      funext r
      exact ruleYacc_eq g r (p r)
    rw [this, mapM_map_opt, Option.map_map, Option.map_map]
    congr 1
    funext rs
    simp only [Function.comp, YaccFile.text, tokenDecl_eq, levels_eq, List.append_assoc]
    have e2 : (rs.map (List.flatMap YaccRule.text)).flatten = rs.flatten.flatMap YaccRule.text := by
      rw [List.flatMap_def, List.map_flatten, List.flatten_flatten, List.map_map]
      rfl
    rw [e2]

theorem mapM_mem {α β : Type} {f : α → Option β} {l : List α} {bs : List β} (h : l.mapM f = some bs) (b : β) :
    b ∈ bs ↔ ∃ a ∈ l, f a = some b := by
  induction l generalizing bs with
  | nil => cases h; simp
  | cons a l ih =>
    rw [List.mapM_cons] at h
    cases e : f a with
    | none => rw [e] at h; cases h
    | some c =>
      rw [e] at h
      cases e' : l.mapM f with
      | none => rw [e'] at h; cases h
      | some cs =>
        rw [e'] at h
        cases h
        simp [ih e', e, eq_comm]

theorem mapM_none {α β : Type} {f : α → Option β} {l : List α} : l.mapM f = none ↔ ∃ a ∈ l, f a = none := by
  induction l with
  | nil => simp
  | cons a l ih =>
    rw [List.mapM_cons]
    cases e : f a with
    | none => simp [e]
    | some c =>
      cases e' : l.mapM f with
      | none => simp [e, ← ih, e']
      | some cs => simp [e, ← ih, e']

theorem rules_mem {g : Gram} {p : Rule → Option Nat} {rs : List (List YaccRule)} (h : g.rules.mapM (ruleYaccs g p) = some rs) (y : YaccRule) :
    y ∈ rs.flatten ↔ ∃ r ∈ g.rules, ∃ k ∈ ruleNums g r, ruleAt g r (p r) k = some y := by
  rw [List.mem_flatten]
  constructor
  · rintro ⟨l, hl, hy⟩
    obtain ⟨r, hr, e⟩ := (mapM_mem h l).1 hl
    exact ⟨r, hr, (mapM_mem e y).1 hy⟩
  · rintro ⟨r, hr, hk⟩
    cases e : ruleYaccs g p r with
    | none => rw [mapM_none.2 ⟨r, hr, e⟩] at h; cases h
    | some l => exact ⟨l, (mapM_mem h l).2 ⟨r, hr, e⟩, (mapM_mem e y).2 hk⟩

theorem choice_of_mapM {g : Gram} {k : Option Nat} {α β : List Nat} (h : α.mapM (yaccSym g k) = some β) : Choice g α β := by
  induction α generalizing β with
  | nil => cases h; exact .nil
  | cons X α ih =>
    rw [List.mapM_cons] at h
    cases e : yaccSym g k X with
    | none => rw [e] at h; cases h
    | some Y =>
      rw [e] at h
      cases e' : α.mapM (yaccSym g k) with
      | none => rw [e'] at h; cases h
      | some γ =>
        rw [e'] at h
        cases h
        refine .cons ?_ (ih e')
        unfold yaccSym at e
        split
        · rename_i hX
          rw [if_pos hX] at e
          cases k with
          | none => cases e
          | some j => exact List.mem_of_getElem? e
        · rename_i hX
          rw [if_neg hX] at e
          injection e with e
          exact e.symm

theorem mapM_noMT {g : Gram} {k : Option Nat} {α β : List Nat} (h : Choice g α β) (hn : ∀ X ∈ α, g.isMT X = false) :
    α.mapM (yaccSym g k) = some β := by
  induction h with
  | nil => rfl
  | @cons X Y α β hxy _ ih =>
    have hX := hn X (by simp)
    rw [if_neg (by simp [hX])] at hxy
    rw [List.mapM_cons, ih fun Z hZ => hn Z (by simp [hZ])]
    simp [yaccSym, hX, hxy]

/-- a rule with at most one multi-terminal: every choice is printed -/
theorem choice_printed {g : Gram} {α β : List Nat} (h : Choice g α β) (h1 : (α.filter g.isMT).length ≤ 1) (l : Nat) (c : Bool) (q p : Option Nat) :
    ∃ k ∈ ruleNums g ⟨l, α, q, c⟩, ruleAt g ⟨l, α, q, c⟩ p k = some ⟨l, β, p⟩ := by
  suffices hs : ∃ k ∈ ruleNums g ⟨l, α, q, c⟩, α.mapM (yaccSym g k) = some β by
    obtain ⟨k, hk, e⟩ := hs
    exact ⟨k, hk, by simp [ruleAt, e]⟩
  have main : (∃ X, α.find? g.isMT = some X ∧ ∃ j, j < (g.subsym X).length ∧ α.mapM (yaccSym g (some j)) = some β) ∨
      (α.find? g.isMT = none ∧ α.mapM (yaccSym g none) = some β) := by
    induction h with
    | nil => right; exact ⟨rfl, rfl⟩
    | @cons X Y α β hxy hr ih =>
      by_cases hX : g.isMT X
      · left
        refine ⟨X, by simp [hX], ?_⟩
        rw [if_pos hX] at hxy
        obtain ⟨j, hj, e⟩ := List.mem_iff_getElem.1 hxy
        refine ⟨j, hj, ?_⟩
        have hno : ∀ Z ∈ α, g.isMT Z = false := by
          rw [List.filter_cons, if_pos hX, List.length_cons] at h1
          have : α.filter g.isMT = [] := List.eq_nil_of_length_eq_zero (by omega)
          rw [List.filter_eq_nil_iff] at this
          intro Z hZ
          simpa using this Z hZ
        rw [List.mapM_cons, mapM_noMT hr hno]
        simp [yaccSym, hX, List.getElem?_eq_getElem hj, e]
      · rw [if_neg hX] at hxy
        rw [List.filter_cons, if_neg hX] at h1
        rcases ih h1 with ⟨Z, e, j, hj, e'⟩ | ⟨e, e'⟩
        · left
          refine ⟨Z, by simp [hX, e], j, hj, ?_⟩
          rw [List.mapM_cons, e']
          simp [yaccSym, hX, hxy]
        · right
          refine ⟨by simp [hX]; simpa using e, ?_⟩
          rw [List.mapM_cons, e']
          simp [yaccSym, hX, hxy]
  rcases main with ⟨X, e, j, hj, e'⟩ | ⟨e, e'⟩
  · exact ⟨some j, by simp [ruleNums, e, hj], e'⟩
  · exact ⟨none, by simp [ruleNums, e], e'⟩

/-! ### sentences -/

theorem Choice.append {g : Gram} {α β α' β' : List Nat} (h : Choice g α α') (h' : Choice g β β') : Choice g (α ++ β) (α' ++ β') :=
  List.rel_append h h'

theorem Choice.split {g : Gram} {α β γ : List Nat} (h : Choice g (α ++ β) γ) : ∃ α' β', γ = α' ++ β' ∧ Choice g α α' ∧ Choice g β β' := by
  induction α generalizing γ with
  | nil => exact ⟨[], γ, rfl, .nil, h⟩
  | cons X α ih =>
    cases h with
    | cons hx h =>
      obtain ⟨α', β', rfl, h1, h2⟩ := ih h
      exact ⟨_ :: α', β', rfl, .cons hx h1, h2⟩

theorem Choice.self {g : Gram} {α : List Nat} (h : ∀ X ∈ α, g.isMT X = false) : Choice g α α := by
  induction α with
  | nil => exact .nil
  | cons X α ih => exact .cons (by simp [h X]) (ih fun Z hZ => h Z (by simp [hZ]))

theorem mt_rule {g : Gram} {X t : Nat} (hX : g.isMT X) (h : t ∈ g.subsym X) : (X, [t]) ∈ g.cfg.rules := by
  have hX' : g.nterm ≤ X ∧ X < g.nterm + g.mts.length := by
    clear h
    simp [Gram.isMT, Gram.nlow] at hX
    exact ⟨hX.1, of_decide_eq_true hX.2⟩
  simp only [Gram.cfg, List.mem_append, List.mem_flatMap, List.mem_map, List.mem_range]
  right
  refine ⟨X - g.nterm, by omega, t, h, ?_⟩
  simp only [Prod.mk.injEq, and_true]
  omega

theorem derives_context {G : CFG} {α β : List Nat} (u v : List Nat) (h : G.Derives α β) : G.Derives (u ++ α ++ v) (u ++ β ++ v) := by
  induction h with
  | refl => exact .refl
  | tail _ hs ih =>
    refine ih.tail ?_
    cases hs with
    | mk u' v' hr =>
      have := CFG.Step.mk (u ++ u') (v' ++ v) hr
      simpa [List.append_assoc] using this

theorem Choice.derives {g : Gram} {α β : List Nat} (h : Choice g α β) : g.cfg.Derives α β := by
  induction h with
  | nil => exact .refl
  | @cons X Y α β hxy _ ih =>
    have h1 : g.cfg.Derives (X :: α) (X :: β) := by
      simpa using derives_context [X] [] ih
    split at hxy
    · rename_i hX
      exact h1.tail (CFG.Step.mk [] β (mt_rule hX hxy))
    · rw [hxy]
      exact h1

theorem derives_of_rules {g : Gram} {G : CFG} (h : ∀ A α, (A, α) ∈ G.rules → ∃ r ∈ g.rules, r.lhs = A ∧ Choice g r.rhs α)
    {u v : List Nat} (hd : G.Derives u v) : g.cfg.Derives u v := by
  induction hd with
  | refl => exact .refl
  | tail _ hs ih =>
    cases hs with
    | @mk u v A α hr =>
      obtain ⟨r, hr', rfl, hc⟩ := h A α hr
      have h1 : g.cfg.Step (u ++ r.lhs :: v) (u ++ (r.rhs ++ v)) := by
        apply CFG.Step.mk
        simp only [Gram.cfg, List.mem_append, List.mem_map]
        left
        exact ⟨r, hr', rfl⟩
      have h2 := derives_context u v hc.derives
      simp only [List.append_assoc] at h2
      exact (ih.tail h1).trans h2

theorem rules_of_derives {g : Gram} (wf : g.WF) {G : CFG} (h : ∀ r ∈ g.rules, ∀ α, Choice g r.rhs α → (r.lhs, α) ∈ G.rules)
    {u w : List Nat} (hw : ∀ t ∈ w, t < g.nterm) (hd : g.cfg.Derives u w) : ∃ u', Choice g u u' ∧ G.Derives u' w := by
  induction hd using Relation.ReflTransGen.head_induction_on with
  | refl =>
    refine ⟨w, .self ?_, .refl⟩
    intro X hX
    have := hw X hX
    simp [Gram.isMT]
    omega
  | head hs _ ih =>
    obtain ⟨u1, hc, hd⟩ := ih
    cases hs with
    | @mk u v A α hr =>
      obtain ⟨a, b, rfl, h1, h2⟩ := hc.split
      obtain ⟨c, d, rfl, h3, h4⟩ := h2.split
      simp only [Gram.cfg, List.mem_append, List.mem_map, List.mem_flatMap, List.mem_range, Prod.mk.injEq] at hr
      rcases hr with ⟨r, hr, rfl, rfl⟩ | ⟨i, hi, t, ht, rfl, rfl⟩
      · refine ⟨a ++ r.lhs :: d, h1.append (.cons ?_ h4), ?_⟩
        · have := wf.lhs r hr
          rw [if_neg]
          simp [Gram.isMT]
          omega
        · exact Relation.ReflTransGen.head (CFG.Step.mk a d (h r hr c h3)) hd
      · have hmt : g.isMT (g.nterm + i) := by
          simp [Gram.isMT, Gram.nlow]
          omega
        have hsub : g.subsym (g.nterm + i) = g.mts.getD i [] := by
          unfold Gram.subsym
          rw [Nat.add_sub_cancel_left]
        have htt : t < g.nterm := by
          apply wf.mts _ _ t ht
          rw [List.getD_eq_getElem?_getD, List.getElem?_eq_getElem hi]
          exact List.getElem_mem hi
        have : c = [t] := by
          cases h3 with
          | cons hx h3 =>
            cases h3
            rw [if_neg (by simp [Gram.isMT]; omega)] at hx
            rw [hx]
        subst this
        refine ⟨a ++ t :: d, h1.append (.cons ?_ h4), hd⟩
        rw [if_pos hmt, hsub]
        exact ht

end Verif.Lemon
