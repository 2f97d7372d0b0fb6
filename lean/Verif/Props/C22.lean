import Verif.Proofs.Pack
import Mathlib.Data.List.Induction
/-
C22 — the internal grammar layout reproduces the grammar (byacc/reader.c, pack_grammar).
C23 — rule precedence selection (byacc part).
-/
set_option autoImplicit false
namespace Verif.Byacc
open Spec

/-- Reading a rule back from the arrays: its left side, and the entries of the item
array from the start of the rule to the first negative one. -/
def readRule (g : Gram) (i : Nat) : Nat × List Nat :=
  (g.lhs i, ((g.ritem.drop (g.rhs i)).takeWhile (fun x => decide (0 ≤ x))).map Int.toNat)

theorem takeWhile_of_layout (l : List Int) (p : Nat) (α : List Nat)
    (h1 : ∀ (d X : Nat), α[d]? = some X → l.getD (p + d) 0 = (X : Int))
    (h2 : l.getD (p + α.length) 0 < 0) :
    (l.drop p).takeWhile (fun x => decide (0 ≤ x)) = α.map (fun x : Nat => (x : Int)) := by
  induction α generalizing p with
  | nil =>
    simp only [List.length_nil, Nat.add_zero] at h2
    have hp : p < l.length := by
      by_contra hc
      rw [List.getD_eq_getElem?_getD, List.getElem?_eq_none (by omega)] at h2
      simp at h2
    rw [List.getD_eq_getElem?_getD, List.getElem?_eq_getElem hp] at h2
    rw [List.drop_eq_getElem_cons hp, List.takeWhile_cons]
    simp at h2
    simp; omega
  | cons X α ih =>
    have hp : p + (α.length + 1) < l.length := by
      by_contra hc
      rw [List.getD_eq_getElem?_getD, List.getElem?_eq_none (by simp; omega)] at h2
      simp at h2
    have h0 := h1 0 X (by simp)
    rw [Nat.add_zero, List.getD_eq_getElem?_getD, List.getElem?_eq_getElem (by omega)] at h0
    simp at h0
    rw [List.drop_eq_getElem_cons (by omega), List.takeWhile_cons]
    have := ih (p+1) (fun d Y hY => by
      have := h1 (d+1) Y (by simpa using hY)
      rwa [show p + 1 + d = p + (d+1) by omega]) (by
      rwa [show p + 1 + α.length = p + (X :: α).length by simp; omega])
    simp [h0, this]

/-- C22: for every list of user rules, reading rules 2, 3, … of the packed grammar back
gives `$accept: goal $end` followed by exactly the user's rules in order. -/
theorem C22_readback (lp : Bool) (ntokens nsyms : Nat) (rs : List SrcRule) :
    (List.range' 2 (rs.length + 1)).map
      (readRule (packGrammar lp ntokens nsyms (rs.map SrcRule.p) (encPitem rs))) =
    (ntokens, [ntokens + 1, 0]) :: rs.map SrcRule.rule := by
  have hp := packs_packGrammar lp ntokens nsyms rs
  generalize packGrammar lp ntokens nsyms (rs.map SrcRule.p) (encPitem rs) = g at *
  apply List.ext_getElem?
  intro k
  rcases Nat.lt_or_ge k (rs.length+1) with hk | hk
  · have hlen : k < (augCFG ntokens (rs.map SrcRule.rule)).rules.length := by simpa [augCFG] using hk
    obtain ⟨A, α, hr⟩ : ∃ A α, (augCFG ntokens (rs.map SrcRule.rule)).rules[k]? = some (A, α) :=
      ⟨_, _, List.getElem?_eq_getElem hlen⟩
    have hl := hp.lhs k A α hr
    have ht : (g.ritem.drop (g.rhs (k+2))).takeWhile (fun x => decide (0 ≤ x)) =
        α.map (fun x : Nat => (x : Int)) := by
      apply takeWhile_of_layout
      · intro d X hX
        exact hp.sym k A α d X hr hX
      · have := hp.term k A α hr
        simp only [Gram.item] at this
        rw [this]; omega
    simp only [augCFG] at hr
    rw [hr, List.getElem?_map, List.getElem?_range' hk]
    simp only [Option.map_some, readRule]
    rw [show 2 + 1 * k = k + 2 by omega, hl, ht]
    simp [List.map_map, Function.comp_def]
  · rw [List.getElem?_eq_none (by simpa using hk), List.getElem?_eq_none (by simpa using hk)]

/-- C22: from every position inside rule `i` (dot before the `d`-th symbol, or at the
end), walking forward to the first negative entry yields `-i`, the rule's number. -/
theorem C22_walk (lp : Bool) (ntokens nsyms : Nat) (rs : List SrcRule) (r d : Nat)
    (A : Nat) (α : List Nat)
    (hr : ((ntokens, [ntokens + 1, 0]) :: rs.map SrcRule.rule)[r]? = some (A, α)) (hd : d ≤ α.length) :
    let g := packGrammar lp ntokens nsyms (rs.map SrcRule.p) (encPitem rs)
    (g.ritem.drop (g.rhs (r+2) + d)).find? (fun x => decide (x < 0)) = some (-((r+2 : Nat) : Int)) := by
  intro g
  have hp : Packs g _ := packs_packGrammar lp ntokens nsyms rs
  have hterm := hp.term r A α hr
  have htw := takeWhile_of_layout g.ritem (g.rhs (r+2) + d) (α.drop d)
    (fun e X hX => by
      rw [List.getElem?_drop] at hX
      have := hp.sym r A α (d+e) X hr hX
      rwa [← Nat.add_assoc] at this)
    (by
      rw [List.length_drop, show g.rhs (r+2) + d + (α.length - d) = g.rhs (r+2) + α.length by omega]
      simp only [Gram.item] at hterm
      rw [hterm]; omega)
  have hfind : ∀ (l : List Int), l.find? (fun x => decide (x < 0)) =
      l[(l.takeWhile (fun x => decide (0 ≤ x))).length]? := by
    intro l
    induction l with
    | nil => simp
    | cons x l ih =>
      by_cases hx : 0 ≤ x
      · rw [List.find?_cons_of_neg (by simpa using hx), List.takeWhile_cons, ih]
        simp [hx]
      · rw [List.find?_cons_of_pos (by simpa using hx), List.takeWhile_cons]
        simp [hx]
  rw [hfind, htw, List.length_map, List.length_drop, List.getElem?_drop,
    show g.rhs (r+2) + d + (α.length - d) = g.rhs (r+2) + α.length by omega]
  simp only [Gram.item, List.getD_eq_getElem?_getD] at hterm
  rcases h : g.ritem[g.rhs (r+2) + α.length]? with _ | v
  · rw [h] at hterm; simp at hterm; omega
  · rw [h] at hterm; simpa using hterm

/-- A small source grammar: tokens 2 = NUM, 3 = '+', 4 = '*'; nonterminals 6 = expr
(goal), 7 = term. -/
def c22NUM : Bucket := ⟨2, true, 0, .TOKEN⟩
def c22PLUS : Bucket := ⟨3, true, 1, .LEFT⟩
def c22MUL : Bucket := ⟨4, true, 2, .LEFT⟩
def c22E : Bucket := ⟨6, false, 0, .TOKEN⟩
def c22T : Bucket := ⟨7, false, 0, .TOKEN⟩
def c22Rules : List SrcRule :=
  [⟨c22E, [c22E, c22PLUS, c22E], UNDEFINED, .TOKEN⟩, ⟨c22E, [c22T], UNDEFINED, .TOKEN⟩,
   ⟨c22T, [], UNDEFINED, .TOKEN⟩, ⟨c22T, [c22NUM, c22MUL, c22PLUS, c22T], UNDEFINED, .TOKEN⟩]

example : (packGrammar false 5 8 (c22Rules.map SrcRule.p) (encPitem c22Rules)).ritem =
    [-1, 6, 0, -2, 6, 3, 6, -3, 7, -4, -5, 2, 4, 3, 7, -6] := by decide

/-! ## C23 -/

/-- The documented precedence of a rule without `%prec`: yacc mode, the last terminal of
the right-hand side. -/
def yaccRulePrec (rhs : List Bucket) : Int × Assoc :=
  match (rhs.filter (·.isTerm)).getLast? with
  | some b => (b.prec, b.assoc)
  | none => (0, .TOKEN)

/-- Lemon mode: the first terminal that has a precedence, if any. -/
def lemonRulePrec (rhs : List Bucket) : Option (Int × Assoc) :=
  ((rhs.filter (·.isTerm)).find? (fun b => b.prec != 0)).map fun b => (b.prec, b.assoc)

theorem packRhs_yacc (bs : List Bucket) (rest : List (Option Bucket)) (p : Int) (a : Assoc) :
    let o := packRhs false (bs.map some ++ none :: rest) p a
    (o.prec, o.assoc) = match (bs.filter (·.isTerm)).getLast? with
      | some b => (b.prec, b.assoc)
      | none => (p, a) := by
  induction bs generalizing p a with
  | nil => simp [packRhs]
  | cons b bs ih =>
    simp only [List.map_cons, List.cons_append, packRhs, Bool.not_false, Bool.or_true, if_true]
    have := ih (if b.isTerm then b.prec else p) (if b.isTerm then b.assoc else a)
    simp only at this
    cases hb : b.isTerm
    · simp only [hb, if_false, Bool.false_eq_true] at this ⊢
      rw [this]; simp [List.filter_cons, hb]
    · simp only [hb, if_true] at this ⊢
      rw [this]
      simp only [List.filter_cons, hb, if_true]
      generalize bs.filter (·.isTerm) = l
      rcases l with _ | ⟨c, cs⟩
      · simp
      · rw [List.getLast?_cons_cons, List.getLast?_cons]

theorem packRhs_lemon (bs : List Bucket) (rest : List (Option Bucket)) (p : Int) (a : Assoc) :
    let o := packRhs true (bs.map some ++ none :: rest) p a
    (p ≠ 0 → (o.prec, o.assoc) = (p, a)) ∧
    (p = 0 → (∀ x, lemonRulePrec bs = some x → (o.prec, o.assoc) = x) ∧
      (lemonRulePrec bs = none → o.prec = 0)) := by
  induction bs generalizing p a with
  | nil => simp [packRhs, lemonRulePrec]
  | cons b bs ih =>
    simp only [List.map_cons, List.cons_append, packRhs, Bool.not_true, Bool.or_false, beq_iff_eq]
    cases hb : b.isTerm
    · have := ih p a
      simp only [Bool.false_eq_true, if_false]
      simpa [lemonRulePrec, List.filter_cons, hb] using this
    · simp only [if_true]
      by_cases hp : p = 0
      · subst hp
        simp only [if_true]
        have := ih b.prec b.assoc
        simp only at this
        refine ⟨by simp, fun _ => ?_⟩
        by_cases hbp : b.prec = 0
        · have h2 := this.2 hbp
          simp only [lemonRulePrec, List.filter_cons, hb, if_true, List.find?_cons, hbp] at h2 ⊢
          simpa using h2
        · have h1 := this.1 hbp
          have hne : (b.prec != 0) = true := by simpa using hbp
          simp only [lemonRulePrec, List.filter_cons, hb, if_true, List.find?_cons, hne]
          simpa using h1
      · simp only [hp, if_false]
        have := ih p a
        refine ⟨this.1, by simp [hp]⟩

theorem packRules_prec (lp : Bool) (rs : List SrcRule) (i j k : Nat) (hk : k < rs.length) :
    let o := packRules lp i j (rs.map SrcRule.p) (rs.flatMap SrcRule.enc)
    ∃ rest, o.rprec[k]? = some (if (rs[k]).rprec = UNDEFINED then
        (packRhs lp ((rs[k]).rhs.map some ++ none :: rest) 0 .TOKEN).prec else (rs[k]).rprec) ∧
      o.rassoc[k]? = some (if (rs[k]).rprec = UNDEFINED then
        (packRhs lp ((rs[k]).rhs.map some ++ none :: rest) 0 .TOKEN).assoc else (rs[k]).rassoc) := by
  induction rs generalizing i j k with
  | nil => simp at hk
  | cons s rs ih =>
    have e : (s :: rs).flatMap SrcRule.enc = s.rhs.map some ++ none :: rs.flatMap SrcRule.enc := by
      simp [SrcRule.enc]
    have h := packRhs_enc lp s.rhs (rs.flatMap SrcRule.enc) 0 .TOKEN
    simp only [e, List.map_cons, packRules, h.1, h.2]
    cases k with
    | zero => exact ⟨rs.flatMap SrcRule.enc, by simp [SrcRule.p], by simp [SrcRule.p]⟩
    | succ k =>
      simp only [List.getElem?_cons_succ, List.getElem_cons_succ]
      exact ih _ _ k (by simpa using hk)

/-- precedence and associativity stored for user rule `k` (internal number `k + 3`) -/
def rulePrec (g : Gram) (k : Nat) : Option Int × Option Assoc := (g.rprec[k+3]?, g.rassoc[k+3]?)

/-- C23: an explicit `%prec` always wins, in both modes. -/
theorem C23_explicit (lp : Bool) (ntokens nsyms : Nat) (rs : List SrcRule) (k : Nat)
    (hk : k < rs.length) (h : (rs[k]).rprec ≠ UNDEFINED) :
    rulePrec (packGrammar lp ntokens nsyms (rs.map SrcRule.p) (encPitem rs)) k =
      (some (rs[k]).rprec, some (rs[k]).rassoc) := by
  obtain ⟨rest, h1, h2⟩ := packRules_prec lp rs 3 4 k hk
  simp only [h, if_false] at h1 h2
  simp [rulePrec, packGrammar, encPitem, h1, h2]

/-- C23, yacc mode: without `%prec` the rule takes precedence and associativity of its
last terminal. -/
theorem C23_yacc (ntokens nsyms : Nat) (rs : List SrcRule) (k : Nat)
    (hk : k < rs.length) (h : (rs[k]).rprec = UNDEFINED) :
    rulePrec (packGrammar false ntokens nsyms (rs.map SrcRule.p) (encPitem rs)) k =
      (some (yaccRulePrec (rs[k]).rhs).1, some (yaccRulePrec (rs[k]).rhs).2) := by
  obtain ⟨rest, h1, h2⟩ := packRules_prec false rs 3 4 k hk
  simp only [h, if_true] at h1 h2
  have := packRhs_yacc (rs[k]).rhs rest 0 .TOKEN
  simp only [Prod.ext_iff] at this
  simp only [this.1, this.2] at h1 h2
  simp only [rulePrec, packGrammar, encPitem, yaccRulePrec]
  simp [h1, h2]

/-- C23, lemon mode (`-z`): without `%prec` the rule takes precedence and associativity of
the first terminal that has a precedence; if there is none it has no precedence. -/
theorem C23_lemon (ntokens nsyms : Nat) (rs : List SrcRule) (k : Nat)
    (hk : k < rs.length) (h : (rs[k]).rprec = UNDEFINED) :
    (∀ p a, lemonRulePrec (rs[k]).rhs = some (p, a) →
      rulePrec (packGrammar true ntokens nsyms (rs.map SrcRule.p) (encPitem rs)) k =
        (some p, some a)) ∧
    (lemonRulePrec (rs[k]).rhs = none →
      (rulePrec (packGrammar true ntokens nsyms (rs.map SrcRule.p) (encPitem rs)) k).1 = some 0) := by
  obtain ⟨rest, h1, h2⟩ := packRules_prec true rs 3 4 k hk
  simp only [h, if_true] at h1 h2
  have := (packRhs_lemon (rs[k]).rhs rest 0 .TOKEN).2 rfl
  constructor
  · intro p a hpa
    have := this.1 _ hpa
    simp only [Prod.ext_iff] at this
    simp only [this.1, this.2] at h1 h2
    simp [rulePrec, packGrammar, encPitem, h1, h2]
  · intro hn
    simp only [this.2 hn] at h1
    simp [rulePrec, packGrammar, encPitem, h1]

/-- C23, ignore option (`-u`): declarations give no symbol a precedence and `%prec` does
not touch a rule, so a rule whose symbols were all created without precedence ends with
none, in both modes. -/
theorem C23_ignore (lp : Bool) (ntokens nsyms : Nat) (rs : List SrcRule) (k : Nat)
    (hk : k < rs.length) (h : (rs[k]).rprec = UNDEFINED)
    (hb : ∀ b ∈ (rs[k]).rhs, b.isTerm = true → ∃ b0 assoc lvl, b0.prec = 0 ∧ b = declareToken true assoc lvl b0) :
    (rulePrec (packGrammar lp ntokens nsyms (rs.map SrcRule.p) (encPitem rs)) k).1 = some 0 ∧
    (∀ b r, markPrec true b r = r) := by
  refine ⟨?_, by simp [markPrec]⟩
  have hz : ∀ b ∈ (rs[k]).rhs, b.isTerm = true → b.prec = 0 := by
    intro b hbm hbt
    obtain ⟨b0, as, lvl, h0, rfl⟩ := hb b hbm hbt
    simp [declareToken, h0]
  cases lp
  · rw [C23_yacc ntokens nsyms rs k hk h]
    simp only [yaccRulePrec]
    split
    · rename_i b hl
      have := List.mem_filter.mp (List.mem_of_getLast? hl)
      simp [hz b this.1 this.2]
    · simp
  · apply (C23_lemon ntokens nsyms rs k hk h).2
    simp only [lemonRulePrec, Option.map_eq_none_iff, List.find?_eq_none]
    intro b hbm
    have := List.mem_filter.mp hbm
    simp [hz b this.1 this.2]

theorem declNames_spec (ignore : Bool) (assoc : Assoc) (prec : Int) (names : List Nat) (syms : List Bucket) (s : Nat) :
    (names.foldl (fun syms s => syms.modify s (declareToken ignore assoc prec)) syms)[s]? =
      if s ∈ names then (syms[s]?).map (declareToken ignore assoc prec) else syms[s]? := by
  have idem : ∀ b, declareToken ignore assoc prec (declareToken ignore assoc prec b) = declareToken ignore assoc prec b := by
    intro b
    unfold declareToken
    split <;> rfl
  induction names generalizing syms with
  | nil => simp
  | cons n names ih =>
    rw [List.foldl_cons, ih, List.getElem?_modify]
    by_cases h1 : n = s
    · subst h1
      simp only [List.mem_cons, true_or, if_true]
      split
      · cases syms[n]? <;> simp [idem]
      · rfl
    · have : s ≠ n := fun h => h1 h.symm
      simp only [h1, if_false, List.mem_cons, this, false_or]
      cases syms[s]? <;> simp

/-- C23, declarations: after all `%token`, `%left`, `%right`, `%nonassoc`, ... lines, symbol `s`
has the associativity of the last line other than `%token` naming it, and as precedence the number
of such lines up to and including that one; without such a line it keeps what it had.  Symbols
named anywhere are tokens. -/
theorem C23_declarations (decls : List (Assoc × List Nat)) (syms : List Bucket) (s : Nat) (b : Bucket)
    (hb : syms[s]? = some b) :
    ∃ b', (declareAll false decls syms).2[s]? = some b' ∧ b'.index = b.index ∧
      (b'.isTerm = true ↔ b.isTerm = true ∨ ∃ d ∈ decls, s ∈ d.2) ∧
      (∀ (k : Nat) (a : Assoc) (names : List Nat), decls[k]? = some (a, names) → a ≠ .TOKEN → s ∈ names →
        (∀ (k' : Nat) (a' : Assoc) (names' : List Nat), k < k' → decls[k']? = some (a', names') → a' ≠ .TOKEN → s ∉ names') →
        b'.assoc = a ∧ b'.prec = ((decls.take (k+1)).countP (fun d => d.1 ≠ .TOKEN) : Nat)) ∧
      ((∀ d ∈ decls, d.1 ≠ .TOKEN → s ∉ d.2) → b'.prec = b.prec ∧ b'.assoc = b.assoc) := by
  have key : ((declareAll false decls syms).1 = (decls.countP (fun d => d.1 ≠ .TOKEN) : Nat)) ∧
    ∃ b', (declareAll false decls syms).2[s]? = some b' ∧ b'.index = b.index ∧
      (b'.isTerm = true ↔ b.isTerm = true ∨ ∃ d ∈ decls, s ∈ d.2) ∧
      (∀ (k : Nat) (a : Assoc) (names : List Nat), decls[k]? = some (a, names) → a ≠ .TOKEN → s ∈ names →
        (∀ (k' : Nat) (a' : Assoc) (names' : List Nat), k < k' → decls[k']? = some (a', names') → a' ≠ .TOKEN → s ∉ names') →
        b'.assoc = a ∧ b'.prec = ((decls.take (k+1)).countP (fun d => d.1 ≠ .TOKEN) : Nat)) ∧
      ((∀ d ∈ decls, d.1 ≠ .TOKEN → s ∉ d.2) → b'.prec = b.prec ∧ b'.assoc = b.assoc) := by
    induction decls using List.reverseRecOn with
    | nil => exact ⟨rfl, b, hb, rfl, by simp, by simp, by simp⟩
    | append_singleton ds d ih =>
      obtain ⟨i0, b1, i1, i2, i3, i4, i5⟩ := ih
      have e : declareAll false (ds ++ [d]) syms = declareTokens false d.1 d.2 (declareAll false ds syms) := by
        simp [declareAll]
      have e1 : (declareAll false (ds ++ [d]) syms).1 = ((ds ++ [d]).countP (fun d => d.1 ≠ .TOKEN) : Nat) := by
        rw [e, List.countP_append]
        simp only [declareTokens, i0]
        by_cases h : d.1 = .TOKEN <;> simp [h]
      refine ⟨e1, ?_⟩
      have e2 : (declareAll false (ds ++ [d]) syms).2[s]? =
          some (if s ∈ d.2 then declareToken false d.1 (declareAll false (ds ++ [d]) syms).1 b1 else b1) := by
        rw [e]
        simp only [declareTokens]
        rw [declNames_spec, i1]
        split <;> rfl
      refine ⟨_, e2, ?_, ?_, ?_, ?_⟩
      · rw [← i2]; split
        · unfold declareToken; split <;> rfl
        · rfl
      · by_cases hs : s ∈ d.2
        · rw [if_pos hs]
          have : (declareToken false d.1 (declareAll false (ds ++ [d]) syms).1 b1).isTerm = true := by
            unfold declareToken; split <;> rfl
          simp only [this, true_iff]
          exact .inr ⟨d, by simp, hs⟩
        · rw [if_neg hs, i3]
          simp only [List.mem_append, List.mem_singleton]
          constructor
          · rintro (h | ⟨d', h, h'⟩)
            · exact .inl h
            · exact .inr ⟨d', .inl h, h'⟩
          · rintro (h | ⟨d', h | rfl, h'⟩)
            · exact .inl h
            · exact .inr ⟨d', h, h'⟩
            · exact absurd h' hs
      · intro k a names hk ha hs hlast
        by_cases hkl : k < ds.length
        · rw [List.getElem?_append_left hkl] at hk
          have hnd : ¬ (d.1 ≠ .TOKEN ∧ s ∈ d.2) := by
            rintro ⟨h1, h2⟩
            exact hlast ds.length d.1 d.2 hkl (by simp) h1 h2
          have hb1 := i4 k a names hk ha hs (by
            intro k' a' names' h1 h2 h3
            refine hlast k' a' names' h1 ?_ h3
            rw [List.getElem?_append_left (List.getElem?_eq_some_iff.mp h2).1]; exact h2)
          rw [List.take_append_of_le_length (by omega), ← hb1.1, ← hb1.2]
          by_cases hs' : s ∈ d.2
          · have hd : d.1 = .TOKEN := by by_contra h; exact hnd ⟨h, hs'⟩
            rw [if_pos hs']
            simp [declareToken, hd]
          · rw [if_neg hs']; simp
        · have hke : k = ds.length := by
            have := (List.getElem?_eq_some_iff.mp hk).1
            rw [List.length_append, List.length_singleton] at this
            omega
          subst hke
          rw [List.getElem?_concat_length] at hk
          simp only [Option.some.injEq] at hk
          subst hk
          rw [if_pos hs, List.take_of_length_le (by simp), ← e1]
          simp [declareToken, ha]
      · intro hn
        have hb1 := i5 (fun d' h => hn d' (by simp [h]))
        rw [← hb1.1, ← hb1.2]
        by_cases hs' : s ∈ d.2
        · have hd : d.1 = .TOKEN := by by_contra h; exact hn d (by simp) h hs'
          rw [if_pos hs']
          simp [declareToken, hd]
        · rw [if_neg hs']; simp
  exact key.2

/-- `%token A` , `%left A B`, `%token C`, `%right C`, `%nonassoc A` -/
example : (declareAll false [(.TOKEN, [0]), (.LEFT, [0, 1]), (.TOKEN, [2]), (.RIGHT, [2]), (.NONASSOC, [0])]
      [⟨0, false, 0, .TOKEN⟩, ⟨1, false, 0, .TOKEN⟩, ⟨2, false, 0, .TOKEN⟩]).2 =
    [⟨0, true, 3, .NONASSOC⟩, ⟨1, true, 1, .LEFT⟩, ⟨2, true, 2, .RIGHT⟩] := by decide

example : rulePrec (packGrammar false 5 8 (c22Rules.map SrcRule.p) (encPitem c22Rules)) 3 =
      (some 1, some .LEFT) ∧
    rulePrec (packGrammar true 5 8 (c22Rules.map SrcRule.p) (encPitem c22Rules)) 3 =
      (some 2, some .LEFT) := by decide

example : declareToken true .LEFT 3 ⟨3, false, 0, .TOKEN⟩ = ⟨3, true, 0, .TOKEN⟩ ∧
    declareToken false .LEFT 3 ⟨3, false, 0, .TOKEN⟩ = ⟨3, true, 3, .LEFT⟩ := by decide

end Verif.Byacc
