import Verif.Proofs.LemonGram
import Verif.Proofs.Grammar
import Verif.Spec.LemonGen
/-
Helper lemmas for C73: the language of the file and that of the grammar made of it.
-/
set_option autoImplicit false
namespace Verif.Lemon
open Verif.Spec.GFile
open Verif.Spec (CFG)

variable {o : Opts} {items : List Verif.Spec.GFile.Item} {s : RState} {g : Gram}

theorem idxOf_inj {α : Type} [BEq α] [LawfulBEq α] {l : List α} {x y : α} (hx : x ∈ l) (h : l.idxOf x = l.idxOf y) : x = y := by
  have h1 := List.idxOf_lt_length_of_mem hx
  have h2 : l.idxOf y < l.length := h ▸ h1
  have e1 : l[l.idxOf x] = x := List.getElem_idxOf h1
  have e2 : l[l.idxOf y] = y := List.getElem_idxOf h2
  rw [← e1, ← e2]
  congr 1

theorem tokenNumber_inj {x y : Word} (hx : x ∈ tokens o items) (h : tokenNumber o items x = tokenNumber o items y) : x = y :=
  idxOf_inj hx (by unfold tokenNumber at h; omega)

theorem gram_nterm (hg : s.gram = some g) : g.nterm = s.nterminal := by
  obtain ⟨S, _, rfl⟩ := Option.map_eq_some_iff.mp hg
  rfl
theorem gram_mts (hg : s.gram = some g) : g.mts = s.mts := by
  obtain ⟨S, _, rfl⟩ := Option.map_eq_some_iff.mp hg
  rfl
theorem gram_nsym (hg : s.gram = some g) : g.nsym = s.nsymbol + s.mts.length := by
  obtain ⟨S, _, rfl⟩ := Option.map_eq_some_iff.mp hg
  rfl
theorem gram_rules (hg : s.gram = some g) : g.rules = s.rules.map s.rule := by
  obtain ⟨S, _, rfl⟩ := Option.map_eq_some_iff.mp hg
  rfl

/-- the rules of the grammar are those of the file -/
theorem mem_gram_rules (hh : Holds o items s) (hg : s.gram = some g) (A : Nat) (α : List Nat) :
    (∃ r ∈ g.rules, r.lhs = A ∧ r.rhs = α) ↔ ∃ l a rhs line, .rule l a rhs line ∈ items ∧ A = s.num (.sym l) ∧ α = rhs.map (elemNum s items) := by
  rw [gram_rules hg]
  constructor
  · rintro ⟨r, hr, rfl, rfl⟩
    obtain ⟨r', hr', rfl⟩ := List.mem_map.mp hr
    obtain ⟨l, a, rhs, line, t, hp, rfl⟩ := (mem_rules hh r').mp hr'
    refine ⟨l, a, rhs, line, mem_parts _ _ hp, rfl, ?_⟩
    simp only [RState.rule, ruleOf, List.map_map]
    rfl
  · rintro ⟨l, a, rhs, line, hi, rfl, rfl⟩
    obtain ⟨t, ht⟩ := mem_parts_of items _ hi rfl
    refine ⟨_, List.mem_map.mpr ⟨_, (mem_rules hh _).mpr ⟨l, a, rhs, line, t, ht, rfl⟩, rfl⟩, rfl, ?_⟩
    simp only [RState.rule, ruleOf, List.map_map]
    rfl

theorem mem_cfg_rules (hh : Holds o items s) (hg : s.gram = some g) (A : Nat) (α : List Nat) :
    (A, α) ∈ g.cfg.rules ↔ (∃ l a rhs line, .rule l a rhs line ∈ items ∧ A = s.num (.sym l) ∧ α = rhs.map (elemNum s items)) ∨
      ∃ i t, ∃ h : i < s.mts.length, t ∈ s.mts[i] ∧ A = s.nterminal + i ∧ α = [t] := by
  rw [← mem_gram_rules hh hg]
  unfold Gram.cfg
  simp only [List.mem_append, List.mem_map, List.mem_flatMap, List.mem_range, Prod.mk.injEq, gram_mts hg, gram_nterm hg]
  refine or_congr Iff.rfl ?_
  constructor
  · rintro ⟨i, hi, t, ht, rfl, rfl⟩
    rw [List.getD_eq_getElem?_getD, List.getElem?_eq_getElem hi] at ht
    exact ⟨i, t, hi, ht, rfl, rfl⟩
  · rintro ⟨i, t, hi, ht, rfl, rfl⟩
    refine ⟨i, hi, t, ?_, rfl, rfl⟩
    rwa [List.getD_eq_getElem?_getD, List.getElem?_eq_getElem hi]

/-- left sides of rules are nonterminals -/
theorem lhs_nonterminal (hv : Valid o items) (hl : ∀ l a rhs line, .rule l a rhs line ∈ items → isClass items l = false) {l : Word} {a : Option Word}
    {rhs : List Elem} {line : Nat} (h : .rule l a rhs line ∈ items) : l ∈ nonterminals o items := by
  have hf := (valid_form hv _ h).1
  rw [mem_nonterminals]
  refine ⟨(mem_names _ _ _).mpr (.inr ⟨_, h, by simp [mentions]⟩), fun hu => upper_not_lower hu hf, ?_, hl _ _ _ _ h⟩
  rintro rfl
  exact dollar_not_letter (.inr hf)

theorem yields_of_stands (hv : Valid o items) (hh : Holds o items s) (hg : s.gram = some g)
    (hl : ∀ l a rhs line, .rule l a rhs line ∈ items → isClass items l = false) {es : List Elem} {w : List Word} (h : Stands items es w) :
    (∀ e ∈ es, ElemOK o items s e) → (∀ X ∈ w, X ∈ tokens o items) ∧ Verif.Spec.Yields g.cfg (es.map (elemNum s items)) (w.map (tokenNumber o items)) := by
  have hntok : g.cfg.ntok = 1 + (tokens o items).length := (gram_nterm hg).trans (nterminal_eq hv hh)
  have mt : ∀ {e : Elem} {es : List Elem} {X : Word} {w : List Word}, ElemOK o items s e → (Upper e.name ∧ e.alts ≠ []) ∨ isClass items e.name = true →
      X ∈ elemList items e → X ∈ tokens o items → Verif.Spec.Yields g.cfg (es.map (elemNum s items)) (w.map (tokenNumber o items)) →
      Verif.Spec.Yields g.cfg ((e :: es).map (elemNum s items)) ((X :: w).map (tokenNumber o items)) := by
    intro e es X w hok hk hX ht h
    obtain ⟨h1, h2⟩ := elem_mt hv hh hok hk
    have h3 := List.idxOf_lt_length_of_mem h1
    rw [List.map_cons, List.map_cons, ← List.singleton_append]
    refine .var (α := [tokenNumber o items X]) ?_ (.tok ?_ .nil) h
    · rw [mem_cfg_rules hh hg]
      right
      refine ⟨_, _, h3, ?_, h2, rfl⟩
      rw [List.getElem_idxOf, List.mem_map]
      exact ⟨X, hX, index_token hv hh X ht⟩
    · rw [hntok]
      exact (tokenNumber_bounds X ht).2
  induction h with
  | nil => intro _; exact ⟨by simp, .nil⟩
  | @token e es X w he hX _ ih =>
    intro hok
    obtain ⟨h1, h2⟩ := ih fun e he => hok e (by simp [he])
    have hoke := hok e (by simp)
    have hXt : X ∈ tokens o items := by
      rcases List.mem_cons.mp hX with rfl | hX
      · exact (mem_tokens _).mpr ⟨hoke.mem, he⟩
      · exact hoke.alts X hX
    refine ⟨by simpa using ⟨hXt, h1⟩, ?_⟩
    by_cases ha : e.alts = []
    · rw [ha] at hX
      obtain rfl := List.mem_singleton.mp hX
      have : elemNum s items e = tokenNumber o items e.name := by
        unfold elemNum
        rw [refOf_plain ha, num_token hv hh _ hXt]
      rw [List.map_cons, List.map_cons, this]
      refine .tok ?_ h2
      rw [hntok]
      exact (tokenNumber_bounds _ hXt).2
    · exact mt hoke (.inl ⟨he, ha⟩) (by unfold elemList; rw [upper_not_class hv he]; exact hX) hXt h2
  | @cls e es X w he hX _ ih =>
    intro hok
    obtain ⟨h1, h2⟩ := ih fun e he => hok e (by simp [he])
    have hXt := members_tokens hv _ _ hX
    refine ⟨by simpa using ⟨hXt, h1⟩, ?_⟩
    exact mt (hok e (by simp)) (.inr he) (by unfold elemList; rw [if_pos he]; exact hX) hXt h2
  | @rule e es rhs a line v w hr _ _ ih1 ih2 =>
    intro hok
    obtain ⟨h1, h2⟩ := ih2 fun e he => hok e (by simp [he])
    obtain ⟨h3, h4⟩ := ih1 fun e he => elem_ok hv hh hr e he
    have hnt := lhs_nonterminal hv hl hr
    have ha : e.alts = [] := by
      by_contra ha
      have := (mem_nonterminals _).mp hnt
      rcases (hok e (by simp)).kind ha with h | h
      · exact this.2.1 h
      · rw [this.2.2.2] at h; cases h
    refine ⟨?_, ?_⟩
    · intro X hX
      rcases List.mem_append.mp hX with h | h
      · exact h3 X h
      · exact h1 X h
    · rw [List.map_cons, List.map_append]
      refine .var ?_ h4 h2
      rw [mem_cfg_rules hh hg]
      left
      refine ⟨_, _, _, _, hr, ?_, rfl⟩
      unfold elemNum
      rw [refOf_plain ha]

/-- numbers of nonterminals are above the others -/
theorem elemNum_cases (hv : Valid o items) (hh : Holds o items s) {e : Elem} (h : ElemOK o items s e) :
    (Upper e.name ∧ e.alts = [] ∧ elemNum s items e = tokenNumber o items e.name ∧ elemNum s items e < s.nterminal) ∨
    (((Upper e.name ∧ e.alts ≠ []) ∨ isClass items e.name = true) ∧ ∃ h : s.mts.idxOf ((elemList items e).map s.index) < s.mts.length,
      elemNum s items e = s.nterminal + s.mts.idxOf ((elemList items e).map s.index) ∧ s.mts[s.mts.idxOf ((elemList items e).map s.index)] = (elemList items e).map s.index) ∨
    (e.name ∈ nonterminals o items ∧ e.alts = [] ∧ elemNum s items e = s.num (.sym e.name) ∧ s.nterminal + s.mts.length ≤ elemNum s items e) := by
  rcases h.cases with ⟨h1, h2⟩ | hk | hk | ⟨h1, h2⟩
  · left
    have ht : e.name ∈ tokens o items := (mem_tokens _).mpr ⟨h.mem, h1⟩
    have : elemNum s items e = tokenNumber o items e.name := by
      unfold elemNum
      rw [refOf_plain h2, num_token hv hh _ ht]
    refine ⟨h1, h2, this, ?_⟩
    rw [this, nterminal_eq hv hh]
    exact (tokenNumber_bounds _ ht).2
  · right; left
    obtain ⟨h1, h2⟩ := elem_mt hv hh h (.inl hk)
    exact ⟨.inl hk, List.idxOf_lt_length_of_mem h1, h2, List.getElem_idxOf _⟩
  · right; left
    obtain ⟨h1, h2⟩ := elem_mt hv hh h (.inr hk)
    exact ⟨.inr hk, List.idxOf_lt_length_of_mem h1, h2, List.getElem_idxOf _⟩
  · right; right
    have : elemNum s items e = s.num (.sym e.name) := by
      unfold elemNum
      rw [refOf_plain h2]
    refine ⟨h1, h2, this, ?_⟩
    rw [this, num_nonterminal hv hh _ h1, nterminal_eq hv hh]
    omega

theorem nonterminal_inj (hv : Valid o items) (hh : Holds o items s) {x y : Word} (hx : x ∈ nonterminals o items) (hy : y ∈ nonterminals o items)
    (h : s.num (.sym x) = s.num (.sym y)) : x = y := by
  rw [num_nonterminal hv hh x hx, num_nonterminal hv hh y hy] at h
  exact idxOf_inj hx (by omega)

theorem stands_of_yields (hv : Valid o items) (hh : Holds o items s) (hg : s.gram = some g)
    (hl : ∀ l a rhs line, .rule l a rhs line ∈ items → isClass items l = false) {β w : List Nat} (h : Verif.Spec.Yields g.cfg β w) :
    ∀ es : List Elem, β = es.map (elemNum s items) → (∀ e ∈ es, ElemOK o items s e) → ∃ ws, w = ws.map (tokenNumber o items) ∧ Stands items es ws := by
  induction h with
  | nil =>
    intro es h _
    obtain rfl := List.map_eq_nil_iff.mp h.symm
    exact ⟨[], rfl, .nil⟩
  | @tok t β w ht h ih =>
    intro es he hok
    cases es with
    | nil => cases he
    | cons e es =>
      rw [List.map_cons, List.cons.injEq] at he
      obtain ⟨ws, rfl, h2⟩ := ih es he.2 fun e he => hok e (by simp [he])
      have ht' : t < s.nterminal := by rw [← gram_nterm hg]; exact ht
      rcases elemNum_cases hv hh (hok e (by simp)) with ⟨h3, h4, h5, _⟩ | ⟨_, _, h3, _⟩ | ⟨_, _, _, h3⟩
      · exact ⟨e.name :: ws, by rw [he.1, h5]; rfl, .token h3 (by simp) h2⟩
      · omega
      · omega
  | @var A α β w₁ w₂ hr h1 h2 ih1 ih2 =>
    intro es he hok
    cases es with
    | nil => cases he
    | cons e es =>
      rw [List.map_cons, List.cons.injEq] at he
      obtain ⟨ws, rfl, k2⟩ := ih2 es he.2 fun e he => hok e (by simp [he])
      have hc := elemNum_cases hv hh (hok e (by simp))
      rcases (mem_cfg_rules hh hg A α).mp hr with ⟨l, a, rhs, line, hi, rfl, rfl⟩ | ⟨i, t, hi, ht, rfl, rfl⟩
      · have hnt := lhs_nonterminal hv hl hi
        have hb := num_nonterminal hv hh l hnt
        have hn := nterminal_eq hv hh
        rcases hc with ⟨_, _, _, h3⟩ | ⟨_, h3, h4, _⟩ | ⟨h3, h4, h5, _⟩
        · omega
        · omega
        · obtain rfl := nonterminal_inj hv hh hnt h3 (by omega)
          obtain ⟨vs, rfl, k3⟩ := ih1 rhs rfl fun e he => elem_ok hv hh hi e he
          exact ⟨vs ++ ws, by simp, .rule hi k3 k2⟩
      · rcases hc with ⟨_, _, _, h3⟩ | ⟨hk, h3, h4, h5⟩ | ⟨_, _, _, h3⟩
        · omega
        · have hi' : i = s.mts.idxOf ((elemList items e).map s.index) := by omega
          subst hi'
          rw [h5] at ht
          obtain ⟨X, hX, rfl⟩ := List.mem_map.mp ht
          have hXt : X ∈ tokens o items := by
            unfold elemList at hX
            split at hX
            · exact members_tokens hv _ _ hX
            · rcases hk with hk | hk
              · rcases List.mem_cons.mp hX with rfl | hX
                · exact (mem_tokens _).mpr ⟨(hok e (by simp)).mem, hk.1⟩
                · exact (hok e (by simp)).alts X hX
              · contradiction
          have hw : w₁ = [s.index X] := by
            have hlt : s.index X < s.nterminal := by
              rw [index_token hv hh X hXt, nterminal_eq hv hh]
              exact (tokenNumber_bounds X hXt).2
            generalize hβ : [s.index X] = β at h1
            cases h1 with
            | nil => cases hβ
            | tok _ h =>
              rw [List.cons.injEq] at hβ
              obtain ⟨rfl, rfl⟩ := hβ
              cases h
              rfl
            | @var A _ _ _ _ hr' =>
              rw [List.cons.injEq] at hβ
              obtain ⟨rfl, rfl⟩ := hβ
              rcases (mem_cfg_rules hh hg _ _).mp hr' with ⟨l, a, rhs, line, hi, hA, _⟩ | ⟨i, t, hi, _, hA, _⟩
              · have hb := num_nonterminal hv hh l (lhs_nonterminal hv hl hi)
                have hn := nterminal_eq hv hh
                omega
              · omega
          refine ⟨X :: ws, ?_, ?_⟩
          · rw [hw, index_token hv hh X hXt]; rfl
          · unfold elemList at hX
            split at hX
            · exact .cls (by assumption) hX k2
            · rcases hk with hk | hk
              · exact .token hk.1 hX k2
              · contradiction
        · omega

end Verif.Lemon
