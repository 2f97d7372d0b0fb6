import Verif.Proofs.LemonReadLoops
import Mathlib.Data.List.TakeWhile
/-
Helper lemmas for C72: what a file says after a further item.
-/
set_option autoImplicit false
namespace Verif.Lemon
open Verif.Spec.GFile

/-! ### the rules -/

theorem sinceRule_none (t : List Item) (h : ∀ i ∈ t, i.isRule = false) : sinceRule t = t := by
  unfold sinceRule
  rw [List.takeWhile_eq_self_iff.mpr]
  · simp
  · intro x hx; simp at hx; simp [h x hx]

theorem sinceRule_cons_some (a : Item) (t : List Item) (h : ∃ i ∈ t, i.isRule = true) : sinceRule (a :: t) = sinceRule t := by
  unfold sinceRule
  rw [List.reverse_cons, List.takeWhile_append]
  have : ¬ (List.takeWhile (fun i => !Item.isRule i) t.reverse).length = t.reverse.length := by
    intro hl
    have h2 := (List.takeWhile_prefix (fun i => !Item.isRule i) (l := t.reverse)).eq_of_length hl
    rw [List.takeWhile_eq_self_iff] at h2
    obtain ⟨i, hi, hi'⟩ := h
    have := h2 i (by simp [hi])
    simp [hi'] at this
  rw [if_neg this]

theorem sinceRule_cons_rule (a : Item) (t : List Item) (h : ∀ i ∈ t, i.isRule = false) (ha : a.isRule = true) : sinceRule (a :: t) = t := by
  unfold sinceRule
  rw [List.reverse_cons, List.takeWhile_append]
  have h2 : List.takeWhile (fun i => !Item.isRule i) t.reverse = t.reverse := List.takeWhile_eq_self_iff.mpr (by
    intro x hx; simp at hx; simp [h x hx])
  rw [h2, if_pos rfl]
  simp [ha]

theorem parts_rule (pre : List Item) (it : Item) (h : it.isRule = true) : parts (pre ++ [it]) = parts pre ++ [(it, [])] := by
  induction pre with
  | nil => simp [parts, h]
  | cons a t ih =>
    rw [List.cons_append, parts, parts, ih]
    have : List.takeWhile (fun i => !Item.isRule i) (t ++ [it]) = List.takeWhile (fun i => !Item.isRule i) t := by
      rw [List.takeWhile_append]
      split
      · simp [h, List.takeWhile_eq_self_iff.mpr]
        next hl =>
        have h2 := (List.takeWhile_prefix (fun i => !Item.isRule i) (l := t)).eq_of_length hl
        exact h2.symm
      · rfl
    rw [this]
    split <;> simp

/-- a further item belongs to the last rule -/
theorem parts_other (pre : List Item) (it : Item) (h : it.isRule = false) :
    ((∀ i ∈ pre, i.isRule = false) ∧ parts pre = [] ∧ parts (pre ++ [it]) = []) ∨
    ∃ P r, (∃ i ∈ pre, i.isRule = true) ∧ r.isRule = true ∧ parts pre = P ++ [(r, sinceRule pre)] ∧ parts (pre ++ [it]) = P ++ [(r, sinceRule pre ++ [it])] := by
  induction pre with
  | nil => left; simp [parts, h]
  | cons a t ih =>
    by_cases ha : a.isRule
    · right
      rcases ih with ⟨h1, h2, h3⟩ | ⟨P, r, h1, h2, h3, h4⟩
      · refine ⟨[], a, ⟨a, by simp, ha⟩, ha, ?_, ?_⟩
        · rw [parts, if_pos ha, h2, sinceRule_cons_rule a t h1 ha, List.takeWhile_eq_self_iff.mpr (by intro x hx; simp [h1 x hx])]; rfl
        · rw [List.cons_append, parts, if_pos ha, h3, sinceRule_cons_rule a t h1 ha, List.takeWhile_eq_self_iff.mpr]; rfl
          intro x hx
          simp at hx
          rcases hx with hx | rfl
          · simp [h1 x hx]
          · simp [h]
      · refine ⟨(a, t.takeWhile fun i => !i.isRule) :: P, r, ⟨a, by simp, ha⟩, h2, ?_, ?_⟩
        · rw [parts, if_pos ha, h3, sinceRule_cons_some a t h1]; rfl
        · rw [List.cons_append, parts, if_pos ha, h4, sinceRule_cons_some a t h1, List.takeWhile_append]
          rw [if_neg]; rfl
          intro hl
          have h5 := (List.takeWhile_prefix (fun i => !Item.isRule i) (l := t)).eq_of_length hl
          rw [List.takeWhile_eq_self_iff] at h5
          obtain ⟨i, hi, hi'⟩ := h1
          have := h5 i hi
          simp [hi'] at this
    · rw [List.cons_append, parts, parts, if_neg ha, if_neg ha]
      rcases ih with ⟨h1, h2, h3⟩ | ⟨P, r, h1, h2, h3, h4⟩
      · left; refine ⟨?_, h2, h3⟩
        intro i hi; simp at hi; rcases hi with rfl | hi
        · simpa using ha
        · exact h1 i hi
      · right
        obtain ⟨i, hi, hi'⟩ := h1
        exact ⟨P, r, ⟨i, by simp [hi], hi'⟩, h2, by rw [h3, sinceRule_cons_some a t ⟨i, hi, hi'⟩], by rw [h4, sinceRule_cons_some a t ⟨i, hi, hi'⟩]⟩

/-- an item that is no rule, code or mark changes no rule -/
theorem parts_ruleOf (o : Opts) (cls : Word → Bool) (pre : List Item) (it : Item) (h : it.isRule = false) (h1 : it.codeOf = none) (h2 : it.markOf = none)
    (h3 : it.isMark = false) (h4 : it.isNever = false) : (parts (pre ++ [it])).map (ruleOf o cls) = (parts pre).map (ruleOf o cls) := by
  rcases parts_other pre it h with ⟨_, e1, e2⟩ | ⟨P, r, _, hr, e1, e2⟩
  · rw [e1, e2]
  · rw [e1, e2, List.map_append, List.map_append]
    congr 1
    simp only [List.map_cons, List.map_nil, List.cons.injEq, and_true]
    cases r <;> simp [Item.isRule] at hr
    simp [ruleOf, List.findSome?_append, h1, h2, h3, h4]

/-! ### the symbols -/

theorem mem_names (o : Opts) (items : List Item) (x : Word) : x ∈ names o items ↔ x = text "$" ∨ ∃ it ∈ items, x ∈ mentions o it := by
  unfold names; rw [List.mem_eraseDups]; simp

theorem symOf_new (o : Opts) (items : List Item) (x : Word) (hx : x ∉ names o items) : symOf o items x = newSym x := by
  rw [mem_names] at hx
  push Not at hx
  obtain ⟨_, hx⟩ := hx
  have h1 : isClass items x = false := by
    rw [isClass, List.any_eq_false]
    intro it hit
    cases it <;> simp
    have := hx _ hit
    simp [mentions] at this
    exact fun h => this.1 h.symm
  have h2 : fallbackOf items x = none := by
    rw [fallbackOf, List.findSome?_eq_none_iff]
    intro it hit
    split
    · have := hx _ hit
      simp [mentions] at this
      simp [this.2]
    · rfl
  have h3 : precOf o items x = none := by
    rw [precOf]
    split
    · rfl
    · next hu =>
      rw [List.findSome?_eq_none_iff]
      rintro ⟨⟨a, Xs⟩, i⟩ hd
      have hd := List.fst_mem_of_mem_zipIdx hd
      simp only [precs, List.mem_filterMap] at hd
      obtain ⟨it, hit, he⟩ := hd
      split at he
      · simp at he
        obtain ⟨rfl, rfl⟩ := he
        have := hx _ hit
        simp [mentions, hu] at this
        simp [this]
      · simp at he
  have h4 : destructorOf o items x = none := by
    have : destructorsOf items x = [] := by
      rw [destructorsOf, List.filterMap_eq_nil_iff]
      intro it hit
      split
      · have := hx _ hit
        simp [mentions] at this
        simp; exact fun h => this h.symm
      · rfl
    simp [destructorOf, this]
  have h5 : typeOf items x = none := by
    rw [typeOf, List.findSome?_eq_none_iff]
    intro it hit
    split
    · have := hx _ hit
      simp [mentions] at this
      simp; exact fun h => this h.symm
    · rfl
  simp only [symOf, newSym, h1, h2, h3, h4, h5, membersOf, upper_iff]
  simp

/-! ### items without effect on some part -/

section
variable (o : Opts) (pre : List Item) (it : Item)

theorem isClass_same (h : ∀ c, isClass [it] c = false) : isClass (pre ++ [it]) = isClass pre := by
  funext c
  have := h c
  unfold isClass at this ⊢
  rw [List.any_append, this, Bool.or_false]

theorem argsOf_same (h : ∀ k, argsOf [it] k = []) : argsOf (pre ++ [it]) = argsOf pre := by
  funext k
  have := h k
  unfold argsOf at this ⊢
  rw [List.filterMap_append, this, List.append_nil]

theorem argOf_same (h : ∀ k, argsOf [it] k = []) : argOf o (pre ++ [it]) = argOf o pre := by
  funext k
  rw [argOf, argOf, argsOf_same _ _ h]

theorem wildcards_append : wildcards (pre ++ [it]) = wildcards pre ++ wildcards [it] := by
  unfold wildcards
  rw [List.flatMap_append]

theorem wildcards_same (h : wildcards [it] = []) : wildcards (pre ++ [it]) = wildcards pre := by
  rw [wildcards_append, h, List.append_nil]

theorem yacc_same (h : it ≠ .yaccPrec) : (pre ++ [it]).contains .yaccPrec = pre.contains .yaccPrec := by
  rw [Bool.eq_iff_iff]
  simp only [List.contains_iff_mem, List.mem_append, List.mem_singleton]
  constructor
  · rintro (h' | h')
    · exact h'
    · exact absurd h'.symm h
  · exact .inl

theorem precs_append : precs (pre ++ [it]) = precs pre ++ precs [it] := by
  unfold precs; rw [List.filterMap_append]

theorem precs_same (h : precs [it] = []) : precs (pre ++ [it]) = precs pre := by
  rw [precs_append, h, List.append_nil]

theorem precOf_same (h : precs [it] = []) : precOf o (pre ++ [it]) = precOf o pre := by
  funext x
  rw [precOf, precOf, precs_same _ _ h]

theorem destructorsOf_append (x : Word) : destructorsOf (pre ++ [it]) x = destructorsOf pre x ++ destructorsOf [it] x := by
  unfold destructorsOf; rw [List.filterMap_append]

theorem destructorOf_same (h : ∀ x, destructorsOf [it] x = []) : destructorOf o (pre ++ [it]) = destructorOf o pre := by
  funext x
  rw [destructorOf, destructorOf, destructorsOf_append, h, List.append_nil]

theorem fallbackOf_append (x : Word) : fallbackOf (pre ++ [it]) x = (fallbackOf pre x).or (fallbackOf [it] x) := by
  unfold fallbackOf; rw [List.findSome?_append]

theorem fallbackOf_same (h : ∀ x, fallbackOf [it] x = none) : fallbackOf (pre ++ [it]) = fallbackOf pre := by
  funext x
  rw [fallbackOf_append, h, Option.or_none]

theorem typeOf_append (x : Word) : typeOf (pre ++ [it]) x = (typeOf pre x).or (typeOf [it] x) := by
  unfold typeOf; rw [List.findSome?_append]

theorem typeOf_same (h : ∀ x, typeOf [it] x = none) : typeOf (pre ++ [it]) = typeOf pre := by
  funext x
  rw [typeOf_append, h, Option.or_none]

/-- an item with members for no class -/
def plain : Item → Bool
  | .rule .. | .tokenClass .. => false
  | _ => true

theorem membersOf_same (h : plain it = true) : membersOf (pre ++ [it]) = membersOf pre := by
  funext c
  have h1 : ∀ c, isClass [it] c = false := by intro c; cases it <;> simp [plain] at h <;> rfl
  unfold membersOf
  rw [isClass_same _ _ h1, List.flatMap_append]
  cases it <;> simp [plain] at h <;> simp

theorem isClass_plain (h : plain it = true) : isClass (pre ++ [it]) = isClass pre :=
  isClass_same _ _ (by intro c; cases it <;> simp [plain] at h <;> rfl)

end

end Verif.Lemon
