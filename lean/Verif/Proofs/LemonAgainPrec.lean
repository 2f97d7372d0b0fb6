import Verif.Proofs.LemonAgainValid
/-
Helper lemmas for C119: precedences in the file printed by option `-g`.
-/
set_option autoImplicit false
namespace Verif.Lemon
open Verif.Spec.GFile Verif.Spec.Words Verif.Spec.Again
open Verif.Spec.Sql hiding letter
open Verif.Byacc.Rd (lprecOf_none)

variable {o : Opts} {items : List Verif.Spec.GFile.Item}

theorem precOf_get {x : Word} {p : Nat × Assoc} (h : precOf o items x = some p) : o.ignorePrec = false ∧ ∃ i Xs, p.1 = i + 1 ∧ (precs items)[i]? = some (p.2, Xs) ∧ x ∈ Xs := by
  unfold precOf at h
  split at h
  · cases h
  · next hi =>
    obtain ⟨d, hd, h⟩ := List.exists_of_findSome?_eq_some h
    split at h
    · next hx =>
      injection h with h
      subst h
      exact ⟨by simpa using hi, d.2, d.1.2, rfl, List.mem_zipIdx_iff_getElem?.1 hd, hx⟩
    · cases h

theorem precOf_assoc {x y : Word} {p q : Nat × Assoc} (h : precOf o items x = some p) (h' : precOf o items y = some q) (e : p.1 = q.1) : p.2 = q.2 := by
  obtain ⟨-, i, Xs, e1, h1, -⟩ := precOf_get h
  obtain ⟨-, j, Ys, e2, h2, -⟩ := precOf_get h'
  have : i = j := by omega
  subst this
  rw [h1] at h2
  injection h2 with h2
  injection h2

theorem precOf_isToken (hv : Valid o items) {x : Word} {p : Nat × Assoc} (h : precOf o items x = some p) : x ∈ tokens o items := by
  obtain ⟨hi, i, Xs, -, h1, hx⟩ := precOf_get h
  have hm := List.mem_of_getElem? h1
  obtain ⟨it, hit, hm⟩ := List.mem_filterMap.1 hm
  cases it with
  | prec a Ys =>
    injection hm with hm
    injection hm with _ hm
    subst hm
    exact (mem_tokens x).2 ⟨(mem_names _ _ _).2 (.inr ⟨_, hit, by simp [mentions, hi, hx]⟩), (valid_form hv _ hit).2 x hx⟩
  | _ => cases hm

theorem precOf_le {x : Word} {p : Nat × Assoc} (h : precOf o items x = some p) : p.1 ≤ (precs items).length := by
  obtain ⟨-, i, Xs, e, h1, -⟩ := precOf_get h
  have := (List.getElem?_eq_some_iff.1 h1).1
  omega

/-- the declaration of a level -/
def levelPrec (o : Opts) (items : List Verif.Spec.GFile.Item) (j : Nat) : Option (Assoc × List Word) := (level o items j).bind fun | .prec a Xs => some (a, Xs) | _ => none

theorem levelPrec_mem {j : Nat} {a : Assoc} {Xs : List Word} (h : levelPrec o items j = some (a, Xs)) :
    ∃ X l p, precOf o items X = some p ∧ p.2 = a ∧ Xs = X :: l ∧ ∀ Y, Y ∈ Xs ↔ Y ∈ tokens o items ∧ (precOf o items Y).map Prod.fst = some j := by
  obtain ⟨it, h1, h2⟩ := Option.bind_eq_some_iff.1 h
  obtain ⟨X, l, p, rfl, h3, h4⟩ := level_some h1
  injection h2 with h2
  injection h2 with h5 h6
  refine ⟨X, l, p, h3, h5, h6.symm, fun Y => ?_⟩
  rw [← h6, ← h4, List.mem_filter]
  simp

theorem levelPrec_some (hv : Valid o items) {x : Word} {p : Nat × Assoc} (h : precOf o items x = some p) : ∃ Xs, levelPrec o items p.1 = some (p.2, Xs) ∧ x ∈ Xs := by
  have hx : x ∈ (tokens o items).filter fun X => (precOf o items X).map Prod.fst = some p.1 := List.mem_filter.2 ⟨precOf_isToken hv h, by simp [h]⟩
  have : ∃ a Xs, levelPrec o items p.1 = some (a, Xs) := by
    unfold levelPrec level
    split
    · next hf => rw [hf] at hx; cases hx
    · next X l hf =>
      have hX : X ∈ (tokens o items).filter fun X => (precOf o items X).map Prod.fst = some p.1 := by rw [hf]; simp
      have := (List.mem_filter.1 hX).2
      simp only [decide_eq_true_eq] at this
      obtain ⟨q, hq, -⟩ := Option.map_eq_some_iff.1 this
      rw [hq]
      exact ⟨_, _, rfl⟩
  obtain ⟨a, Xs, hl⟩ := this
  obtain ⟨X, l, q, h1, h2, h3, h4⟩ := levelPrec_mem hl
  have hX := ((h4 X).1 (by simp [h3])).2
  rw [h1] at hX
  injection hX with hX
  have := precOf_assoc h1 h hX
  refine ⟨Xs, ?_, (h4 x).2 ⟨precOf_isToken hv h, by simp [h]⟩⟩
  rw [hl, ← h2, this]

theorem precs_both (a b : List Verif.Spec.GFile.Item) : precs (a ++ b) = precs a ++ precs b := List.filterMap_append

theorem precs_none (l : List Verif.Spec.GFile.Item) (h : ∀ a Xs, .prec a Xs ∉ l) : precs l = [] := by
  unfold precs
  rw [List.filterMap_eq_nil_iff]
  intro it hi
  cases it with
  | prec a Xs => exact absurd hi (h a Xs)
  | _ => rfl

theorem again_precs (S : Word) : precs (again o items S) = (List.range ((precs items).length + 1)).filterMap (levelPrec o items) := by
  unfold again
  rw [precs_both, precs_both, precs_both, precs_both, precs_none (_ ++ List.map _ _), precs_none [_], precs_none (Option.toList _), precs_none (List.flatMap _ _)]
  · simp only [List.nil_append, List.append_nil]
    rw [precs, List.filterMap_filterMap]
    rfl
  · intro a Xs hi
    obtain ⟨p, hp, h⟩ := List.mem_flatMap.1 hi
    rw [bare, List.mem_cons] at h
    rcases h with h | h
    · cases h
    · simp at h
  · simp
  · simp
  · intro a Xs hi
    simp only [List.mem_append, List.mem_map] at hi
    rcases hi with hi | hi
    · split at hi <;> simp at hi
    · simp at hi

/-- the number of levels below `j` -/
def levelsBelow (o : Opts) (items : List Verif.Spec.GFile.Item) (j : Nat) : Nat := ((List.range j).filterMap (levelPrec o items)).length

theorem again_precOf (hv : Valid o items) (S : Word) {x : Word} {p : Nat × Assoc} (h : precOf o items x = some p) :
    precOf o (again o items S) x = some (levelsBelow o items p.1 + 1, p.2) := by
  obtain ⟨hi, -⟩ := precOf_get h
  obtain ⟨Xs, hl, hx⟩ := levelPrec_some hv h
  have hle := precOf_le h
  have e : List.range ((precs items).length + 1) = List.range p.1 ++ p.1 :: List.range' (p.1 + 1) ((precs items).length - p.1) := by
    rw [List.range_eq_range', List.range_eq_range', ← List.range'_succ, show (precs items).length - p.1 + 1 = (precs items).length + 1 - p.1 by omega]
    have := List.range'_append (s := 0) (m := p.1) (n := (precs items).length + 1 - p.1) (step := 1)
    simp only [Nat.one_mul, Nat.zero_add] at this
    rw [this]
    congr 1
    omega
  unfold precOf
  rw [if_neg (by simp [hi]), again_precs, e, List.filterMap_append, List.filterMap_cons, hl]
  simp only
  rw [List.zipIdx_append, List.findSome?_append, List.findSome?_eq_none_iff.2, List.zipIdx_cons, List.findSome?_cons, if_pos hx]
  · simp [levelsBelow]
  · intro d hd
    refine if_neg fun hx' => ?_
    obtain ⟨j, hj, hd⟩ := List.mem_filterMap.1 (List.fst_mem_of_mem_zipIdx hd)
    obtain ⟨-, -, -, -, -, -, h4⟩ := levelPrec_mem (a := d.1.1) (Xs := d.1.2) hd
    have := ((h4 x).1 hx').2
    rw [h] at this
    injection this with this
    rw [List.mem_range] at hj
    omega

theorem again_precOf_none (S : Word) {x : Word} (h : precOf o items x = none) : precOf o (again o items S) x = none := by
  unfold precOf
  split
  · rfl
  · rw [List.findSome?_eq_none_iff]
    intro d hd
    refine if_neg fun hx => ?_
    have hm := List.fst_mem_of_mem_zipIdx hd
    rw [again_precs] at hm
    obtain ⟨j, -, hm⟩ := List.mem_filterMap.1 hm
    obtain ⟨-, -, -, -, -, -, h4⟩ := levelPrec_mem (a := d.1.1) (Xs := d.1.2) hm
    have := ((h4 x).1 hx).2
    rw [h] at this
    cases this

theorem levelsBelow_lt (hv : Valid o items) {x : Word} {p : Nat × Assoc} (h : precOf o items x = some p) {j : Nat} (hj : p.1 < j) : levelsBelow o items p.1 < levelsBelow o items j := by
  obtain ⟨Xs, hl, -⟩ := levelPrec_some hv h
  have hs : (List.range (p.1 + 1)).Sublist (List.range j) := List.range_sublist.2 (by omega)
  have h1 := (hs.filterMap (levelPrec o items)).length_le
  rw [List.range_succ, List.filterMap_append, List.length_append] at h1
  simp only [List.filterMap_cons, hl, List.filterMap_nil, List.length_singleton] at h1
  unfold levelsBelow
  omega

theorem levelsBelow_iff (hv : Valid o items) {x y : Word} {p q : Nat × Assoc} (h : precOf o items x = some p) (h' : precOf o items y = some q) :
    levelsBelow o items p.1 < levelsBelow o items q.1 ↔ p.1 < q.1 := by
  constructor
  · intro hlt
    by_contra hn
    rcases Nat.lt_or_eq_of_le (Nat.not_lt.1 hn) with h2 | h2
    · have := levelsBelow_lt hv h' h2
      omega
    · rw [h2] at hlt
      omega
  · exact levelsBelow_lt hv h

end Verif.Lemon
