import Verif.Lemon.Union
import Mathlib.Data.List.Basic
import Mathlib.Tactic.Ring
import Mathlib.Tactic.Linarith
/-
Helper lemmas for C74: the table of types.
-/
set_option autoImplicit false
namespace Verif.Lemon

/-- the slot `k` -/
def slotAt (types : List (Option (List Nat))) (k : Nat) : Option (List Nat) := types.getD k none

theorem slotAt_set (types : List (Option (List Nat))) (k h : Nat) (v : Option (List Nat)) (hk : k < types.length) :
    slotAt (types.set k v) h = if h = k then v else slotAt types h := by
  unfold slotAt
  rw [List.getD_eq_getElem?_getD, List.getElem?_set, List.getD_eq_getElem?_getD]
  by_cases e : k = h
  · subst e; simp [hk]
  · rw [if_neg e, if_neg (by omega)]

/-- the search for `t` from `h` on ends after `m` steps -/
def SlotEnds (types : List (Option (List Nat))) (t : List Nat) (h m : Nat) : Prop :=
  (∀ j < m, ∃ u, slotAt types ((h + j) % types.length) = some u ∧ u ≠ t) ∧
    (slotAt types ((h + m) % types.length) = none ∨ slotAt types ((h + m) % types.length) = some t)

theorem probe_of_ends (types : List (Option (List Nat))) (t : List Nat) : ∀ (m f h : Nat), h < types.length → m < f → SlotEnds types t h m →
    probeType types t f h = (h + m) % types.length := by
  intro m
  induction m with
  | zero =>
    intro f h hh hf he
    obtain ⟨f, rfl⟩ : ∃ g, f = g + 1 := ⟨f - 1, by omega⟩
    have h0 : (h + 0) % types.length = h := Nat.mod_eq_of_lt hh
    rw [h0]
    have h2 := he.2
    rw [h0] at h2
    unfold probeType
    unfold slotAt at h2
    rcases h2 with h2 | h2
    · rw [h2]
    · rw [h2]; simp
  | succ m ih =>
    intro f h hh hf he
    obtain ⟨f, rfl⟩ : ∃ g, f = g + 1 := ⟨f - 1, by omega⟩
    obtain ⟨u, h1, h2⟩ := he.1 0 (by omega)
    have h0 : (h + 0) % types.length = h := Nat.mod_eq_of_lt hh
    rw [h0] at h1
    unfold probeType
    unfold slotAt at h1
    rw [h1]
    simp only [h2, if_false]
    have hn : (if h + 1 ≥ types.length then 0 else h + 1) = (h + 1) % types.length := by
      split
      · have : h + 1 = types.length := by omega
        rw [this, Nat.mod_self]
      · rw [Nat.mod_eq_of_lt (by omega)]
    rw [hn]
    have hmod : ∀ j, ((h + 1) % types.length + j) % types.length = (h + (j + 1)) % types.length := by
      intro j
      rw [Nat.mod_add_mod]
      congr 1
      omega
    rw [ih f _ (Nat.mod_lt _ (by omega)) (by omega), hmod]
    refine ⟨fun j hj => ?_, ?_⟩
    · rw [hmod]; exact he.1 (j + 1) (by omega)
    · rw [hmod]; exact he.2

theorem exists_ends (types : List (Option (List Nat))) (t : List Nat) (h : Nat) (hh : h < types.length) (k : Nat) (hk : k < types.length)
    (hf : slotAt types k = none ∨ slotAt types k = some t) : ∃ m < types.length, SlotEnds types t h m := by
  have hex : ∃ m, m < types.length ∧ (slotAt types ((h + m) % types.length) = none ∨ slotAt types ((h + m) % types.length) = some t) := by
    by_cases hkh : h ≤ k
    · refine ⟨k - h, by omega, ?_⟩
      have : (h + (k - h)) % types.length = k := by rw [Nat.add_sub_cancel' hkh, Nat.mod_eq_of_lt hk]
      rwa [this]
    · refine ⟨k + types.length - h, by omega, ?_⟩
      have : (h + (k + types.length - h)) % types.length = k := by
        have : h + (k + types.length - h) = k + types.length := by omega
        rw [this, Nat.add_mod_right, Nat.mod_eq_of_lt hk]
      rwa [this]
  classical
  refine ⟨Nat.find hex, (Nat.find_spec hex).1, fun j hj => ?_, (Nat.find_spec hex).2⟩
  have := Nat.find_min hex hj
  rw [not_and] at this
  have h2 := this (lt_trans hj (Nat.find_spec hex).1)
  rw [not_or] at h2
  obtain ⟨u, hu⟩ := Option.ne_none_iff_exists'.mp h2.1
  exact ⟨u, hu, fun e => h2.2 (by rw [hu, e])⟩

/-- where the search for `t` begins -/
def startAt (N : Nat) (t : List Nat) : Nat := (typeHash t % 2147483648) % N

/-- every type in the table is found where it is -/
def Found (types : List (Option (List Nat))) : Prop :=
  ∀ h t, slotAt types h = some t → probeType types t types.length (startAt types.length t) = h ∧ ∃ m < types.length, SlotEnds types t (startAt types.length t) m

theorem slotAt_lt {types : List (Option (List Nat))} {h : Nat} {t : List Nat} (e : slotAt types h = some t) : h < types.length := by
  by_contra hc
  unfold slotAt at e
  rw [List.getD_eq_getElem?_getD, List.getElem?_eq_none (by omega)] at e
  simp at e

/-- a type is put into a table that is not full -/
theorem probe_step (types : List (Option (List Nat))) (t : List Nat) (hf : Found types) (hfree : ∃ k < types.length, slotAt types k = none) :
    let k := probeType types t types.length (startAt types.length t)
    let types' := if (types.getD k none).isNone then types.set k (some t) else types
    types'.length = types.length ∧ Found types' ∧ slotAt types' k = some t ∧ (∀ h u, slotAt types h = some u → slotAt types' h = some u) ∧
      (∀ h u, slotAt types' h = some u → slotAt types h = some u ∨ (h = k ∧ u = t)) := by
  intro k types'
  obtain ⟨k0, hk0, hk0'⟩ := hfree
  have hs : startAt types.length t < types.length := Nat.mod_lt _ (by omega)
  obtain ⟨m, hm, he⟩ := exists_ends types t _ hs k0 hk0 (.inl hk0')
  have hk : k = (startAt types.length t + m) % types.length := probe_of_ends types t m _ _ hs hm he
  have hkl : k < types.length := by rw [hk]; exact Nat.mod_lt _ (by omega)
  have hend := he.2
  rw [← hk] at hend
  rcases hend with hend | hend
  · have ht' : types' = types.set k (some t) := by
      show (if (types.getD k none).isNone then types.set k (some t) else types) = _
      unfold slotAt at hend
      rw [hend]; rfl
    have hl : types'.length = types.length := by rw [ht', List.length_set]
    have hsl : ∀ h, slotAt types' h = if h = k then some t else slotAt types h := by
      intro h; rw [ht']; exact slotAt_set types k h _ hkl
    have hends : ∀ u h m, SlotEnds types u h m → (slotAt types ((h + m) % types.length) = some u ∨ (u = t ∧ (h + m) % types.length = k)) → SlotEnds types' u h m := by
      intro u h m hE hor
      refine ⟨fun j hj => ?_, ?_⟩
      · obtain ⟨v, h1, h2⟩ := hE.1 j hj
        refine ⟨v, ?_, h2⟩
        rw [hl, hsl, if_neg, h1]
        intro e; rw [e, hend] at h1; simp at h1
      · rw [hl, hsl]
        rcases hor with h1 | ⟨rfl, h1⟩
        · rw [if_neg, h1]; · exact .inr rfl
          intro e; rw [e, hend] at h1; simp at h1
        · rw [if_pos h1]; exact .inr rfl
    refine ⟨hl, ?_, by rw [hsl, if_pos rfl], ?_, ?_⟩
    · intro h u hu
      rw [hsl] at hu
      rw [hl]
      by_cases e : h = k
      · rw [if_pos e, Option.some.injEq] at hu
        subst hu
        have hE := hends t _ m he (.inr ⟨rfl, hk.symm⟩)
        refine ⟨?_, m, hm, hE⟩
        rw [e, hk]
        have := probe_of_ends types' t m types.length _ (by rw [hl]; exact hs) hm hE
        rwa [hl] at this
      · rw [if_neg e] at hu
        obtain ⟨h1, m', hm', h2⟩ := hf h u hu
        have hs' : startAt types.length u < types.length := Nat.mod_lt _ (by omega)
        have h3 := probe_of_ends types u m' types.length _ hs' hm' h2
        rw [h1] at h3
        have hE := hends u _ m' h2 (.inl (by rw [← h3]; exact hu))
        refine ⟨?_, m', hm', hE⟩
        have := probe_of_ends types' u m' types.length _ (by rw [hl]; exact hs') hm' hE
        rw [hl] at this
        rw [this, ← h3]
    · intro h u hu
      rw [hsl, if_neg, hu]
      intro e; rw [e, hend] at hu; simp at hu
    · intro h u hu
      rw [hsl] at hu
      by_cases e : h = k
      · rw [if_pos e, Option.some.injEq] at hu; exact .inr ⟨e, hu.symm⟩
      · rw [if_neg e] at hu; exact .inl hu
  · have ht' : types' = types := by
      show (if (types.getD k none).isNone then types.set k (some t) else types) = _
      unfold slotAt at hend
      rw [hend]; rfl
    rw [ht']
    exact ⟨rfl, hf, hend, fun _ _ h => h, fun _ _ h => .inl h⟩

/-- the number of types in the table -/
def fill (types : List (Option (List Nat))) : Nat := (types.filter Option.isSome).length

theorem fill_set (types : List (Option (List Nat))) (k : Nat) (v : Option (List Nat)) : fill (types.set k v) ≤ fill types + 1 := by
  induction types generalizing k with
  | nil => simp [fill]
  | cons a l ih =>
    cases k with
    | zero => cases a <;> cases v <;> simp [fill] <;> omega
    | succ k =>
      have := ih k
      cases a <;> simp [fill] at this ⊢ <;> omega

theorem free_of_fill (types : List (Option (List Nat))) (h : fill types < types.length) : ∃ k < types.length, slotAt types k = none := by
  by_contra hc
  have hall : ∀ a ∈ types, a.isSome := by
    intro a ha
    obtain ⟨k, hk, rfl⟩ := List.mem_iff_getElem.mp ha
    by_contra hn
    apply hc
    refine ⟨k, hk, ?_⟩
    unfold slotAt
    rw [List.getD_eq_getElem?_getD, List.getElem?_eq_getElem hk]
    simpa using hn
  have : types.filter Option.isSome = types := List.filter_eq_self.mpr hall
  unfold fill at h
  rw [this] at h
  omega

/-- the type of a symbol, `none` for the type of the tokens -/
def symField (s : RState) (sp : Sym) : Option (List Nat) :=
  if sp.type ≠ .NONTERMINAL then none
  else
    match sp.datatype.or (s.args .defaultType) with
    | none => none
    | some t => if s.args .tokenType = some (stdType t) then none else some (stdType t)

theorem unionStep_length (s : RState) (types : List (Option (List Nat))) (sp : Sym) : (unionStep s types sp).1.length = types.length := by
  unfold unionStep
  split
  · rfl
  split
  · rfl
  split
  · rfl
  split
  · rfl
  · dsimp only; split <;> simp

theorem unionStep_spec (s : RState) (types : List (Option (List Nat))) (sp : Sym) (hf : Found types) (hfill : fill types < types.length) :
    let p := unionStep s types sp
    Found p.1 ∧ fill p.1 ≤ fill types + 1 ∧ (∀ h u, slotAt types h = some u → slotAt p.1 h = some u) ∧
      (sp.name = errorName → p.2 = types.length + 1) ∧
      (sp.name ≠ errorName → (symField s sp = none → p.2 = 0) ∧ ∀ t, symField s sp = some t → ∃ k, p.2 = k + 1 ∧ slotAt p.1 k = some t) ∧
      (∀ h u, slotAt p.1 h = some u → slotAt types h = some u ∨ p.2 = h + 1) := by
  intro p
  by_cases he : sp.name = errorName
  · have hp : p = (types, types.length + 1) := by show unionStep s types sp = _; rw [unionStep, if_pos he]
    rw [hp]
    exact ⟨hf, by simp, fun _ _ h => h, fun _ => rfl, fun h => absurd he h, fun _ _ h => .inl h⟩
  by_cases ht : sp.type ≠ .NONTERMINAL
  · have hp : p = (types, 0) := by show unionStep s types sp = _; rw [unionStep, if_neg he, if_pos ht]
    rw [hp]
    refine ⟨hf, by simp, fun _ _ h => h, fun h => absurd h he, fun _ => ⟨fun _ => rfl, fun t h => ?_⟩, fun _ _ h => .inl h⟩
    rw [symField, if_pos ht] at h
    simp at h
  rcases Option.eq_none_or_eq_some (sp.datatype.or (s.args .defaultType)) with hd | ⟨t, hd⟩
  · have hp : p = (types, 0) := by show unionStep s types sp = _; rw [unionStep, if_neg he, if_neg ht, hd]
    rw [hp]
    refine ⟨hf, by simp, fun _ _ h => h, fun h => absurd h he, fun _ => ⟨fun _ => rfl, fun t h => ?_⟩, fun _ _ h => .inl h⟩
    rw [symField, if_neg ht, hd] at h
    simp at h
  by_cases htt : s.args .tokenType = some (stdType t)
  · have hp : p = (types, 0) := by show unionStep s types sp = _; rw [unionStep, if_neg he, if_neg ht, hd]; simp only [htt, if_true]
    rw [hp]
    refine ⟨hf, by simp, fun _ _ h => h, fun h => absurd h he, fun _ => ⟨fun _ => rfl, fun t h => ?_⟩, fun _ _ h => .inl h⟩
    rw [symField, if_neg ht, hd] at h
    simp [htt] at h
  · have hp : p = (let h := probeType types (stdType t) types.length (startAt types.length (stdType t))
        (if (types.getD h none).isNone then types.set h (some (stdType t)) else types, h + 1)) := by
      show unionStep s types sp = _
      rw [unionStep, if_neg he, if_neg ht, hd]; simp only [htt, if_false]; rfl
    have hst := probe_step types (stdType t) hf (free_of_fill types hfill)
    dsimp only at hst hp
    rw [hp]
    refine ⟨hst.2.1, ?_, hst.2.2.2.1, fun h => absurd h he, fun _ => ⟨fun h => ?_, fun u h => ?_⟩, fun h u hu => ?_⟩
    · dsimp only; split
      · exact fill_set _ _ _
      · omega
    · rw [symField, if_neg ht, hd] at h
      simp [htt] at h
    · rw [symField, if_neg ht, hd] at h
      simp only [htt, if_false, Option.some.injEq] at h
      subst h
      exact ⟨_, rfl, hst.2.2.1⟩
    · rcases hst.2.2.2.2 h u hu with h1 | ⟨h1, _⟩
      · exact .inl h1
      · exact .inr (by rw [h1])

theorem unionLoop_spec (s : RState) : ∀ (l : List Sym) (types : List (Option (List Nat))), Found types → fill types + l.length < types.length →
    let q := unionLoop s l types
    Found q.1 ∧ q.1.length = types.length ∧ q.2.length = l.length ∧ (∀ h u, slotAt types h = some u → slotAt q.1 h = some u) ∧
      (∀ h u, slotAt q.1 h = some u → slotAt types h = some u ∨ ∃ i < l.length, q.2.getD i 0 = h + 1) ∧
      ∀ i, (hi : i < l.length) →
        (l[i].name = errorName → q.2.getD i 0 = types.length + 1) ∧
        (l[i].name ≠ errorName → (symField s l[i] = none → q.2.getD i 0 = 0) ∧
          ∀ t, symField s l[i] = some t → ∃ k, q.2.getD i 0 = k + 1 ∧ slotAt q.1 k = some t) := by
  intro l
  induction l with
  | nil => intro types hf _; exact ⟨hf, rfl, rfl, fun _ _ h => h, fun _ _ h => .inl h, fun i hi => by simp at hi⟩
  | cons sp l ih =>
    intro types hf hfill
    rw [List.length_cons] at hfill
    obtain ⟨h1, h2, h3, h4, h5, h6⟩ := unionStep_spec s types sp hf (by omega)
    have hl := unionStep_length s types sp
    obtain ⟨i1, i2, i3, i4, i6, i5⟩ := ih (unionStep s types sp).1 h1 (by rw [hl]; omega)
    intro q
    have hq : q = ((unionLoop s l (unionStep s types sp).1).1, (unionStep s types sp).2 :: (unionLoop s l (unionStep s types sp).1).2) := rfl
    rw [hq]
    refine ⟨i1, by rw [i2, hl], by simp [i3], fun h u hu => i4 h u (h3 h u hu), fun h u hu => ?_, fun i hi => ?_⟩
    · rcases i6 h u hu with h7 | ⟨i, hi, h7⟩
      · rcases h6 h u h7 with h8 | h8
        · exact .inl h8
        · exact .inr ⟨0, by simp, by simpa using h8⟩
      · exact .inr ⟨i + 1, by simpa using hi, by simpa using h7⟩
    cases i with
    | zero =>
      simp only [List.getElem_cons_zero, List.getD_cons_zero]
      refine ⟨h4, fun hne => ⟨(h5 hne).1, fun t ht => ?_⟩⟩
      obtain ⟨k, e1, e2⟩ := (h5 hne).2 t ht
      exact ⟨k, e1, i4 _ _ e2⟩
    | succ i =>
      simp only [List.getElem_cons_succ, List.getD_cons_succ]
      have := i5 i (by simpa using hi)
      rw [hl] at this
      exact this

theorem slotAt_replicate (n k : Nat) : slotAt (List.replicate n none) k = none := by
  unfold slotAt
  rw [List.getD_eq_getElem?_getD, List.getElem?_replicate]
  split <;> rfl

theorem fill_replicate (n : Nat) : fill (List.replicate n none) = 0 := by
  simp [fill]

theorem found_replicate (n : Nat) : Found (List.replicate n none) := by
  intro h t ht
  rw [slotAt_replicate] at ht
  simp at ht

end Verif.Lemon
