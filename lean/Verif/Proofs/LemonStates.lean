import Verif.Proofs.LemonClosure
import Verif.Proofs.Auto
import Mathlib.Data.Finset.Card
import Mathlib.Data.Finset.Powerset
/-
The states built by `FindStates` form the LR(0) automaton.
-/
set_option autoImplicit false
namespace Verif.Lemon
open Verif.Spec

variable {g : Gram} {fs : FirstSets}

/-! ### sorting items -/

theorem configcmp_le {a b : Item} : configcmp a b ≤ 0 ↔ a.1 < b.1 ∨ (a.1 = b.1 ∧ a.2 ≤ b.2) := by
  unfold configcmp
  split
  · next h => simp at h; omega
  · next h => simp at h; omega

theorem configcmp_lt {a b : Item} : configcmp a b < 0 ↔ a.1 < b.1 ∨ (a.1 = b.1 ∧ a.2 < b.2) := by
  unfold configcmp
  split
  · next h => simp at h; omega
  · next h => simp at h; omega

/-- strictly sorted lists of items -/
abbrev Sorted (l : List Item) : Prop := l.Pairwise fun a b => configcmp a b < 0

theorem Sorted.nodup {l : List Item} (h : Sorted l) : l.Nodup := by
  refine List.Pairwise.imp ?_ h
  intro a b hab
  rintro rfl
  rw [configcmp_lt] at hab; omega

theorem Sorted.ext {l l' : List Item} (h : Sorted l) (h' : Sorted l') (hm : ∀ x, x ∈ l ↔ x ∈ l') : l = l' := by
  have hp : l.Perm l' := (List.perm_ext_iff_of_nodup h.nodup h'.nodup).mpr hm
  refine List.Perm.eq_of_pairwise (le := fun a b => configcmp a b < 0) ?_ h h' hp
  intro a b _ _ h1 h2
  rw [configcmp_lt] at h1 h2
  omega

theorem msort_items {l : List Item} (hl : l.length < 2 ^ 30) (hn : l.Nodup) :
    (msort configcmp l).Perm l ∧ Sorted (msort configcmp l) := by
  obtain ⟨h1, h2⟩ := C44_msort_partial configcmp
    (fun x y => by rw [configcmp_le, configcmp_le]; omega)
    (fun x y z => by rw [configcmp_le, configcmp_le, configcmp_le]; omega) l hl
  refine ⟨h1, ?_⟩
  have h3 : (msort configcmp l).Nodup := h1.nodup_iff.mpr hn
  refine (h2.and h3).imp ?_
  rintro ⟨a, b⟩ ⟨c, d⟩ ⟨hle, hne⟩
  rw [configcmp_le] at hle
  rw [configcmp_lt]
  simp only [ne_eq, Prod.mk.injEq] at hne hle ⊢
  omega

theorem msort_configs {l : List Config} (hl : l.length < 2 ^ 30) (hn : (l.map Config.item).Nodup) :
    (msort (fun c c' => configcmp c.item c'.item) l).Perm l ∧
    Sorted ((msort (fun c c' => configcmp c.item c'.item) l).map Config.item) := by
  obtain ⟨h1, h2⟩ := C44_msort_partial (fun c c' : Config => configcmp c.item c'.item)
    (fun x y => by rw [configcmp_le, configcmp_le]; omega)
    (fun x y z => by rw [configcmp_le, configcmp_le, configcmp_le]; omega) l hl
  refine ⟨h1, ?_⟩
  have h3 : ((msort (fun c c' : Config => configcmp c.item c'.item) l).map Config.item).Nodup :=
    (h1.map _).nodup_iff.mpr hn
  unfold Sorted
  rw [List.pairwise_map]
  rw [List.Nodup, List.pairwise_map] at h3
  refine (h2.and h3).imp ?_
  rintro a c ⟨hle, hne⟩
  rw [configcmp_le] at hle
  rw [configcmp_lt]
  have : ¬ (a.item.1 = c.item.1 ∧ a.item.2 = c.item.2) := fun h => hne (Prod.ext h.1 h.2)
  omega

/-! ### the universe of items -/

def allItems (g : Gram) : List Item :=
  (List.range g.rules.length).flatMap fun r => (List.range ((g.rule r).rhs.length + 1)).map fun d => (r, d)

theorem mem_allItems {it : Item} : it ∈ allItems g ↔ IsItem g.ext it.1 it.2 := by
  unfold allItems IsItem
  simp only [List.mem_flatMap, List.mem_range, List.mem_map]
  constructor
  · rintro ⟨r, hr, d, hd, rfl⟩
    exact ⟨_, _, ext_rule.mpr ⟨hr, rfl, rfl⟩, by simp only; omega⟩
  · rintro ⟨A, α, hr, hd⟩
    obtain ⟨h1, _, h3⟩ := ext_rule.mp hr
    exact ⟨it.1, h1, it.2, by rw [h3]; omega, rfl⟩

theorem length_allItems : (allItems g).length = g.nitems := by
  unfold allItems Gram.nitems
  rw [List.length_flatMap]
  congr 1
  apply List.ext_getElem
  · simp
  · intro i h1 h2
    simp only [List.length_map] at h2
    simp [Gram.rule, List.getElem?_eq_getElem h2]

theorem items_bound {l : List Item} (hn : l.Nodup) (h : ∀ it ∈ l, IsItem g.ext it.1 it.2) : l.length ≤ g.nitems := by
  rw [← length_allItems]
  exact (List.subperm_of_subset hn fun it hit => mem_allItems.mpr (h it hit)).length_le

theorem closed_isItem {K : Nat → Nat → Prop} (h : ∀ r d, K r d → IsItem g.ext r d) {r d : Nat}
    (hc : Closed g.ext K r d) : IsItem g.ext r d := by
  cases hc with
  | kern hk => exact h r d hk
  | step _ _ hr' => exact ⟨_, _, hr', by omega⟩

/-- number of distinct sorted bases -/
theorem bases_bound {L : List (List Item)} (hn : L.Nodup) (hs : ∀ l ∈ L, Sorted l)
    (hi : ∀ l ∈ L, ∀ it ∈ l, IsItem g.ext it.1 it.2) : L.length ≤ 2 ^ g.nitems := by
  have h1 : (L.map List.toFinset).Nodup := by
    rw [List.nodup_map_iff_inj_on hn]
    intro a ha b hb hab
    refine (hs a ha).ext (hs b hb) fun x => ?_
    rw [← List.mem_toFinset, hab, List.mem_toFinset]
  have h2 : (L.map List.toFinset).toFinset ⊆ (allItems g).toFinset.powerset := by
    intro x hx
    obtain ⟨l, hl, rfl⟩ := List.mem_map.mp (List.mem_toFinset.mp hx)
    rw [Finset.mem_powerset]
    intro it hit
    exact List.mem_toFinset.mpr (mem_allItems.mpr (hi l hl it (List.mem_toFinset.mp hit)))
  have h3 := Finset.card_le_card h2
  rw [Finset.card_powerset, List.toFinset_card_of_nodup h1, List.length_map] at h3
  refine h3.trans (Nat.pow_le_pow_right (by omega) ?_)
  rw [← length_allItems]
  exact List.toFinset_card_le _

/-! ### successors -/

theorem takeGroup_spec (sp : Nat) (D : List Nat) (hsp : sp ∉ D) : ∀ l : List (Item × Bool),
    (∀ p ∈ l, p.2 = true ↔ ∃ X ∈ D, g.next p.1 = some X) →
    (takeGroup g sp l).1 = (l.map Prod.fst).filter (fun c => g.next c == some sp) ∧
    (takeGroup g sp l).2.map Prod.fst = l.map Prod.fst ∧
    ∀ p ∈ (takeGroup g sp l).2, p.2 = true ↔ ∃ X ∈ sp :: D, g.next p.1 = some X := by
  intro l
  induction l with
  | nil => intro _; simp [takeGroup]
  | cons p l ih =>
    obtain ⟨c, done⟩ := p
    intro h
    obtain ⟨h1, h2, h3⟩ := ih fun p hp => h p (by simp [hp])
    have hc := h (c, done) (by simp)
    simp only at hc
    unfold takeGroup
    simp only
    cases done with
    | true =>
      obtain ⟨X, hX, hnx⟩ := hc.mp rfl
      have hne : ¬ g.next c = some sp := by
        rw [hnx]; simp only [Option.some.injEq]; rintro rfl; exact hsp hX
      simp only [if_true]
      refine ⟨by simp [h1, hne], by simp [h2], ?_⟩
      intro p hp
      rcases List.mem_cons.mp hp with rfl | hp
      · simp only [true_iff]; exact ⟨X, by simp [hX], hnx⟩
      · exact h3 p hp
    | false =>
      simp only [Bool.false_eq_true, if_false]
      by_cases hnx : g.next c = some sp
      · simp only [hnx, beq_self_eq_true, if_true]
        refine ⟨by simp [h1, hnx], by simp [h2], ?_⟩
        intro p hp
        rcases List.mem_cons.mp hp with rfl | hp
        · simp only [true_iff]; exact ⟨sp, by simp, hnx⟩
        · exact h3 p hp
      · simp only [beq_iff_eq, hnx, if_false]
        refine ⟨by simp [h1, hnx], by simp [h2], ?_⟩
        intro p hp
        rcases List.mem_cons.mp hp with rfl | hp
        · simp only [Bool.false_eq_true, false_iff]
          rintro ⟨X, hX, hX'⟩
          rcases List.mem_cons.mp hX with rfl | hX
          · exact hnx hX'
          · exact absurd (hc.mpr ⟨X, hX, hX'⟩) (by simp)
        · exact h3 p hp

theorem groups_spec : ∀ (n : Nat) (l : List (Item × Bool)) (D : List Nat), l.length ≤ n →
    (∀ p ∈ l, p.2 = true ↔ ∃ X ∈ D, g.next p.1 = some X) →
    ((groups g n l).map Prod.fst).Nodup ∧
    (∀ X, X ∈ (groups g n l).map Prod.fst ↔ X ∉ D ∧ ∃ p ∈ l, g.next p.1 = some X) ∧
    ∀ X srcs, (X, srcs) ∈ groups g n l → srcs = (l.map Prod.fst).filter (fun c => g.next c == some X) := by
  intro n
  induction n with
  | zero =>
    intro l D hl _
    have : l = [] := List.length_eq_zero_iff.mp (by omega)
    subst this
    simp [groups]
  | succ n ih =>
    intro l D hl h
    cases l with
    | nil => simp [groups]
    | cons p l =>
      obtain ⟨c, done⟩ := p
      have hc := h (c, done) (by simp)
      have hl' : l.length ≤ n := by simpa using hl
      simp only at hc
      unfold groups
      cases done with
      | true =>
        obtain ⟨X0, hX0, hnx0⟩ := hc.mp rfl
        obtain ⟨h1, h2, h3⟩ := ih l D hl' fun p hp => h p (by simp [hp])
        simp only [if_true]
        refine ⟨h1, ?_, ?_⟩
        · intro X
          rw [h2]
          constructor
          · rintro ⟨a, p, hp, hpx⟩; exact ⟨a, p, by simp [hp], hpx⟩
          · rintro ⟨a, p, hp, hpx⟩
            rcases List.mem_cons.mp hp with rfl | hp
            · simp only at hpx; rw [hnx0] at hpx; simp only [Option.some.injEq] at hpx; subst hpx; exact absurd hX0 a
            · exact ⟨a, p, hp, hpx⟩
        · intro X srcs hX
          have hXD := ((h2 X).mp (List.mem_map.mpr ⟨_, hX, rfl⟩)).1
          have hne : ¬ g.next c = some X := by
            rw [hnx0]; simp only [Option.some.injEq]; rintro rfl; exact hXD hX0
          rw [h3 X srcs hX]
          simp [hne]
      | false =>
        simp only [Bool.false_eq_true, if_false]
        cases hnx : g.next c with
        | none =>
          simp only
          obtain ⟨h1, h2, h3⟩ := ih l D hl' fun p hp => h p (by simp [hp])
          refine ⟨h1, ?_, ?_⟩
          · intro X
            rw [h2]
            constructor
            · rintro ⟨a, p, hp, hpx⟩; exact ⟨a, p, by simp [hp], hpx⟩
            · rintro ⟨a, p, hp, hpx⟩
              rcases List.mem_cons.mp hp with rfl | hp
              · simp only at hpx; rw [hnx] at hpx; cases hpx
              · exact ⟨a, p, hp, hpx⟩
          · intro X srcs hX
            rw [h3 X srcs hX]
            simp [hnx]
        | some sp =>
          simp only
          have hsp : sp ∉ D := fun hD => by
            have := hc.mpr ⟨sp, hD, hnx⟩; simp at this
          obtain ⟨t1, t2, t3⟩ := takeGroup_spec (g := g) sp D hsp l fun p hp => h p (by simp [hp])
          have hlen : (takeGroup g sp l).2.length ≤ n := by
            have := congrArg List.length t2
            simp only [List.length_map] at this; omega
          obtain ⟨h1, h2, h3⟩ := ih _ (sp :: D) hlen t3
          have hmem : ∀ X, (∃ p ∈ (takeGroup g sp l).2, g.next p.1 = some X) ↔ ∃ p ∈ l, g.next p.1 = some X := by
            intro X
            have : ∀ (l' : List (Item × Bool)), (∃ p ∈ l', g.next p.1 = some X) ↔ ∃ c ∈ l'.map Prod.fst, g.next c = some X := by
              intro l'; simp
            rw [this, this, t2]
          refine ⟨?_, ?_, ?_⟩
          · simp only [List.map_cons, List.nodup_cons]
            refine ⟨?_, h1⟩
            rw [h2]; simp
          · intro X
            simp only [List.map_cons, List.mem_cons]
            rw [h2, hmem X]
            constructor
            · rintro (rfl | ⟨a, p, hp, hpx⟩)
              · exact ⟨hsp, (c, false), by simp, hnx⟩
              · exact ⟨fun hD => a (by simp [hD]), p, by simp [hp], hpx⟩
            · rintro ⟨a, p, hp, hpx⟩
              by_cases hX : X = sp
              · exact Or.inl hX
              · right
                refine ⟨by simp [hX, a], ?_⟩
                rcases hp with rfl | hp
                · simp only at hpx; rw [hnx] at hpx; simp only [Option.some.injEq] at hpx; exact absurd hpx.symm hX
                · exact ⟨p, hp, hpx⟩
          · intro X srcs hX
            rcases List.mem_cons.mp hX with hX | hX
            · simp only [Prod.mk.injEq] at hX
              obtain ⟨rfl, rfl⟩ := hX
              simp [hnx, t1]
            · have hXD := ((h2 X).mp (List.mem_map.mpr ⟨_, hX, rfl⟩)).1
              have hne : sp ≠ X := fun h => hXD (by simp [h])
              rw [h3 X srcs hX, t2]
              simp [hnx, hne]

theorem shiftGroups_spec (cfgs : List Config) :
    ((shiftGroups g cfgs).map Prod.fst).Nodup ∧
    (∀ X, X ∈ (shiftGroups g cfgs).map Prod.fst ↔ ∃ it ∈ cfgs.map Config.item, g.next it = some X) ∧
    ∀ X srcs, (X, srcs) ∈ shiftGroups g cfgs → srcs = (cfgs.map Config.item).filter (fun c => g.next c == some X) := by
  obtain ⟨h1, h2, h3⟩ := groups_spec (g := g) cfgs.length (cfgs.map fun c => (c.item, false)) [] (by simp) (by simp)
  refine ⟨h1, ?_, ?_⟩
  · intro X
    unfold shiftGroups
    rw [h2]
    simp
  · intro X srcs h
    have := h3 X srcs h
    rw [this, List.map_map]
    rfl

end Verif.Lemon
