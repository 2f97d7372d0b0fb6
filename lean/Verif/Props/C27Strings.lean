import Verif.Props.C27Lemon
/-
C27 (lemon side): saved strings have the same address iff they are equal.
-/
set_option autoImplicit false
namespace Verif.Lemon

/-- A sequence of `Strsafe` calls (lemon.c:5814-5828), with the addresses returned. -/
def strsafes (t : Tab (List Nat) Nat) : List (List Nat) → Tab (List Nat) Nat × List Nat
  | [] => (t, [])
  | x :: xs => ((strsafes (strsafe t x).1 xs).1, (strsafe t x).2 :: (strsafes (strsafe t x).1 xs).2)

/-- Every string is saved together with its own address. -/
structure StrsOK (t : Tab (List Nat) Nat) : Prop where
  tab : TabOK strhash t
  entry : ∀ (i : Nat) (x : List Nat) (z : Nat), t.tbl[i]? = some (x, z) → z = i

theorem strsafe_spec {t : Tab (List Nat) Nat} (ok : StrsOK t) (x : List Nat) :
    StrsOK (strsafe t x).1 ∧ ((strsafe t x).1.tbl.map Prod.fst)[(strsafe t x).2]? = some x ∧
    t.tbl.map Prod.fst <+: (strsafe t x).1.tbl.map Prod.fst := by
  have heq : ∀ a b : List Nat, (fun a b => a == b) a b = true ↔ a = b := by simp
  unfold strsafe
  by_cases h : x ∈ t.tbl.map Prod.fst
  · obtain ⟨⟨k, z⟩, hn, e⟩ := List.mem_map.mp h
    simp only at e
    subst e
    rw [find_some heq ok.tab hn]
    simp only
    obtain ⟨i, hi, he⟩ := List.getElem_of_mem hn
    have hi' : t.tbl[i]? = some (k, z) := by rw [List.getElem?_eq_getElem hi, he]
    have := ok.entry i k z hi'
    subst this
    exact ⟨ok, by simp [hi'], List.prefix_refl _⟩
  · have hno : ∀ n ∈ t.tbl, n.1 ≠ x := fun n hn e => h (List.mem_map.mpr ⟨n, hn, e⟩)
    rw [find_none heq hno]
    simp only
    obtain ⟨-, g2, g3⟩ := (insert_spec (eq := fun a b => a == b) heq ok.tab x t.tbl.length).2 hno
    refine ⟨⟨g2, ?_⟩, by rw [g3]; simp, by rw [g3]; simp⟩
    intro i y z hi
    rw [g3, List.getElem?_append] at hi
    split at hi
    · exact ok.entry i y z hi
    · have : i - t.tbl.length = 0 := by
        by_contra hc
        rw [List.getElem?_eq_none (by simp; omega)] at hi
        simp at hi
      rw [this] at hi
      simp only [List.getElem?_cons_zero, Option.some.injEq, Prod.mk.injEq] at hi
      obtain ⟨rfl, rfl⟩ := hi
      omega

theorem strsafes_spec (xs : List (List Nat)) : ∀ t, StrsOK t →
    StrsOK (strsafes t xs).1 ∧ t.tbl.map Prod.fst <+: (strsafes t xs).1.tbl.map Prod.fst ∧
    List.Forall₂ (fun x z => ((strsafes t xs).1.tbl.map Prod.fst)[z]? = some x) xs (strsafes t xs).2 := by
  induction xs with
  | nil => intro t ok; exact ⟨ok, List.prefix_refl _, .nil⟩
  | cons x xs ih =>
    intro t ok
    obtain ⟨h1, h2, h3⟩ := strsafe_spec ok x
    obtain ⟨g1, g2, g3⟩ := ih _ h1
    refine ⟨g1, h3.trans g2, .cons ?_ g3⟩
    show ((strsafes (strsafe t x).1 xs).1.tbl.map Prod.fst)[(strsafe t x).2]? = some x
    obtain ⟨l, hl⟩ := g2
    rw [← hl, List.getElem?_append_left (List.getElem?_eq_some_iff.mp h2).1]
    exact h2

/-- C27 for `Strsafe`: after any sequence of calls, from the empty table of 1024 slots, every
address returned holds the string that was given, and two calls return the same address iff their
strings are equal. -/
theorem C27_strings (xs : List (List Nat)) :
    let r := strsafes (Tab.init (List Nat) Nat 1024) xs
    r.2.length = xs.length ∧
    (∀ (i z : Nat) (x : List Nat), r.2[i]? = some z → xs[i]? = some x → (r.1.tbl.map Prod.fst)[z]? = some x) ∧
    ∀ (i j a b : Nat) (x y : List Nat), r.2[i]? = some a → r.2[j]? = some b → xs[i]? = some x →
      xs[j]? = some y → (a = b ↔ x = y) := by
  intro r
  have ok0 : StrsOK (Tab.init (List Nat) Nat 1024) := ⟨init_ok _ _ (by omega), fun i x z h => by
    have e : (Tab.init (List Nat) Nat 1024).tbl = [] := rfl
    rw [e] at h; simp at h⟩
  obtain ⟨h1, -, h3⟩ := strsafes_spec xs _ ok0
  have hget : ∀ (i z : Nat) (x : List Nat), r.2[i]? = some z → xs[i]? = some x →
      (r.1.tbl.map Prod.fst)[z]? = some x := by
    intro i z x hz hx
    have hi1 := List.getElem?_eq_some_iff.mp hx
    have hi2 := List.getElem?_eq_some_iff.mp hz
    have := (List.forall₂_iff_get.mp h3).2 i hi1.1 hi2.1
    simp only [List.get_eq_getElem, hi1.2] at this
    have e : (strsafes (Tab.init (List Nat) Nat 1024) xs).2[i]'hi2.1 = z := hi2.2
    rw [e] at this
    exact this
  refine ⟨h3.length_eq.symm, hget, ?_⟩
  intro i j a b x y ha hb hx hy
  have p := hget i a x ha hx
  have q := hget j b y hb hy
  constructor
  · rintro rfl
    exact Option.some.inj (p.symm.trans q)
  · rintro rfl
    have q1 := List.getElem?_eq_some_iff.mp p
    have q2 := List.getElem?_eq_some_iff.mp q
    exact (List.Nodup.getElem_inj_iff h1.tab.nodup (hi := q1.1) (hj := q2.1)).mp (q1.2.trans q2.2.symm)

/-- "ab", "c", "ab", "", "c" -/
example : (strsafes (Tab.init (List Nat) Nat 1024) [[97, 98], [99], [97, 98], [], [99]]).2 = [0, 1, 0, 2, 1] := by
  decide +kernel

end Verif.Lemon
