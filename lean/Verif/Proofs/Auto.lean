import Verif.Spec.LR
import Verif.Spec.LR0
import Verif.Proofs.Grammar
import Mathlib.Data.List.Induction
set_option autoImplicit false
namespace Verif
open Spec Relation

/-- Abstract LR(0) automaton: `Item s r d` are the items of (closed) state `s`, `Trans s X t`
the transitions.  `Sh X`: symbols on which transitions are made. -/
structure IsAuto (G : CFG) (I : Init) (Sh : Nat → Prop) (n : Nat)
    (Item : Nat → Nat → Nat → Prop) (Trans : Nat → Nat → Nat → Prop) : Prop where
  pos : 0 < n
  item0 : ∀ r d, Item 0 r d ↔ Closed G (fun r d => d = 0 ∧ I.rules r) r d
  ex : ∀ s X, s < n → ((∃ t, Trans s X t) ↔ (Sh X ∧ ∃ r d, Item s r d ∧ DotBefore G r d X))
  lt : ∀ s X t, Trans s X t → s < n ∧ t < n
  tgt : ∀ s X t, Trans s X t → ∀ r d, Item t r d ↔
    Closed G (fun r d => ∃ d', d = d' + 1 ∧ Item s r d' ∧ DotBefore G r d' X) r d
  inj : ∀ s t, s < n → t < n → (∀ r d, Item s r d ↔ Item t r d) → s = t
  reach : ∀ t, t < n → t ≠ 0 → ∃ s X, s < t ∧ Trans s X t

/-- path of transitions -/
inductive Path (Trans : Nat → Nat → Nat → Prop) : Nat → List Nat → Nat → Prop
  | nil (s : Nat) : Path Trans s [] s
  | snoc {s : Nat} {γ : List Nat} {t : Nat} {X u : Nat} (h : Path Trans s γ t) (ht : Trans t X u) :
      Path Trans s (γ ++ [X]) u

theorem Path.append {Trans : Nat → Nat → Nat → Prop} {s t u : Nat} {γ δ : List Nat} (h : Path Trans s γ t)
    (h' : Path Trans t δ u) : Path Trans s (γ ++ δ) u := by
  induction h' with
  | nil => simpa using h
  | snoc _ ht ih => rw [← List.append_assoc]; exact .snoc ih ht

theorem Path.single {Trans : Nat → Nat → Nat → Prop} {s X t : Nat} (h : Trans s X t) : Path Trans s [X] t :=
  .snoc (.nil s) h

theorem Path.snoc_inv {Trans : Nat → Nat → Nat → Prop} {s u : Nat} {γ : List Nat} {X : Nat}
    (h : Path Trans s (γ ++ [X]) u) : ∃ t, Path Trans s γ t ∧ Trans t X u := by
  generalize e : γ ++ [X] = δ at h
  cases h with
  | nil => simp at e
  | snoc h' ht =>
    have := List.append_inj' e rfl
    obtain ⟨rfl, h2⟩ := this
    simp only [List.cons.injEq, and_true] at h2
    subst h2
    exact ⟨_, h', ht⟩

theorem Path.nil_inv {Trans : Nat → Nat → Nat → Prop} {s u : Nat} (h : Path Trans s [] u) : s = u := by
  generalize e : ([] : List Nat) = δ at h
  cases h with
  | nil => rfl
  | snoc _ _ => simp at e

theorem Path.append_inv {Trans : Nat → Nat → Nat → Prop} {s u : Nat} {γ δ : List Nat}
    (h : Path Trans s (γ ++ δ) u) : ∃ t, Path Trans s γ t ∧ Path Trans t δ u := by
  induction δ using List.reverseRecOn generalizing u with
  | nil => exact ⟨u, by simpa using h, .nil u⟩
  | append_singleton δ X ih =>
    rw [← List.append_assoc] at h
    obtain ⟨t, h1, h2⟩ := h.snoc_inv
    obtain ⟨t', h3, h4⟩ := ih h1
    exact ⟨t', h3, .snoc h4 h2⟩

theorem Path.cons_inv {Trans : Nat → Nat → Nat → Prop} {s u X : Nat} {δ : List Nat}
    (h : Path Trans s (X :: δ) u) : ∃ t, Trans s X t ∧ Path Trans t δ u := by
  obtain ⟨t, h1, h2⟩ := Path.append_inv (γ := [X]) h
  obtain ⟨t', h3, h4⟩ := Path.snoc_inv (γ := []) h1
  have := h3.nil_inv
  subst this
  exact ⟨t, h4, h2⟩

namespace Spec

theorem DotBefore.lt_rules {G : CFG} {r d X : Nat} (h : DotBefore G r d X) : r < G.rules.length := by
  obtain ⟨A, α, hr, -⟩ := h
  exact (List.getElem?_eq_some_iff.mp hr).1

theorem DotBefore.unique {G : CFG} {r d X Y : Nat} (h : DotBefore G r d X) (h' : DotBefore G r d Y) : X = Y := by
  obtain ⟨A, α, hr, hX⟩ := h
  obtain ⟨A', α', hr', hY⟩ := h'
  rw [hr] at hr'
  simp only [Option.some.injEq, Prod.mk.injEq] at hr'
  obtain ⟨-, rfl⟩ := hr'
  rw [hX] at hY
  simpa using hY

end Spec

variable {G : CFG} {I : Init} {Sh : Nat → Prop} {n : Nat} {Item : Nat → Nat → Nat → Prop}
  {Trans : Nat → Nat → Nat → Prop}

theorem closed_congr {K K' : Nat → Nat → Prop} (h : ∀ r d, K r d ↔ K' r d) (r d : Nat) :
    Closed G K r d ↔ Closed G K' r d := by
  have : K = K' := by funext r d; exact propext (h r d)
  rw [this]

theorem IsAuto.det (h : IsAuto G I Sh n Item Trans) {s X t t' : Nat} (h1 : Trans s X t) (h2 : Trans s X t') :
    t = t' := by
  apply h.inj t t' (h.lt _ _ _ h1).2 (h.lt _ _ _ h2).2
  intro r d
  rw [h.tgt _ _ _ h1, h.tgt _ _ _ h2]

theorem IsAuto.path_lt (h : IsAuto G I Sh n Item Trans) {s t : Nat} {γ : List Nat} (hs : s < n)
    (hp : Path Trans s γ t) : t < n := by
  induction hp with
  | nil => exact hs
  | snoc _ ht _ => exact (h.lt _ _ _ ht).2

theorem IsAuto.path_det (h : IsAuto G I Sh n Item Trans) {s t t' : Nat} {γ : List Nat}
    (h1 : Path Trans s γ t) (h2 : Path Trans s γ t') : t = t' := by
  induction h1 generalizing t' with
  | nil => exact h2.nil_inv
  | snoc _ ht ih =>
    obtain ⟨u, hu1, hu2⟩ := h2.snoc_inv
    have := ih hu1
    subst this
    exact h.det ht hu2

/-- every state is reached from state 0 -/
theorem IsAuto.path_to (h : IsAuto G I Sh n Item Trans) : ∀ t, t < n → ∃ γ, Path Trans 0 γ t := by
  intro t
  induction t using Nat.strongRecOn with
  | ind t ih =>
    intro ht
    rcases Nat.eq_zero_or_pos t with rfl | h0
    · exact ⟨[], .nil 0⟩
    · obtain ⟨s, X, hs, htr⟩ := h.reach t ht (by omega)
      obtain ⟨γ, hγ⟩ := ih s hs (by omega)
      exact ⟨γ ++ [X], .snoc hγ htr⟩

/-- items are closed -/
theorem IsAuto.step (h : IsAuto G I Sh n Item Trans) {s : Nat} (hs : s < n) {r d r' B : Nat} {η : List Nat}
    (hi : Item s r d) (hB : DotBefore G r d B) (hr' : G.rules[r']? = some (B, η)) : Item s r' 0 := by
  obtain ⟨γ, hγ⟩ := h.path_to s hs
  cases hγ with
  | nil => rw [h.item0] at hi ⊢; exact .step hi hB hr'
  | snoc _ ht => rw [h.tgt _ _ _ ht] at hi ⊢; exact .step hi hB hr'

/-- advancing the dot over a transition -/
theorem IsAuto.adv (h : IsAuto G I Sh n Item Trans) {s X t r d : Nat} (ht : Trans s X t)
    (hi : Item s r d) (hX : DotBefore G r d X) : Item t r (d+1) := by
  rw [h.tgt _ _ _ ht]
  exact .kern ⟨d, rfl, hi, hX⟩

/-- the items of the state of `γ` are the valid items of `γ` -/
theorem IsAuto.item_valid (h : IsAuto G I Sh n Item Trans) {γ : List Nat} {s : Nat} (hp : Path Trans 0 γ s)
    (r d : Nat) : Item s r d ↔ ValidItem G I γ r d := by
  constructor
  · induction hp generalizing r d with
    | nil =>
      intro hi
      rw [h.item0] at hi
      induction hi with
      | kern hk => obtain ⟨rfl, hr⟩ := hk; exact ⟨_, .init hr⟩
      | step _ hB hr' ih =>
        obtain ⟨z, hz⟩ := ih
        obtain ⟨A, α, hr, hd⟩ := hB
        exact ⟨_, .clos hz hr hd hr'⟩
    | snoc _ ht ih =>
      intro hi
      rw [h.tgt _ _ _ ht] at hi
      induction hi with
      | kern hk =>
        obtain ⟨d', rfl, hi', hX⟩ := hk
        obtain ⟨z, hz⟩ := ih _ _ hi'
        obtain ⟨A, α, hr, hd⟩ := hX
        exact ⟨z, .shift hz hr hd⟩
      | step _ hB hr' ih' =>
        obtain ⟨z, hz⟩ := ih'
        obtain ⟨A, α, hr, hd⟩ := hB
        exact ⟨_, .clos hz hr hd hr'⟩
  · rintro ⟨z, hz⟩
    have hlt := h.path_lt h.pos hp
    clear hlt
    induction hz generalizing s with
    | init hr =>
      have := hp.nil_inv
      subst this
      rw [h.item0]
      exact .kern ⟨rfl, hr⟩
    | clos _ hr hB hr' ih =>
      exact h.step (h.path_lt h.pos hp) (ih hp) ⟨_, _, hr, hB⟩ hr'
    | shift _ hr hX ih =>
      obtain ⟨t, h1, h2⟩ := hp.snoc_inv
      exact h.adv h2 (ih h1) ⟨_, _, hr, hX⟩

/-- a prefix with a valid item has a path, if its symbols can be shifted -/
theorem IsAuto.path_of_valid (h : IsAuto G I Sh n Item Trans) {γ : List Nat} {r d : Nat} {z : List Nat}
    (hz : Ctx G I γ r d z) (hsh : ∀ X ∈ γ, Sh X) : ∃ s, Path Trans 0 γ s ∧ Item s r d := by
  induction hz with
  | init hr => exact ⟨0, .nil 0, (h.item0 _ _).mpr (.kern ⟨rfl, hr⟩)⟩
  | clos _ hr hB hr' ih =>
    obtain ⟨s, hs, hi⟩ := ih hsh
    exact ⟨s, hs, h.step (h.path_lt h.pos hs) hi ⟨_, _, hr, hB⟩ hr'⟩
  | @shift γ r d z A α X _ hr hX ih =>
    obtain ⟨s, hs, hi⟩ := ih (fun Y hY => hsh Y (by simp [hY]))
    obtain ⟨t, ht⟩ := (h.ex s X (h.path_lt h.pos hs)).mpr ⟨hsh X (by simp), r, d, hi, ⟨A, α, hr, hX⟩⟩
    exact ⟨t, .snoc hs ht, h.adv ht hi ⟨A, α, hr, hX⟩⟩

/-- prefixes of the same state -/
theorem IsAuto.sameState (h : IsAuto G I Sh n Item Trans) {γ γ' : List Nat} {s s' : Nat}
    (hp : Path Trans 0 γ s) (hp' : Path Trans 0 γ' s') : SameState G I γ γ' ↔ s = s' := by
  constructor
  · intro hs
    apply h.inj s s' (h.path_lt h.pos hp) (h.path_lt h.pos hp')
    intro r d
    rw [h.item_valid hp, h.item_valid hp', hs r d]
  · rintro rfl r d
    rw [← h.item_valid hp, ← h.item_valid hp']

/-- walking the right-hand side of a rule -/
theorem IsAuto.walk (h : IsAuto G I Sh n Item Trans) {s r A : Nat} {α : List Nat} (hs : s < n)
    (hr : G.rules[r]? = some (A, α)) (hsh : ∀ X ∈ α, Sh X) (hi : Item s r 0) :
    ∀ k, k ≤ α.length → ∃ t, Path Trans s (α.take k) t ∧ t < n ∧ Item t r k := by
  intro k
  induction k with
  | zero => intro _; exact ⟨s, by simpa using .nil s, hs, hi⟩
  | succ k ih =>
    intro hk
    obtain ⟨t, h1, h2, h3⟩ := ih (by omega)
    have hX : α[k]? = some α[k] := List.getElem?_eq_getElem (by omega)
    have hdot : DotBefore G r k α[k] := ⟨A, α, hr, hX⟩
    obtain ⟨u, hu⟩ := (h.ex t α[k] h2).mpr ⟨hsh _ (List.getElem_mem _), r, k, h3, hdot⟩
    refine ⟨u, ?_, (h.lt _ _ _ hu).2, h.adv hu h3 hdot⟩
    rw [List.take_succ_eq_append_getElem (by omega)]
    exact .snoc h1 hu

/-- context after shifting a part of the right-hand side -/
theorem Ctx.shifts {γ z : List Nat} {r A : Nat} {α : List Nat} (hr : G.rules[r]? = some (A, α))
    (h : Ctx G I γ r 0 z) : ∀ k, k ≤ α.length → Ctx G I (γ ++ α.take k) r k z := by
  intro k
  induction k with
  | zero => intro _; simpa using h
  | succ k ih =>
    intro hk
    rw [List.take_succ_eq_append_getElem (by omega), ← List.append_assoc]
    exact .shift (ih (by omega)) hr (List.getElem?_eq_getElem (by omega))

end Verif
