import Verif.Spec.Parse
import Verif.Spec.LR
import Verif.Proofs.Grammar
import Mathlib.Tactic.Common
set_option autoImplicit false
namespace Verif.Spec
open Relation

variable {G : CFG} {I : Init} {V : Type} {f : Nat → List V → V}

/-! ### rightmost derivations -/

theorem Rightmost.wrap {rs u w : List Nat} (h : G.Rightmost rs u w) (β : List Nat) {y : List Nat}
    (hy : ∀ t ∈ y, t < G.ntok) : G.Rightmost rs (β ++ (u ++ y)) (β ++ (w ++ y)) := by
  induction h with
  | refl u => exact .refl _
  | @step r rs A α δ z w hr hz h ih =>
    have := CFG.Rightmost.step (G := G) (δ := β ++ δ) (z := z ++ y) (w := β ++ (w ++ y)) (rs := rs) hr
      (by intro t ht; rcases List.mem_append.mp ht with h | h; exacts [hz t h, hy t h])
      (by simpa using ih)
    simpa using this

theorem Rightmost.trans {rs rs' u v w : List Nat} (h : G.Rightmost rs u v) (h' : G.Rightmost rs' v w) :
    G.Rightmost (rs ++ rs') u w := by
  induction h with
  | refl => exact h'
  | step hr hz _ ih => exact .step hr hz (ih h')

theorem Rightmost.derives {rs u w : List Nat} (h : G.Rightmost rs u w) : G.Derives u w := by
  induction h with
  | refl => exact .refl
  | @step r rs A α δ z w hr hz h ih =>
    exact ReflTransGen.head (CFG.Step.mk δ z (List.mem_of_getElem? hr)) ih

/-! ### trees -/

theorem Builds.toks {rs β : List Nat} {w : List (Nat × V)} {vs : List V} (h : Builds G f rs β w vs) :
    ∀ p ∈ w, p.1 < G.ntok := by
  induction h with
  | nil => simp
  | tok v ht h ih =>
    intro p hp
    simp only [List.mem_append, List.mem_singleton] at hp
    rcases hp with hp | rfl
    · exact ih p hp
    · exact ht
  | rule hr h h' ih ih' =>
    intro p hp
    rcases List.mem_append.mp hp with hp | hp
    exacts [ih p hp, ih' p hp]

theorem Builds.length {rs β : List Nat} {w : List (Nat × V)} {vs : List V} (h : Builds G f rs β w vs) :
    β.length = vs.length := by
  induction h with
  | nil => rfl
  | tok v ht h ih => simp [ih]
  | rule hr h h' ih ih' => simp [ih]

theorem Builds.rightmost {rs β : List Nat} {w : List (Nat × V)} {vs : List V} (h : Builds G f rs β w vs) :
    G.Rightmost rs.reverse β (w.map Prod.fst) := by
  induction h with
  | nil => exact .refl _
  | @tok rs β w vs t v ht h ih =>
    have := Rightmost.wrap ih [] (y := [t]) (by simpa using ht)
    simpa using this
  | @rule rs rs' β w w' vs us r A α hr h h' ih ih' =>
    have hw : ∀ t ∈ w'.map Prod.fst, t < G.ntok := by
      intro t ht
      obtain ⟨p, hp, rfl⟩ := List.mem_map.mp ht
      exact h'.toks p hp
    have h1 := Rightmost.wrap ih' β (y := []) (by simp)
    have h2 := Rightmost.wrap ih [] hw
    simp only [List.append_nil, List.nil_append] at h1 h2
    have h3 := Rightmost.trans h1 h2
    have := CFG.Rightmost.step (G := G) (δ := β) (z := []) hr (by simp) (by simpa using h3)
    simpa using this

/-- a forest can be cut anywhere -/
theorem Builds.split {rs β : List Nat} {w : List (Nat × V)} {vs : List V} (h : Builds G f rs β w vs) :
    ∀ δ α, β = δ ++ α → ∃ rs1 rs2 w1 w2 vs1 vs2, rs = rs1 ++ rs2 ∧ w = w1 ++ w2 ∧ vs = vs1 ++ vs2 ∧
      Builds G f rs1 δ w1 vs1 ∧ Builds G f rs2 α w2 vs2 := by
  induction h with
  | nil =>
    intro δ α e
    simp only [List.nil_eq, List.append_eq_nil_iff] at e
    obtain ⟨rfl, rfl⟩ := e
    exact ⟨[], [], [], [], [], [], rfl, rfl, rfl, .nil, .nil⟩
  | @tok rs β w vs t v ht h ih =>
    intro δ α e
    rcases List.eq_nil_or_concat α with rfl | ⟨α', X, rfl⟩
    · simp only [List.append_nil] at e
      subst e
      exact ⟨rs, [], w ++ [(t, v)], [], vs ++ [v], [], by simp, by simp, by simp, .tok v ht h, .nil⟩
    · rw [List.concat_eq_append, ← List.append_assoc] at e
      obtain ⟨e1, e2⟩ := List.append_inj' e rfl
      simp only [List.cons.injEq, and_true] at e2
      subst e2
      obtain ⟨rs1, rs2, w1, w2, vs1, vs2, rfl, rfl, rfl, h1, h2⟩ := ih δ α' e1
      exact ⟨rs1, rs2, w1, w2 ++ [(t, v)], vs1, vs2 ++ [v], rfl, by simp, by simp, h1,
        by simpa using Builds.tok v ht h2⟩
  | @rule rs rs' β w w' vs us r A η hr h h' ih ih' =>
    intro δ α e
    rcases List.eq_nil_or_concat α with rfl | ⟨α', X, rfl⟩
    · simp only [List.append_nil] at e
      subst e
      exact ⟨rs ++ rs' ++ [r], [], w ++ w', [], vs ++ [f r us], [], by simp, by simp, by simp, .rule hr h h', .nil⟩
    · rw [List.concat_eq_append, ← List.append_assoc] at e
      obtain ⟨e1, e2⟩ := List.append_inj' e rfl
      simp only [List.cons.injEq, and_true] at e2
      subst e2
      obtain ⟨rs1, rs2, w1, w2, vs1, vs2, rfl, rfl, rfl, h1, h2⟩ := ih δ α' e1
      exact ⟨rs1, rs2 ++ rs' ++ [r], w1, w2 ++ w', vs1, vs2 ++ [f r us], by simp, by simp, by simp, h1,
        by simpa using Builds.rule hr h2 h'⟩

/-- replace the last symbols by the left-hand side of a rule -/
theorem Builds.reduce {rs δ α : List Nat} {w : List (Nat × V)} {vs : List V} {r A : Nat}
    (h : Builds G f rs (δ ++ α) w vs) (hr : G.rules[r]? = some (A, α)) :
    Builds G f (rs ++ [r]) (δ ++ [A]) w (vs.take δ.length ++ [f r (vs.drop δ.length)]) := by
  obtain ⟨rs1, rs2, w1, w2, vs1, vs2, rfl, rfl, rfl, h1, h2⟩ := h.split δ α rfl
  rw [h1.length]
  simpa using Builds.rule hr h1 h2

/-! ### contexts -/

theorem Ctx.back {γ z : List Nat} {r d : Nat} (h : Ctx G I γ r d z) : ∀ {A : Nat} {α : List Nat},
    G.rules[r]? = some (A, α) → ∃ δ, γ = δ ++ α.take d ∧ Ctx G I δ r 0 z := by
  induction h with
  | init hr => intro A α _; exact ⟨[], by simp, .init hr⟩
  | @clos γ r d z A α B r' η h hr hB hr' ih => intro A' α' _; exact ⟨γ, by simp, .clos h hr hB hr'⟩
  | @shift γ r d z A α X h hr hX ih =>
    intro A' α' hr'
    rw [hr] at hr'
    simp only [Option.some.injEq, Prod.mk.injEq] at hr'
    obtain ⟨rfl, rfl⟩ := hr'
    obtain ⟨δ, rfl, h2⟩ := ih hr
    refine ⟨δ, ?_, h2⟩
    rw [List.take_add_one, hX]
    simp

theorem Ctx.parent {γ z : List Nat} {r A : Nat} {α : List Nat} (h : Ctx G I γ r 0 z)
    (hr : G.rules[r]? = some (A, α)) : I.rules r ∨ ∃ r' d' z' A' α', Ctx G I γ r' d' z' ∧
      G.rules[r']? = some (A', α') ∧ α'[d']? = some A ∧ z = α'.drop (d'+1) ++ z' := by
  generalize e : 0 = d at h
  cases h with
  | init hr => exact .inl hr
  | @clos γ r0 d0 z0 A0 α0 B r' η h hr0 hB hr' =>
    rw [hr] at hr'
    simp only [Option.some.injEq, Prod.mk.injEq] at hr'
    obtain ⟨rfl, rfl⟩ := hr'
    exact .inr ⟨r0, d0, z0, A0, α0, h, hr0, hB, rfl⟩
  | shift => omega

end Verif.Spec
