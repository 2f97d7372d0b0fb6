import Verif.Spec.LR
import Mathlib.Data.List.Basic
import Mathlib.Tactic.Common
namespace Verif.Spec
open Relation

variable {G : CFG}

theorem Derives.append_right {u v : List Nat} (h : G.Derives u v) (w : List Nat) :
    G.Derives (u ++ w) (v ++ w) := by
  induction h with
  | refl => exact .refl
  | tail _ hs ih =>
    cases hs with
    | mk a b hr =>
      refine ih.tail ?_
      have := CFG.Step.mk (G := G) a (b ++ w) hr
      simpa using this

theorem Derives.append_left {u v : List Nat} (h : G.Derives u v) (w : List Nat) :
    G.Derives (w ++ u) (w ++ v) := by
  induction h with
  | refl => exact .refl
  | tail _ hs ih =>
    cases hs with
    | mk a b hr =>
      refine ih.tail ?_
      have := CFG.Step.mk (G := G) (w ++ a) b hr
      simpa using this

theorem Derives.append {u v u' v' : List Nat} (h : G.Derives u v) (h' : G.Derives u' v') :
    G.Derives (u ++ u') (v ++ v') :=
  (Derives.append_right h u').trans (Derives.append_left h' v)

theorem Derives.rule {A : Nat} {α : List Nat} (h : (A, α) ∈ G.rules) : G.Derives [A] α := by
  have := CFG.Step.mk (G := G) [] [] h
  simp at this
  exact .single this

/-- Inductive form of "derives the empty string". -/
inductive Null (G : CFG) : Nat → Prop
  | mk {A : Nat} {α : List Nat} (h : (A, α) ∈ G.rules) (hα : ∀ X ∈ α, Null G X) : Null G A

theorem nullable_of_null {A : Nat} (h : Null G A) : G.Nullable [A] := by
  induction h with
  | @mk A α hr hα ih =>
    refine (Derives.rule hr).trans ?_
    clear hr
    induction α with
    | nil => exact .refl
    | cons X α ihα =>
      have h1 := ih X (by simp)
      have h2 := ihα (fun Y hY => hα Y (by simp [hY])) (fun Y hY => ih Y (by simp [hY]))
      exact Derives.append h1 h2

theorem nullable_seq {β : List Nat} (h : ∀ X ∈ β, Null G X) : G.Nullable β := by
  induction β with
  | nil => exact .refl
  | cons X β ih =>
    exact Derives.append (nullable_of_null (h X (by simp))) (ih fun Y hY => h Y (by simp [hY]))

theorem nullable_iff {β : List Nat} : G.Nullable β ↔ ∀ X ∈ β, Null G X := by
  constructor
  · intro h
    unfold CFG.Nullable CFG.Derives at h
    induction h using ReflTransGen.head_induction_on with
    | refl => simp
    | head hs _ ih =>
      cases hs with
      | mk u v hr =>
        intro X hX
        simp only [List.mem_append, List.mem_cons] at hX ih
        rcases hX with hX | rfl | hX
        · exact ih X (Or.inl hX)
        · exact .mk hr fun Y hY => ih Y (Or.inr (Or.inl hY))
        · exact ih X (Or.inr (Or.inr hX))
  · exact nullable_seq

/-- Inductive form of "token `t` can begin a string derived from `β`". -/
inductive Fst (G : CFG) : List Nat → Nat → Prop
  | tok {t : Nat} {β : List Nat} (h : t < G.ntok) : Fst G (t :: β) t
  | skip {X t : Nat} {β : List Nat} (hX : Null G X) (h : Fst G β t) : Fst G (X :: β) t
  | rule {A t : Nat} {α β : List Nat} (hr : (A, α) ∈ G.rules) (h : Fst G α t) : Fst G (A :: β) t

theorem Fst.append_left {a : List Nat} {t : Nat} (h : Fst G a t) (b : List Nat) : Fst G (a ++ b) t := by
  induction h with
  | tok h => exact .tok h
  | skip hX _ ih => exact .skip hX ih
  | rule hr h _ => exact .rule hr h

theorem Fst.append_null {a b : List Nat} {t : Nat} (ha : ∀ X ∈ a, Null G X) (h : Fst G b t) :
    Fst G (a ++ b) t := by
  induction a with
  | nil => exact h
  | cons X a ih => exact .skip (ha X (by simp)) (ih fun Y hY => ha Y (by simp [hY]))

theorem Fst_append {a b : List Nat} {t : Nat} :
    Fst G (a ++ b) t ↔ Fst G a t ∨ ((∀ X ∈ a, Null G X) ∧ Fst G b t) := by
  constructor
  · intro h
    induction a with
    | nil => exact Or.inr ⟨by simp, h⟩
    | cons X a ih =>
      simp only [List.cons_append] at h
      cases h with
      | tok h => exact Or.inl (.tok h)
      | skip hX h =>
        rcases ih h with h | ⟨h1, h2⟩
        · exact Or.inl (.skip hX h)
        · refine Or.inr ⟨?_, h2⟩
          intro Y hY
          rcases List.mem_cons.mp hY with rfl | hY
          · exact hX
          · exact h1 Y hY
      | rule hr h => exact Or.inl (.rule hr h)
  · rintro (h | ⟨h1, h2⟩)
    · exact h.append_left b
    · exact .append_null h1 h2

theorem Fst_tok_lt {β : List Nat} {t : Nat} (h : Fst G β t) : t < G.ntok := by
  induction h with
  | tok h => exact h
  | skip _ _ ih => exact ih
  | rule _ _ ih => exact ih

theorem first_iff {β : List Nat} {t : Nat} : G.First β t ↔ Fst G β t := by
  constructor
  · rintro ⟨ht, γ, h⟩
    unfold CFG.Derives at h
    induction h using ReflTransGen.head_induction_on with
    | refl => exact .tok ht
    | head hs _ ih =>
      cases hs with
      | @mk u v A α hr =>
        rcases Fst_append.mp ih with h | ⟨h1, h⟩
        · exact h.append_left _
        · refine .append_null h1 ?_
          rcases Fst_append.mp h with h | ⟨h2, h⟩
          · exact .rule hr h
          · exact .skip (.mk hr h2) h
  · intro h
    refine ⟨Fst_tok_lt h, ?_⟩
    induction h with
    | tok h => exact ⟨_, .refl⟩
    | @skip X t β hX _ ih =>
      obtain ⟨γ, hγ⟩ := ih
      exact ⟨γ, Derives.append (nullable_of_null hX) hγ⟩
    | @rule A t α β hr _ ih =>
      obtain ⟨γ, hγ⟩ := ih
      refine ⟨γ ++ β, ?_⟩
      have := Derives.append ((Derives.rule hr).trans hγ) (v := t :: γ) (u' := β) (v' := β) .refl
      simpa using this

/-- Big-step form of "`β` derives the token string `w`". -/
inductive Yields (G : CFG) : List Nat → List Nat → Prop
  | nil : Yields G [] []
  | tok {t : Nat} {β w : List Nat} (ht : t < G.ntok) (h : Yields G β w) : Yields G (t :: β) (t :: w)
  | var {A : Nat} {α β w₁ w₂ : List Nat} (hr : (A, α) ∈ G.rules) (h₁ : Yields G α w₁)
      (h₂ : Yields G β w₂) : Yields G (A :: β) (w₁ ++ w₂)

theorem Yields.derives {β w : List Nat} (h : Yields G β w) : G.Derives β w := by
  induction h with
  | nil => exact .refl
  | tok _ _ ih => exact Derives.append_left ih [_]
  | var hr _ _ ih₁ ih₂ =>
    exact Derives.append (u := [_]) ((Derives.rule hr).trans ih₁) ih₂

theorem Yields.toks {β w : List Nat} (h : Yields G β w) : ∀ t ∈ w, t < G.ntok := by
  induction h with
  | nil => simp
  | tok ht _ ih => intro t h; rcases List.mem_cons.mp h with rfl | h; exacts [ht, ih t h]
  | var _ _ _ ih₁ ih₂ =>
    intro t h; rcases List.mem_append.mp h with h | h; exacts [ih₁ t h, ih₂ t h]

theorem Yields.append {a b u v : List Nat} (h : Yields G a u) (h' : Yields G b v) :
    Yields G (a ++ b) (u ++ v) := by
  induction h with
  | nil => exact h'
  | tok ht _ ih => exact .tok ht ih
  | var hr h₁ _ _ ih₂ =>
    rw [List.append_assoc]
    exact .var hr h₁ ih₂

theorem Yields.split {a b w : List Nat} (h : Yields G (a ++ b) w) :
    ∃ u v, w = u ++ v ∧ Yields G a u ∧ Yields G b v := by
  induction a generalizing w with
  | nil => exact ⟨[], w, rfl, .nil, h⟩
  | cons X a ih =>
    simp only [List.cons_append] at h
    cases h with
    | tok ht h =>
      obtain ⟨u, v, rfl, h1, h2⟩ := ih h
      exact ⟨_ :: u, v, rfl, .tok ht h1, h2⟩
    | var hr h₁ h₂ =>
      obtain ⟨u, v, rfl, h1, h2⟩ := ih h₂
      exact ⟨_ ++ u, v, by simp, .var hr h₁ h1, h2⟩

theorem Yields.of_toks {w : List Nat} (h : ∀ t ∈ w, t < G.ntok) : Yields G w w := by
  induction w with
  | nil => exact .nil
  | cons t w ih => exact .tok (h t (by simp)) (ih fun s hs => h s (by simp [hs]))

theorem yields_iff {β w : List Nat} : Yields G β w ↔ (∀ t ∈ w, t < G.ntok) ∧ G.Derives β w := by
  constructor
  · intro h; exact ⟨h.toks, h.derives⟩
  · rintro ⟨ht, h⟩
    unfold CFG.Derives at h
    induction h using ReflTransGen.head_induction_on with
    | refl => exact .of_toks ht
    | head hs _ ih =>
      cases hs with
      | @mk u v A α hr =>
        obtain ⟨w1, w23, rfl, h1, h23⟩ := ih.split
        obtain ⟨w2, w3, rfl, h2, h3⟩ := h23.split
        exact h1.append (.var hr h2 h3)

theorem Yields.null {β : List Nat} (h : Yields G β []) : ∀ X ∈ β, Null G X :=
  nullable_iff.mp h.derives

theorem Yields.fst {β : List Nat} {t : Nat} {w : List Nat} (h : Yields G β (t :: w)) : Fst G β t :=
  first_iff.mp ⟨h.toks t (by simp), w, h.derives⟩

end Verif.Spec
