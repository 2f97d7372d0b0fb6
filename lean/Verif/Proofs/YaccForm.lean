import Verif.Spec.Lemon
import Verif.Proofs.Grammar
import Verif.Proofs.DeRemer
/-
Lookaheads of a grammar and of its yacc form.
-/
set_option autoImplicit false
namespace Verif.Lemon
open Verif.Spec

variable {σ : Nat → Nat} {G G' : CFG} {S acc : Nat} {I : Init}

theorem map_inj (inj : ∀ X Y, σ X = σ Y → X = Y) {a b : List Nat} (h : a.map σ = b.map σ) : a = b :=
  List.map_injective_iff.mpr (fun X Y => inj X Y) h

theorem YaccForm.rule (y : YaccForm σ G S acc G') {r : Nat} {A : Nat} {α : List Nat} (h : G.rules[r]? = some (A, α)) :
    G'.rules[r + 1]? = some (σ A, α.map σ) := by
  rw [y.rules]; simp [h]

theorem YaccForm.rule_inv (y : YaccForm σ G S acc G') {r : Nat} {A' : Nat} {α' : List Nat}
    (h : G'.rules[r]? = some (A', α')) : (r = 0 ∧ A' = acc ∧ α' = [σ S, σ 0]) ∨
      ∃ r0 A α, r = r0 + 1 ∧ G.rules[r0]? = some (A, α) ∧ A' = σ A ∧ α' = α.map σ := by
  rw [y.rules] at h
  cases r with
  | zero => left; simp at h; exact ⟨rfl, h.1.symm, h.2.symm⟩
  | succ r =>
    right
    simp only [List.getElem?_cons_succ, List.getElem?_map, Option.map_eq_some_iff, Prod.mk.injEq] at h
    obtain ⟨⟨A, α⟩, h1, h2, h3⟩ := h
    exact ⟨r, A, α, rfl, h1, h2.symm, h3.symm⟩

theorem YaccForm.mem (y : YaccForm σ G S acc G') {A : Nat} {α' : List Nat} :
    (σ A, α') ∈ G'.rules ↔ ∃ α, (A, α) ∈ G.rules ∧ α' = α.map σ := by
  rw [y.rules]
  simp only [List.mem_cons, Prod.mk.injEq, List.mem_map]
  constructor
  · rintro (⟨h, _⟩ | ⟨⟨B, β⟩, h1, h2, h3⟩)
    · exact absurd h (y.acc A)
    · have := y.inj _ _ h2
      simp only at this h3
      subst this
      exact ⟨β, h1, h3.symm⟩
  · rintro ⟨α, h1, rfl⟩
    exact Or.inr ⟨(A, α), h1, rfl, rfl⟩

theorem YaccForm.null (y : YaccForm σ G S acc G') {X : Nat} : Null G' (σ X) ↔ Null G X := by
  constructor
  · intro h
    generalize e : σ X = X' at h
    induction h generalizing X with
    | @mk A α hr hα ih =>
      subst e
      obtain ⟨β, h1, rfl⟩ := y.mem.mp hr
      exact .mk h1 fun Y hY => ih (σ Y) (List.mem_map_of_mem hY) rfl
  · intro h
    induction h with
    | mk hr hα ih =>
      refine .mk (y.mem.mpr ⟨_, hr, rfl⟩) fun Y hY => ?_
      obtain ⟨Z, hZ, rfl⟩ := List.mem_map.mp hY
      exact ih Z hZ

theorem YaccForm.fst (y : YaccForm σ G S acc G') {z : List Nat} {t : Nat} : Fst G' (z.map σ) (σ t) ↔ Fst G z t := by
  constructor
  · intro h
    generalize e : z.map σ = z' at h
    generalize et : σ t = t' at h
    induction h generalizing z t with
    | @tok t' β ht =>
      cases z with
      | nil => simp at e
      | cons X z =>
        simp only [List.map_cons, List.cons.injEq] at e
        have : X = t := y.inj _ _ (e.1.trans et.symm)
        subst this
        exact .tok ((y.tok X).mp (by rw [e.1]; exact ht))
    | skip hX _ ih =>
      cases z with
      | nil => simp at e
      | cons X z =>
        simp only [List.map_cons, List.cons.injEq] at e
        obtain ⟨rfl, e⟩ := e
        exact .skip (y.null.mp hX) (ih e et)
    | rule hr _ ih =>
      cases z with
      | nil => simp at e
      | cons X z =>
        simp only [List.map_cons, List.cons.injEq] at e
        obtain ⟨rfl, e⟩ := e
        obtain ⟨α, h1, rfl⟩ := y.mem.mp hr
        exact .rule h1 (ih rfl et)
  · intro h
    induction h with
    | tok ht => exact .tok ((y.tok _).mpr ht)
    | skip hX _ ih => exact .skip (y.null.mpr hX) ih
    | rule hr _ ih => exact .rule (y.mem.mpr ⟨_, hr, rfl⟩) ih

/-- the rules of `S`, followed by token 0 -/
def startInit (G : CFG) (S : Nat) : Init := ⟨fun r => ∃ α, G.rules[r]? = some (S, α), [0]⟩

theorem YaccForm.ctx (y : YaccForm σ G S acc G') {γ z : List Nat} {r d : Nat} (h : Ctx G (startInit G S) γ r d z) :
    Ctx G' byaccInit (γ.map σ) (r + 1) d (z.map σ) := by
  induction h with
  | init hr =>
    obtain ⟨α, hr⟩ := hr
    have h0 : Ctx G' byaccInit [] 0 0 [] := Ctx.init (I := byaccInit) rfl
    have h0r : G'.rules[0]? = some (acc, [σ S, σ 0]) := by rw [y.rules]; rfl
    have := Ctx.clos h0 h0r (B := σ S) (by simp) (y.rule hr)
    simpa [startInit] using this
  | @clos γ r d z A α B r' η _ hr hB hr' ih =>
    have := Ctx.clos ih (y.rule hr) (B := σ B) (by simp [hB]) (y.rule hr')
    rw [List.map_append, List.map_drop]
    exact this
  | @shift γ r d z A α X _ hr hX ih =>
    have := Ctx.shift ih (y.rule hr) (X := σ X) (by simp [hX])
    rw [List.map_append]
    exact this

theorem YaccForm.ctx_inv (y : YaccForm σ G S acc G') (hno : G.NoTokLhs) (htok : 0 < G.ntok) {δ z' : List Nat} {r' d : Nat}
    (h : Ctx G' byaccInit δ r' d z') :
    (r' = 0 ∧ z' = [] ∧ ((d = 0 ∧ δ = []) ∨ (d = 1 ∧ δ = [σ S]) ∨ (d = 2 ∧ δ = [σ S, σ 0]))) ∨
    ∃ r γ z, r' = r + 1 ∧ δ = γ.map σ ∧ z' = z.map σ ∧ Ctx G (startInit G S) γ r d z := by
  induction h with
  | init hr =>
    left
    have hr : _ = 0 := hr
    exact ⟨hr, rfl, Or.inl ⟨rfl, rfl⟩⟩
  | @clos γ r d z A α B r' η _ hr hB hr' ih =>
    right
    rcases ih with ⟨rfl, rfl, ih⟩ | ⟨r0, γ0, z0, rfl, rfl, rfl, h0⟩
    · rcases y.rule_inv hr with ⟨_, _, rfl⟩ | ⟨r0, _, _, h1, _⟩
      · rcases y.rule_inv hr' with ⟨_, rfl, _⟩ | ⟨r1, A1, α1, rfl, h1, rfl, rfl⟩
        · exfalso
          have := List.mem_of_getElem? hB
          simp only [List.mem_cons, List.not_mem_nil, or_false] at this
          rcases this with e | e
          · exact y.acc _ e.symm
          · exact y.acc _ e.symm
        · rcases ih with ⟨rfl, rfl⟩ | ⟨rfl, rfl⟩ | ⟨rfl, rfl⟩
          · simp only [List.getElem?_cons_zero, Option.some.injEq] at hB
            have := y.inj _ _ hB
            subst this
            exact ⟨r1, [], [0], rfl, rfl, rfl, Ctx.init (I := startInit G S) ⟨α1, h1⟩⟩
          · exfalso
            simp at hB
            have := y.inj _ _ hB
            subst this
            have := hno 0 α1 (List.mem_of_getElem? h1)
            omega
          · simp at hB
      · omega
    · rcases y.rule_inv hr with ⟨e, _⟩ | ⟨r1, A1, α1, e, h1, rfl, rfl⟩
      · omega
      · simp only [Nat.add_right_cancel_iff] at e
        subst e
        rw [List.getElem?_map, Option.map_eq_some_iff] at hB
        obtain ⟨B0, hB0, rfl⟩ := hB
        rcases y.rule_inv hr' with ⟨_, e, _⟩ | ⟨r2, A2, α2, rfl, h2, e, rfl⟩
        · exact absurd e (y.acc _)
        · have := y.inj _ _ e
          subst this
          refine ⟨r2, γ0, α1.drop (d + 1) ++ z0, rfl, rfl, ?_, Ctx.clos h0 h1 hB0 h2⟩
          rw [List.map_append, List.map_drop]
  | @shift γ r d z A α X _ hr hX ih =>
    rcases ih with ⟨rfl, rfl, ih⟩ | ⟨r0, γ0, z0, rfl, rfl, rfl, h0⟩
    · left
      rcases y.rule_inv hr with ⟨_, _, rfl⟩ | ⟨r0, _, _, h1, _⟩
      · refine ⟨rfl, rfl, ?_⟩
        rcases ih with ⟨rfl, rfl⟩ | ⟨rfl, rfl⟩ | ⟨rfl, rfl⟩
        · simp at hX; right; left; simp [hX]
        · simp at hX; right; right; simp [hX]
        · simp at hX
      · omega
    · right
      rcases y.rule_inv hr with ⟨e, _⟩ | ⟨r1, A1, α1, e, h1, rfl, rfl⟩
      · omega
      · simp only [Nat.add_right_cancel_iff] at e
        subst e
        rw [List.getElem?_map, Option.map_eq_some_iff] at hX
        obtain ⟨X0, hX0, rfl⟩ := hX
        exact ⟨r0, γ0 ++ [X0], z0, rfl, by simp, rfl, Ctx.shift h0 h1 hX0⟩

theorem YaccForm.ctx_iff (y : YaccForm σ G S acc G') (hno : G.NoTokLhs) (htok : 0 < G.ntok) {γ : List Nat} {r d : Nat} :
    ValidItem G' byaccInit (γ.map σ) (r + 1) d ↔ ValidItem G (startInit G S) γ r d := by
  constructor
  · rintro ⟨z, hz⟩
    rcases y.ctx_inv hno htok hz with ⟨h, _⟩ | ⟨r0, γ0, z0, h1, h2, _, h3⟩
    · omega
    · have := map_inj y.inj h2
      subst this
      simp only [Nat.add_right_cancel_iff] at h1
      subst h1
      exact ⟨z0, h3⟩
  · rintro ⟨z, hz⟩
    exact ⟨_, y.ctx hz⟩

/-- the start symbol is never passed -/
theorem no_start_shift (hS : ∀ A α, (A, α) ∈ G.rules → S ∉ α) {γ z : List Nat} {r d : Nat}
    (h : Ctx G (startInit G S) γ r d z) : S ∉ γ := by
  induction h with
  | init _ => simp
  | clos _ _ _ _ ih => exact ih
  | shift _ hr hX ih =>
    simp only [List.mem_append, List.mem_singleton, not_or]
    refine ⟨ih, ?_⟩
    rintro rfl
    exact hS _ _ (List.mem_of_getElem? hr) (List.mem_of_getElem? hX)

theorem start_item (hS : ∀ A α, (A, α) ∈ G.rules → S ∉ α) {γ z : List Nat} {r d : Nat} {α : List Nat}
    (h : Ctx G (startInit G S) γ r d z) (hr : G.rules[r]? = some (S, α)) (hd : d = 0) : γ = [] := by
  cases h with
  | init _ => rfl
  | clos h' hr' hB hr'' =>
    rw [hr] at hr''
    simp only [Option.some.injEq, Prod.mk.injEq] at hr''
    obtain ⟨rfl, _⟩ := hr''
    exact absurd (List.mem_of_getElem? hB) (hS _ _ (List.mem_of_getElem? hr'))
  | shift _ _ _ => omega

theorem exists_start {γ z : List Nat} {r d : Nat} (h : Ctx G (startInit G S) γ r d z) : ∃ (r : Nat) (α : List Nat), G.rules[r]? = some (S, α) := by
  induction h with
  | @init r hr => exact ⟨r, hr⟩
  | clos _ _ _ _ ih => exact ih
  | shift _ _ _ ih => exact ih

theorem YaccForm.lalr (y : YaccForm σ G S acc G') (hno : G.NoTokLhs) (htok : 0 < G.ntok)
    (hS : ∀ A α, (A, α) ∈ G.rules → S ∉ α) {γ : List Nat} {r d t : Nat} :
    LalrLA G' byaccInit (γ.map σ) (r + 1) d (σ t) ↔ LalrLA G (startInit G S) γ r d t := by
  constructor
  · rintro ⟨δ, hs, z, hz, hf⟩
    rcases y.ctx_inv hno htok hz with ⟨h, _⟩ | ⟨r0, γ0, z0, h1, rfl, rfl, h3⟩
    · omega
    · simp only [Nat.add_right_cancel_iff] at h1
      subst h1
      refine ⟨γ0, ?_, z0, h3, first_iff.mpr (y.fst.mp (first_iff.mp hf))⟩
      intro r' d'
      rw [← y.ctx_iff hno htok, ← y.ctx_iff hno htok]
      exact hs (r' + 1) d'
  · rintro ⟨γ', hs, z, hz, hf⟩
    refine ⟨γ'.map σ, ?_, z.map σ, y.ctx hz, first_iff.mpr (y.fst.mpr (first_iff.mp hf))⟩
    obtain ⟨rs, αs, hrs⟩ := exists_start hz
    obtain ⟨z1, hz1⟩ := (hs r d).mpr ⟨z, hz⟩
    have hnil : γ = [] ↔ γ' = [] := by
      constructor
      · rintro rfl
        obtain ⟨z2, hz2⟩ := (hs rs 0).mp ⟨_, Ctx.init (I := startInit G S) ⟨αs, hrs⟩⟩
        exact start_item hS hz2 hrs rfl
      · rintro rfl
        obtain ⟨z2, hz2⟩ := (hs rs 0).mpr ⟨_, Ctx.init (I := startInit G S) ⟨αs, hrs⟩⟩
        exact start_item hS hz2 hrs rfl
    have n1 := no_start_shift hS hz1
    have n2 := no_start_shift hS hz
    intro r' d'
    cases r' with
    | succ r' =>
      rw [y.ctx_iff hno htok, y.ctx_iff hno htok]; exact hs r' d'
    | zero =>
      have key : ∀ γ0 : List Nat, S ∉ γ0 → (ValidItem G' byaccInit (γ0.map σ) 0 d' ↔ d' = 0 ∧ γ0 = []) := by
        intro γ0 hg
        constructor
        · rintro ⟨z0, h0⟩
          rcases y.ctx_inv hno htok h0 with ⟨_, _, h⟩ | ⟨_, _, _, h, _⟩
          · rcases h with ⟨h, h'⟩ | ⟨_, h'⟩ | ⟨_, h'⟩
            · exact ⟨h, by simpa using h'⟩
            · have : γ0 = [S] := map_inj y.inj h'
              subst this; simp at hg
            · have : γ0 = [S, 0] := map_inj y.inj h'
              subst this; simp at hg
          · omega
        · rintro ⟨rfl, rfl⟩
          exact ⟨_, Ctx.init (I := byaccInit) rfl⟩
      rw [key γ n1, key γ' n2, hnil]

end Verif.Lemon
