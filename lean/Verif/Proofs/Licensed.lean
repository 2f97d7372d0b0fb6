import Verif.Proofs.Parse
/-
The moves of a shift-reduce parser that are licensed by the grammar, and the fact that every
parse tree is built by such moves.  Independent of byacc/lemon.
-/
set_option autoImplicit false
namespace Verif.Spec
open Relation

variable {G : CFG} {I : Init} {V : Type} {f : Nat → List V → V}

/-- `Lic G I rs (γ, v) (γ', v')`: moves from stack `γ` and remaining tokens `v` to `γ'` and `v'`,
reducing by the rules `rs`; a reduction needs an LR(1) lookahead. -/
inductive Lic (G : CFG) (I : Init) : List Nat → List Nat × List Nat → List Nat × List Nat → Prop
  | refl (c : List Nat × List Nat) : Lic G I [] c c
  | shift {rs γ v z α : List Nat} {r d A t : Nat} {c : List Nat × List Nat} (hz : Ctx G I γ r d z)
      (hr : G.rules[r]? = some (A, α)) (ht : α[d]? = some t) (hlt : t < G.ntok)
      (h : Lic G I rs (γ ++ [t], v) c) : Lic G I rs (γ, t :: v) c
  | reduce {rs δ v z α : List Nat} {r A t : Nat} {c : List Nat × List Nat} (hz : Ctx G I (δ ++ α) r α.length z)
      (hr : G.rules[r]? = some (A, α)) (hf : Fst G z t)
      (h : Lic G I rs (δ ++ [A], t :: v) c) : Lic G I (r :: rs) (δ ++ α, t :: v) c

theorem Lic.trans {rs rs' : List Nat} {a b c : List Nat × List Nat} (h : Lic G I rs a b) (h' : Lic G I rs' b c) :
    Lic G I (rs ++ rs') a c := by
  induction h with
  | refl => exact h'
  | shift hz hr ht hlt _ ih => exact .shift hz hr ht hlt (ih h')
  | reduce hz hr hf _ ih => exact .reduce hz hr hf (ih h')

theorem Lic.nil_end {rs γ : List Nat} {c : List Nat × List Nat} (h : Lic G I rs (γ, []) c) : c = (γ, []) := by
  generalize e : (γ, ([] : List Nat)) = a at h
  cases h with
  | refl => rfl
  | shift => simp at e
  | reduce => simp at e

theorem Ctx.advance {γ z : List Nat} {r d A : Nat} {α : List Nat} (h : Ctx G I γ r d z) (hr : G.rules[r]? = some (A, α)) :
    ∀ β β', α.drop d = β ++ β' → Ctx G I (γ ++ β) r (d + β.length) z := by
  intro β
  induction β generalizing γ d with
  | nil => intro β' _; simpa using h
  | cons X β ih =>
    intro β' e
    have hX : α[d]? = some X := by
      rw [← List.head?_drop, e]; rfl
    have := ih (.shift h hr hX) β' (by rw [← List.drop_drop, e]; simp)
    simpa [Nat.add_assoc, Nat.add_comm, Nat.add_left_comm] using this

theorem Builds.yields {rs β : List Nat} {w : List (Nat × V)} {vs : List V} (h : Builds G f rs β w vs) :
    Yields G β (w.map Prod.fst) := by
  induction h with
  | nil => exact .nil
  | tok v ht h ih => rw [List.map_append]; exact ih.append (.tok ht .nil)
  | rule hr h h' ih ih' =>
    rw [List.map_append]
    have := Yields.var (List.mem_of_getElem? hr) ih' .nil
    rw [List.append_nil] at this
    exact ih.append this

/-- The parse tree is built by licensed moves. -/
theorem Builds.licensed {rs β : List Nat} {w : List (Nat × V)} {vs : List V} (h : Builds G f rs β w vs) :
    ∀ {γ z α β' v : List Nat} {r d A t : Nat}, Ctx G I γ r d z → G.rules[r]? = some (A, α) → α.drop d = β ++ β' →
      Fst G (β' ++ z) t → Lic G I rs (γ, w.map Prod.fst ++ t :: v) (γ ++ β, t :: v) := by
  induction h with
  | nil => intro γ z α β' v r d A t _ _ _ _; simpa using Lic.refl _
  | @tok rs β w vs t0 v0 ht h ih =>
    intro γ z α β' v r d A t hz hr he hf
    have h1 := ih (β' := t0 :: β') (v := t :: v) (t := t0) hz hr (by simpa using he) (.tok ht)
    have h2 := Ctx.advance hz hr β (t0 :: β') (by simpa using he)
    have hX : α[d + β.length]? = some t0 := by
      rw [← List.head?_drop, ← List.drop_drop, he]; simp
    have h3 : Lic G I [] (γ ++ β, t0 :: t :: v) (γ ++ β ++ [t0], t :: v) := .shift h2 hr hX ht (.refl _)
    have := h1.trans h3
    simpa using this
  | @rule rs rs' β w w' vs us r' B η hr' h h' ih ih' =>
    intro γ z α β' v r d A t hz hr he hf
    have hB : α[d + β.length]? = some B := by
      rw [← List.head?_drop, ← List.drop_drop, he]; simp
    have h2 := Ctx.advance hz hr β (B :: β') (by simpa using he)
    have hdrop : α.drop (d + β.length + 1) = β' := by
      rw [← List.drop_drop, ← List.drop_drop, he]; simp
    have hc := Ctx.clos h2 hr hB hr'
    rw [hdrop] at hc
    -- the first subtrees
    have hhead : ∃ t0 v0, w'.map Prod.fst ++ t :: v = t0 :: v0 ∧ Fst G ((B :: β') ++ z) t0 := by
      have hy := h'.yields
      cases hw : w'.map Prod.fst with
      | nil =>
        rw [hw] at hy
        exact ⟨t, v, rfl, .skip (.mk (List.mem_of_getElem? hr') hy.null) hf⟩
      | cons t0 v0 =>
        rw [hw] at hy
        exact ⟨t0, v0 ++ t :: v, rfl, .rule (List.mem_of_getElem? hr') hy.fst⟩
    obtain ⟨t0, v0, e0, hf0⟩ := hhead
    have h1 := ih (β' := B :: β') (v := v0) (t := t0) hz hr (by simpa using he) hf0
    rw [← e0] at h1
    have h3 := ih' (β' := []) (v := v) (t := t) hc hr' (by simp) (by simpa using hf)
    have h4 := Ctx.advance hc hr' η [] (by simp)
    rw [Nat.zero_add] at h4
    have h5 : Lic G I [r'] (γ ++ β ++ η, t :: v) (γ ++ β ++ [B], t :: v) := .reduce h4 hr' hf (.refl _)
    have := (h1.trans h3).trans h5
    simpa using this

theorem Builds.append {rs β rs' β' : List Nat} {w w' : List (Nat × V)} {vs vs' : List V} (h : Builds G f rs β w vs)
    (h' : Builds G f rs' β' w' vs') : Builds G f (rs ++ rs') (β ++ β') (w ++ w') (vs ++ vs') := by
  induction h' with
  | nil => simpa using h
  | tok v ht _ ih => simpa using Builds.tok v ht ih
  | rule hr _ h2 ih _ => simpa using Builds.rule hr ih h2

/-- Every derivable token string has parse trees, whatever the values of the tokens. -/
theorem Yields.builds {β w : List Nat} (h : Yields G β w) (f : Nat → List V → V) :
    ∀ ws : List (Nat × V), ws.map Prod.fst = w → ∃ rs vs, Builds G f rs β ws vs := by
  induction h with
  | nil =>
    intro ws e
    simp only [List.map_eq_nil_iff] at e
    subst e
    exact ⟨[], [], .nil⟩
  | @tok t β w ht h ih =>
    intro ws e
    cases ws with
    | nil => simp at e
    | cons p ws =>
      obtain ⟨t', v⟩ := p
      simp only [List.map_cons, List.cons.injEq] at e
      obtain ⟨rfl, e⟩ := e
      obtain ⟨rs, vs, hb⟩ := ih ws e
      have h1 := Builds.tok (f := f) v ht .nil
      exact ⟨_, _, h1.append hb⟩
  | @var A α β w1 w2 hr h1 h2 ih1 ih2 =>
    intro ws e
    obtain ⟨ws1, ws2, rfl, e1, e2⟩ := List.map_eq_append_iff.1 e
    obtain ⟨rs1, vs1, hb1⟩ := ih1 ws1 e1
    obtain ⟨rs2, vs2, hb2⟩ := ih2 ws2 e2
    obtain ⟨r, hr⟩ := List.getElem?_of_mem hr
    have h1 := Builds.rule (f := f) hr .nil hb1
    exact ⟨_, _, h1.append hb2⟩

end Verif.Spec
