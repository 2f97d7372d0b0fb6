import Verif.Proofs.Complete
import Verif.Proofs.GenDriver
/-
Licensed moves are deterministic where the rows have one action per token; hence rightmost
derivations are unique.
-/
set_option autoImplicit false
namespace Verif.Spec
open Relation

variable {G : CFG} {V : Type} {f : Nat → List V → V}

/-- tokens by themselves -/
theorem Builds.toks_only {rs z : List Nat} {w : List (Nat × V)} {vs : List V} (h : Builds G f rs z w vs) {nsyms : Nat}
    (hwf : Byacc.WF G nsyms) (hz : ∀ t ∈ z, t < G.ntok) : rs = [] := by
  induction h with
  | nil => rfl
  | tok v ht h ih => exact ih (fun t ht => hz t (by simp [ht]))
  | @rule rs rs' β w w' vs us r A α hr h h' ih ih' =>
    have := hz A (by simp)
    have := (hwf.lhs hr).1
    omega

/-- a rightmost derivation is the reverse of the completion order of parse trees -/
theorem Rightmost.builds {nsyms : Nat} (hwf : Byacc.WF G nsyms) (v0 : V) {rs u w : List Nat} (h : G.Rightmost rs u w)
    (hw : ∀ t ∈ w, t < G.ntok) : ∃ vs, Builds G f rs.reverse u (w.map fun t => (t, v0)) vs := by
  induction h with
  | refl u =>
    have : ∀ u : List Nat, (∀ t ∈ u, t < G.ntok) → ∃ vs, Builds G f [] u (u.map fun t => (t, v0)) vs := by
      intro u
      induction u using List.reverseRecOn with
      | nil => intro _; exact ⟨[], .nil⟩
      | append_singleton u t ih =>
        intro hu
        obtain ⟨vs, hb⟩ := ih (fun t ht => hu t (by simp [ht]))
        exact ⟨vs ++ [v0], by simpa using Builds.tok v0 (hu t (by simp)) hb⟩
    exact this u hw
  | @step r rs A α δ z w hr hz h ih =>
    obtain ⟨vs, hb⟩ := ih hw
    rw [← List.append_assoc] at hb
    obtain ⟨rs1, rs2, w1, w2, vs1, vs2, e1, e2, -, h1, h2⟩ := hb.split (δ ++ α) z rfl
    have e3 := h2.toks_only hwf hz
    subst e3
    have h3 := h1.reduce hr
    have h4 := h3.append h2
    rw [← e2] at h4
    refine ⟨(vs1.take δ.length ++ [f r (vs1.drop δ.length)]) ++ vs2, ?_⟩
    rw [List.reverse_cons, e1]
    simpa using h4

/-- the goal of the moves -/
theorem Lic.unique {nsyms : Nat} (hwf : Byacc.WF G nsyms)
    (hSR : ∀ (γ : List Nat) (X r d : Nat) (z α : List Nat) (A : Nat) (r' : Nat) (z' α' : List Nat) (A' : Nat),
      (∀ Y ∈ γ, Y ≠ 0) → Ctx G byaccInit γ r d z → G.rules[r]? = some (A, α) → α[d]? = some X → X < G.ntok →
      Ctx G byaccInit γ r' α'.length z' → G.rules[r']? = some (A', α') → Fst G z' X → False)
    (hRR : ∀ (γ : List Nat) (X r : Nat) (z α : List Nat) (A : Nat) (r' : Nat) (z' α' : List Nat) (A' : Nat),
      (∀ Y ∈ γ, Y ≠ 0) → Ctx G byaccInit γ r α.length z → G.rules[r]? = some (A, α) → Fst G z X →
      Ctx G byaccInit γ r' α'.length z' → G.rules[r']? = some (A', α') → Fst G z' X → r = r')
    {rs rs' : List Nat} {a b : List Nat × List Nat} (h : Lic G byaccInit rs a b) (h' : Lic G byaccInit rs' a b)
    (hb : b = ([G.ntok + 1], [0])) (hγ : ∀ Y ∈ a.1, Y ≠ 0) (hv : ∃ w, a.2 = w ++ [0] ∧ 0 ∉ w) : rs = rs' := by
  have hctx : ∃ z, Ctx G byaccInit [G.ntok + 1] 0 1 z :=
    ⟨_, by simpa using Ctx.shift (.init rfl) hwf.acc (by rfl)⟩
  have hend : ∀ {rs v}, Lic G byaccInit rs ([G.ntok + 1] ++ [0], v) b → v = [] → False := by
    rintro rs v hl rfl
    have := hl.nil_end
    rw [hb] at this
    simp at this
  have hzero : ∀ {t : Nat} {v w : List Nat}, t :: v = w ++ [0] → 0 ∉ w → (t = 0 → v = []) ∧ (t ≠ 0 → ∃ w', v = w' ++ [0] ∧ 0 ∉ w') := by
    intro t v w e h0
    cases w with
    | nil =>
      simp only [List.nil_append, List.cons.injEq] at e
      exact ⟨fun _ => e.2, fun h => absurd e.1 h⟩
    | cons x w =>
      simp only [List.cons_append, List.cons.injEq] at e
      simp only [List.mem_cons, not_or] at h0
      exact ⟨fun h => absurd (e.1 ▸ h).symm h0.1, fun _ => ⟨w, e.2, h0.2⟩⟩
  induction h generalizing rs' with
  | refl c =>
    subst hb
    generalize hg : ([G.ntok + 1], [0]) = c0 at h'
    cases h' with
    | refl => rfl
    | shift hz hr ht hlt h =>
      simp only [Prod.mk.injEq, List.cons.injEq] at hg
      obtain ⟨rfl, rfl, rfl⟩ := hg
      exact (hend h rfl).elim
    | reduce hz hr hf h =>
      simp only [Prod.mk.injEq, List.cons.injEq] at hg
      obtain ⟨e, rfl, rfl⟩ := hg
      obtain ⟨z0, hz0⟩ := hctx
      rw [← e] at hz
      exact (hSR _ 0 0 1 _ _ _ _ _ _ _ (by simp) hz0 hwf.acc rfl hwf.ntok hz hr hf).elim
  | @shift rs γ v z α r d A t c hz hr ht hlt h ih =>
    obtain ⟨w, hw, hw0⟩ := hv
    obtain ⟨k1, k2⟩ := hzero hw hw0
    generalize hg : (γ, t :: v) = c0 at h'
    cases h' with
    | refl =>
      subst hg
      simp only [Prod.mk.injEq, List.cons.injEq] at hb
      obtain ⟨rfl, rfl, rfl⟩ := hb
      have := h.nil_end
      simp at this
    | shift hz' hr' ht' hlt' h' =>
      simp only [Prod.mk.injEq, List.cons.injEq] at hg
      obtain ⟨rfl, rfl, rfl⟩ := hg
      by_cases h0 : t = 0
      · have := k1 h0
        subst this
        have := h.nil_end
        rw [hb] at this
        simp at this
      · refine ih h' hb ?_ (k2 h0) hend
        intro Y hY
        simp only [List.mem_append, List.mem_singleton] at hY
        rcases hY with hY | rfl
        · exact hγ Y hY
        · exact h0
    | reduce hz' hr' hf' h' =>
      simp only [Prod.mk.injEq, List.cons.injEq] at hg
      obtain ⟨rfl, rfl, rfl⟩ := hg
      exact (hSR _ _ _ _ _ _ _ _ _ _ _ hγ hz hr ht hlt hz' hr' hf').elim
  | @reduce rs δ v z α r A t c hz hr hf h ih =>
    generalize hg : (δ ++ α, t :: v) = c0 at h'
    cases h' with
    | refl =>
      subst hg
      simp only [Prod.mk.injEq, List.cons.injEq] at hb
      obtain ⟨e, rfl, rfl⟩ := hb
      obtain ⟨z0, hz0⟩ := hctx
      rw [e] at hz
      exact (hSR _ 0 0 1 _ _ _ _ _ _ _ (by simp) hz0 hwf.acc rfl hwf.ntok hz hr hf).elim
    | shift hz' hr' ht' hlt' h' =>
      simp only [Prod.mk.injEq, List.cons.injEq] at hg
      obtain ⟨rfl, rfl, rfl⟩ := hg
      exact (hSR _ _ _ _ _ _ _ _ _ _ _ hγ hz' hr' ht' hlt' hz hr hf).elim
    | @reduce rs2 δ' v' z' α' r' A' t' c' hz' hr' hf' h' =>
      simp only [Prod.mk.injEq, List.cons.injEq] at hg
      obtain ⟨e, rfl, rfl⟩ := hg
      rw [← e] at hz'
      have := hRR _ _ _ _ _ _ _ _ _ _ hγ hz hr hf hz' hr' hf'
      subst this
      rw [hr] at hr'
      simp only [Option.some.injEq, Prod.mk.injEq] at hr'
      obtain ⟨rfl, rfl⟩ := hr'
      have := List.append_cancel_right e
      subst this
      rw [ih h' hb ?_ hv hend]
      intro Y hY
      simp only [List.mem_append, List.mem_singleton] at hY
      rcases hY with hY | rfl
      · exact hγ Y (by simp [hY])
      · have := (hwf.lhs hr).1
        have := hwf.ntok
        omega

end Verif.Spec

namespace Verif.Byacc
open Spec

variable {g : Gram} {G : CFG} {sp : SymPrec} {lemon : Bool} {e1 e2 : Int} {o : Generated}

theorem accept_start {nsyms : Nat} (hwf : WF G nsyms) {γ z : List Nat} {r d : Nat} (h : Ctx G byaccInit γ r d z)
    (hr0 : r = 0) (hd0 : d = 0) : γ = [] := by
  cases h with
  | init => rfl
  | shift => omega
  | @clos γ r d z A α B r' η h hr hB hr' =>
    subst hr0
    rw [hwf.acc] at hr'
    simp only [Option.some.injEq, Prod.mk.injEq] at hr'
    obtain ⟨rfl, -⟩ := hr'
    exfalso
    have hm := List.mem_of_getElem? hB
    rcases Nat.eq_zero_or_pos r with rfl | h
    · rw [hwf.acc] at hr
      simp only [Option.some.injEq, Prod.mk.injEq] at hr
      obtain ⟨rfl, rfl⟩ := hr
      have := hwf.ntok
      simp only [List.mem_cons, List.not_mem_nil, or_false] at hm
      omega
    · exact ((hwf.user r A α h hr).2.2 _ hm).2.2 rfl

/-- Where all actions are live and none reduces in the accepting state at the end of the input,
rightmost derivations are unique. -/
theorem unambiguous (K : GenOK g G sp lemon e1 e2 o) (hlive : ∀ row ∈ o.parser.rows, ∀ x ∈ row, x.suppressed = 0)
    (hfin : ∀ x ∈ o.parser.rows.getD o.parser.final [], x.symbol = 0 → x.code ≠ .REDUCE)
    {rs rs' w : List Nat} (h : G.Rightmost rs [G.ntok + 1] w) (h' : G.Rightmost rs' [G.ntok + 1] w)
    (hw : ∀ t ∈ w, t < G.ntok) (hw0 : 0 ∉ w) : rs = rs' := by
  have hnt := K.ctx.packs.ntok
  have hin : ∀ q, q < o.aut.nstates → ∀ x ∈ o.acts g sp q, ∃ a ∈ o.parser.rows.getD q [], a.suppressed = 0 ∧ a.supp 0 = x := by
    intro q hq x hx
    rw [← (K.row q hq).same] at hx
    obtain ⟨a, ha, rfl⟩ := List.mem_map.1 hx
    have ha' : a ∈ o.parser.rows.getD q [] := by
      rw [List.getD_eq_getElem?_getD, K.rows q hq]; exact ha
    refine ⟨a, ha', ?_, rfl⟩
    exact hlive _ (List.mem_of_getElem? (K.rows q hq)) a (by
      rw [List.getD_eq_getElem?_getD, K.rows q hq] at ha'; exact ha')
  have hred : ∀ (q r A : Nat) (α γ z : List Nat) (X : Nat), Path (ShiftsTo o.aut) 0 γ q → G.rules[r]? = some (A, α) →
      Ctx G byaccInit γ r α.length z → Fst G z X →
      ∃ a ∈ o.parser.rows.getD q [], a.suppressed = 0 ∧ a.symbol = X ∧ a.code = .REDUCE ∧ a.number = r + 2 := by
    intro q r A α γ z X hp hr hz hf
    have hq := K.ctx.A.path_lt K.ctx.A.pos hp
    have hi : AItem g G o.aut q r α.length := (K.ctx.A.item_valid hp r _).2 ⟨z, hz⟩
    have hX : X < G.ntok := Fst_tok_lt hf
    have hla := (laSet_iff K.ctx.A K.ctx.wf (q := q) (t := X) hr).2 ⟨γ, hp, z, hz, hf⟩
    obtain ⟨a, ha, h0, e⟩ := hin q hq _ ((K.mem q hq _).2 (.inr ⟨r, X, ⟨_, hi, A, α, hr, rfl⟩, hla, hX, rfl⟩))
    exact ⟨a, ha, h0, congrArg Action.symbol e, congrArg Action.code e, congrArg Action.number e⟩
  have hSR : ∀ (γ : List Nat) (X r d : Nat) (z α : List Nat) (A : Nat) (r' : Nat) (z' α' : List Nat) (A' : Nat),
      (∀ Y ∈ γ, Y ≠ 0) → Ctx G byaccInit γ r d z → G.rules[r]? = some (A, α) → α[d]? = some X → X < G.ntok →
      Ctx G byaccInit γ r' α'.length z' → G.rules[r']? = some (A', α') → Fst G z' X → False := by
    intro γ X r d z α A r' z' α' A' hγ hz hr hX hlt hz' hr' hf'
    obtain ⟨q, hp, hi⟩ := K.ctx.A.path_of_valid hz hγ
    have hq := K.ctx.A.path_lt K.ctx.A.pos hp
    obtain ⟨a, ha, a0, as, ac, -⟩ := hred q r' A' α' γ z' X hp hr' hz' hf'
    by_cases h0 : X = 0
    · subst h0
      -- `$end` follows the goal only
      have hr0 : r = 0 := by
        rcases Nat.eq_zero_or_pos r with h | h
        · exact h
        · exact absurd ((K.ctx.wf.user r A α h hr).2.2 0 (List.mem_of_getElem? hX)).1 (by omega)
      subst hr0
      rw [K.ctx.wf.acc] at hr
      simp only [Option.some.injEq, Prod.mk.injEq] at hr
      obtain ⟨rfl, rfl⟩ := hr
      have hd : d = 1 := by
        match d, hX with
        | 0, h => simp at h
        | 1, _ => rfl
        | d+2, h => simp at h
      subst hd
      obtain ⟨δ, hδ, hz0⟩ := Ctx.back hz K.ctx.wf.acc
      have hδ0 : δ = [] := accept_start K.ctx.wf hz0 rfl rfl
      subst hδ0
      simp only [List.take_succ_cons, List.take_zero, List.nil_append] at hδ
      subst hδ
      have hpf : Path (ShiftsTo o.aut) 0 [G.ntok + 1] o.parser.final := by
        have h1 := findFinalState_spec K.ctx
        rw [← K.ctx.packs.ntok, K.parser]
        exact Path.snoc (.nil 0) h1
      have := K.ctx.A.path_det hp hpf
      subst this
      exact hfin a ha as ac
    · obtain ⟨y, hy⟩ := (K.ctx.A.ex q X hq).2 ⟨h0, r, d, hi, A, α, hr, hX⟩
      obtain ⟨b, hb, b0, e⟩ := hin q hq _ ((K.mem q hq _).2 (.inl ⟨X, y, hlt, hy, rfl⟩))
      have bs : b.symbol = X := congrArg Action.symbol e
      have bc : b.code = .SHIFT := congrArg Action.code e
      have := (K.rowOK q hq).uniq a ha b hb (by rw [as, bs]) a0 b0
      rw [← this, ac] at bc
      cases bc
  have hRR : ∀ (γ : List Nat) (X r : Nat) (z α : List Nat) (A : Nat) (r' : Nat) (z' α' : List Nat) (A' : Nat),
      (∀ Y ∈ γ, Y ≠ 0) → Ctx G byaccInit γ r α.length z → G.rules[r]? = some (A, α) → Fst G z X →
      Ctx G byaccInit γ r' α'.length z' → G.rules[r']? = some (A', α') → Fst G z' X → r = r' := by
    intro γ X r z α A r' z' α' A' hγ hz hr hf hz' hr' hf'
    obtain ⟨q, hp, hi⟩ := K.ctx.A.path_of_valid hz hγ
    have hq := K.ctx.A.path_lt K.ctx.A.pos hp
    obtain ⟨a, ha, a0, as, ac, an⟩ := hred q r A α γ z X hp hr hz hf
    obtain ⟨b, hb, b0, bs, bc, bn⟩ := hred q r' A' α' γ z' X hp hr' hz' hf'
    have := (K.rowOK q hq).uniq a ha b hb (by rw [as, bs]) a0 b0
    subst this
    omega
  obtain ⟨vs, hb⟩ := Rightmost.builds (f := fun _ _ => ()) K.ctx.wf () h hw
  obtain ⟨vs', hb'⟩ := Rightmost.builds (f := fun _ _ => ()) K.ctx.wf () h' hw
  have hctx : Ctx G byaccInit [] 0 0 [] := .init rfl
  have l1 := hb.licensed (v := []) (β' := [0]) (t := 0) hctx K.ctx.wf.acc rfl (.tok K.ctx.wf.ntok)
  have l2 := hb'.licensed (v := []) (β' := [0]) (t := 0) hctx K.ctx.wf.acc rfl (.tok K.ctx.wf.ntok)
  have := Lic.unique K.ctx.wf hSR hRR l1 l2 rfl (by simp) ⟨w, by simp [Function.comp_def], hw0⟩
  simpa using this

end Verif.Byacc
