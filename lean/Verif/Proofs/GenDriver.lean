import Verif.Proofs.Complete
/-
The tables of a generated parser satisfy the hypotheses of the driver theorems.
-/
set_option autoImplicit false
namespace Verif.Byacc
open Spec Relation

variable {g : Gram} {G : CFG} {sp : SymPrec} {lemon : Bool} {e1 e2 : Int} {o : Generated} {sv : List Int} {t : Tables}

theorem tabSound (K : GenOK g G sp lemon e1 e2 o) (hsv : SymVals g.ntokens g.nsyms sv) (h2 : 2 ≤ g.ntokens)
    (T : TablesOK g G sv o t) :
    TabSound G g.nsyms o.aut.nstates (AItem g G o.aut) (ShiftsTo o.aut) (fun X => sv.getD X 0) t := by
  have hnt := K.ctx.packs.ntok
  have hfin : ShiftsTo o.aut 0 (G.ntok + 1) t.final := by
    rw [T.final, K.parser, ← hnt]
    exact findFinalState_spec K.ctx
  have hred : ∀ q, q < o.aut.nstates → ∀ a ∈ o.parser.rows.getD q [], a.suppressed = 0 → a.code = .REDUCE →
      ∃ r, 0 < r ∧ a.number = r + 2 ∧ ∃ A α, G.rules[r]? = some (A, α) ∧ AItem g G o.aut q r α.length := by
    intro q hq a ha h0 hc
    rcases (K.mem q hq _).1 (K.mem_row hq ha) with ⟨X, t, hX, hs, e⟩ | ⟨r, t, ⟨d, hi, hcm⟩, hla, ht, e⟩
    · have : a.code = .SHIFT := congrArg Action.code e
      rw [hc] at this
      cases this
    · have e2 : a.number = r + 2 := congrArg Action.number e
      have hr0 : r ≠ 0 := by
        rintro rfl
        exact no_accept_reduce K.ctx hi hcm
      obtain ⟨A, α, hr, rfl⟩ := hcm
      exact ⟨r, Nat.pos_of_ne_zero hr0, e2, A, α, hr, hi⟩
  refine ⟨K.ctx.A, K.ctx.wf, ?_, ?_, ?_, ?_, ?_, ?_, ?_, hfin, ?_, hsv.eof, ?_, ?_⟩
  · intro s X h
    have := (K.ctx.aut.target _ _ _ h).2.2.1
    omega
  · intro q hq x y hx h
    obtain ⟨a, ha, ⟨h0, hc⟩, e1, e2⟩ := (T.shift q hq x y hx).1 h
    rcases (K.mem q hq _).1 (K.mem_row hq ha) with ⟨X, t, hX, hs, e⟩ | ⟨r, t, -, -, -, e⟩
    · have e3 : a.symbol = X := congrArg Action.symbol e
      have e4 : a.number = t := congrArg Action.number e
      refine ⟨X, hX, ((K.ctx.A.ex q X hq).1 ⟨t, hs⟩).1, by rw [e1, e3], by rw [e2, e4]; exact hs⟩
    · have : a.code = .REDUCE := congrArg Action.code e
      rw [hc] at this
      cases this
  · intro q hq x r hx h
    obtain ⟨a, ha, ⟨h0, hc, -⟩, e1, e2⟩ := (T.reduce q hq x r hx).1 h
    obtain ⟨r', h1, h2, h3⟩ := hred q hq a ha h0 hc
    have : r' = r := by omega
    subst this
    exact ⟨h1, h3⟩
  · intro q hq hne
    rcases T.defred q hq with ⟨h1, h2⟩ | ⟨r, h0, h1, h2⟩
    · rw [List.getD_eq_getElem?_getD, h2] at hne
      exact absurd rfl hne
    · have hd : t.defred.getD q 0 = r := by rw [List.getD_eq_getElem?_getD, h2]; rfl
      rw [hd]
      obtain ⟨k1, a, ha, hl, -⟩ := (K.defred hq (show 0 < r + 2 by omega)).1 h1
      obtain ⟨c1, c2⟩ := k1 a ha hl
      obtain ⟨r', h1, h2, h3⟩ := hred q hq a ha hl c1
      have : r' = r := by omega
      subst this
      exact h3
  · intro s A q hA hs
    rw [← hnt] at hA ⊢
    exact T.goto s A q hA hs
  · intro r A α hr
    rw [List.getD_eq_getElem?_getD, T.lhs r A α hr, ← hnt]; rfl
  · intro r A α hr
    rw [List.getD_eq_getElem?_getD, T.len r A α hr]; rfl
  · rw [T.errcode]
    exact hsv.nonneg 1 (by omega)
  · intro X hX
    exact hsv.nonneg X (by omega)
  · intro X Y hX hY
    exact hsv.inj X Y (by omega) (by omega)

theorem tabComplete (K : GenOK g G sp lemon e1 e2 o) (hsv : SymVals g.ntokens g.nsyms sv)
    (T : TablesOK g G sv o t) (hlive : ∀ row ∈ o.parser.rows, ∀ x ∈ row, x.suppressed = 0) :
    TabComplete G (ShiftsTo o.aut) (fun X => sv.getD X 0) t := by
  have hnt := K.ctx.packs.ntok
  have hlive' : ∀ q, q < o.aut.nstates → ∀ x ∈ o.parser.rows.getD q [], x.suppressed = 0 := by
    intro q hq x hx
    rw [List.getD_eq_getElem?_getD, K.rows q hq] at hx
    exact hlive _ (List.mem_of_getElem? (K.rows q hq)) x hx
  have hin : ∀ q, q < o.aut.nstates → ∀ x ∈ o.acts g sp q, ∃ a ∈ o.parser.rows.getD q [], a.suppressed = 0 ∧ a.supp 0 = x := by
    intro q hq x hx
    rw [← (K.row q hq).same] at hx
    obtain ⟨a, ha, rfl⟩ := List.mem_map.1 hx
    have ha' : a ∈ o.parser.rows.getD q [] := by
      rw [List.getD_eq_getElem?_getD, K.rows q hq]; exact ha
    exact ⟨a, ha', hlive' q hq a ha', rfl⟩
  refine ⟨?_, ?_⟩
  · intro q X y hX hs
    have hq := (K.ctx.A.lt _ _ _ hs).1
    obtain ⟨a, ha, h0, e⟩ := hin q hq _ ((K.mem q hq _).2 (.inl ⟨X, y, hX, hs, rfl⟩))
    have e3 : a.symbol = X := congrArg Action.symbol e
    have e4 : a.number = y := congrArg Action.number e
    have e5 : a.code = .SHIFT := congrArg Action.code e
    refine ⟨?_, ?_⟩
    · rcases T.defred q hq with ⟨-, h2⟩ | ⟨r, -, h1, -⟩
      · rw [List.getD_eq_getElem?_getD, h2]; rfl
      · have := ((K.defred hq (show 0 < r + 2 by omega)).1 h1).1 a ha h0
        rw [e5] at this
        cases this.1
    · exact (T.shift q hq _ _ (hsv.nonneg X (by omega))).2 ⟨a, ha, ⟨h0, e5⟩, by rw [e3], e4.symm⟩
  · intro q r A α γ z X hp hr hz hf
    have hq := K.ctx.A.path_lt K.ctx.A.pos hp
    have hi : AItem g G o.aut q r α.length := (K.ctx.A.item_valid hp r _).2 ⟨z, hz⟩
    have hX : X < G.ntok := Fst_tok_lt hf
    have hr0 : 0 < r := by
      rcases Nat.eq_zero_or_pos r with rfl | h
      · exact (no_accept_reduce K.ctx hi ⟨A, α, hr, rfl⟩).elim
      · exact h
    have hla := (laSet_iff K.ctx.A K.ctx.wf (q := q) (t := X) hr).2 ⟨γ, hp, z, hz, hf⟩
    obtain ⟨a, ha, h0, e⟩ := hin q hq _ ((K.mem q hq _).2 (.inr ⟨r, X, ⟨_, hi, A, α, hr, rfl⟩, hla, hX, rfl⟩))
    have e3 : a.symbol = X := congrArg Action.symbol e
    have e4 : a.number = r + 2 := congrArg Action.number e
    have e5 : a.code = .REDUCE := congrArg Action.code e
    refine ⟨hr0, ?_⟩
    rcases T.defred q hq with ⟨h1, h2⟩ | ⟨r', -, h1, h2⟩
    · right
      refine ⟨by rw [List.getD_eq_getElem?_getD, h2]; rfl, ?_, ?_⟩
      · cases hsh : t.shiftOn q (sv.getD X 0) with
        | none => rfl
        | some y =>
          obtain ⟨b, hb, ⟨b0, bc⟩, be, -⟩ := (T.shift q hq _ _ (hsv.nonneg X (by omega))).1 hsh
          have hbs := hsv.inj X b.symbol (by omega) ((K.rowOK q hq).sym b hb) be
          have := (K.rowOK q hq).uniq a ha b hb (by rw [e3, hbs]) h0 b0
          rw [← this, e5] at bc
          cases bc
      · exact (T.reduce q hq _ _ (hsv.nonneg X (by omega))).2 ⟨a, ha, ⟨h0, e5, by rw [h1, e4]; omega⟩, by rw [e3], e4.symm⟩
    · left
      have := ((K.defred hq (show 0 < r' + 2 by omega)).1 h1).1 a ha h0
      rw [List.getD_eq_getElem?_getD, h2]
      simp only [Option.getD_some]
      omega

end Verif.Byacc
