import Verif.Spec.ParseCtx
import Verif.Proofs.Sound
/-
Auxiliary facts: soundness of the parser when actions look at the whole stack.
-/
set_option autoImplicit false
namespace Verif.Byacc
open Spec

variable {V : Type} {P : Driver V} {G : CFG} {nsyms n : Nat} {Item Trans : _} {code : Nat → Int} {z0 : V} {f : Nat → V → List V → V}

theorem _root_.Verif.Spec.BuildsIn.length {ctx : List V} {rs β : List Nat} {w : List (Nat × V)} {vs : List V} (h : BuildsIn G z0 f ctx rs β w vs) :
    β.length = vs.length := by
  induction h with
  | nil => rfl
  | tok v ht h ih => simp [ih]
  | rule hr h h' ih ih' => simp [ih]

/-- without the values -/
theorem _root_.Verif.Spec.BuildsIn.builds {ctx : List V} {rs β : List Nat} {w : List (Nat × V)} {vs : List V} (h : BuildsIn G z0 f ctx rs β w vs) :
    Builds G (fun _ _ => ()) rs β (w.map fun p => (p.1, ())) (vs.map fun _ => ()) := by
  induction h with
  | nil => exact .nil
  | tok v ht h ih => simpa using Builds.tok () ht ih
  | rule hr h h' ih ih' => simpa using Builds.rule hr ih ih'

theorem _root_.Verif.Spec.BuildsIn.split {ctx : List V} {rs β : List Nat} {w : List (Nat × V)} {vs : List V} (h : BuildsIn G z0 f ctx rs β w vs) :
    ∀ δ α, β = δ ++ α → ∃ rs1 rs2 w1 w2 vs1 vs2, rs = rs1 ++ rs2 ∧ w = w1 ++ w2 ∧ vs = vs1 ++ vs2 ∧
      BuildsIn G z0 f ctx rs1 δ w1 vs1 ∧ BuildsIn G z0 f (vs1.reverse ++ ctx) rs2 α w2 vs2 := by
  induction h with
  | nil ctx =>
    intro δ α e
    simp only [List.nil_eq, List.append_eq_nil_iff] at e
    obtain ⟨rfl, rfl⟩ := e
    exact ⟨[], [], [], [], [], [], rfl, rfl, rfl, .nil _, .nil _⟩
  | @tok ctx rs β w vs t v ht h ih =>
    intro δ α e
    rcases List.eq_nil_or_concat α with rfl | ⟨α', X, rfl⟩
    · simp only [List.append_nil] at e
      subst e
      exact ⟨rs, [], w ++ [(t, v)], [], vs ++ [v], [], by simp, by simp, by simp, .tok v ht h, .nil _⟩
    · rw [List.concat_eq_append, ← List.append_assoc] at e
      obtain ⟨e1, e2⟩ := List.append_inj' e rfl
      simp only [List.cons.injEq, and_true] at e2
      subst e2
      obtain ⟨rs1, rs2, w1, w2, vs1, vs2, rfl, rfl, rfl, h1, h2⟩ := ih δ α' e1
      exact ⟨rs1, rs2, w1, w2 ++ [(t, v)], vs1, vs2 ++ [v], rfl, by simp, by simp, h1, by simpa using BuildsIn.tok v ht h2⟩
  | @rule ctx rs rs' β w w' vs us r A η hr h h' ih ih' =>
    intro δ α e
    rcases List.eq_nil_or_concat α with rfl | ⟨α', X, rfl⟩
    · simp only [List.append_nil] at e
      subst e
      exact ⟨rs ++ rs' ++ [r], [], w ++ w', [], _, [], by simp, by simp, by simp, .rule hr h h', .nil _⟩
    · rw [List.concat_eq_append, ← List.append_assoc] at e
      obtain ⟨e1, e2⟩ := List.append_inj' e rfl
      simp only [List.cons.injEq, and_true] at e2
      subst e2
      obtain ⟨rs1, rs2, w1, w2, vs1, vs2, rfl, rfl, rfl, h1, h2⟩ := ih δ α' e1
      rw [List.reverse_append, List.append_assoc] at h'
      refine ⟨rs1, rs2 ++ rs' ++ [r], w1, w2 ++ w', vs1, vs2 ++ [f r (us.headD z0) (us.reverse ++ (vs2.reverse ++ (vs1.reverse ++ ctx)))],
        by simp, by simp, by simp, h1, ?_⟩
      simpa using BuildsIn.rule hr h2 h'

theorem _root_.Verif.Spec.BuildsIn.reduce {ctx : List V} {rs δ α : List Nat} {w : List (Nat × V)} {vs : List V} {r A : Nat}
    (h : BuildsIn G z0 f ctx rs (δ ++ α) w vs) (hr : G.rules[r]? = some (A, α)) :
    BuildsIn G z0 f ctx (rs ++ [r]) (δ ++ [A]) w (vs.take δ.length ++ [f r ((vs.drop δ.length).headD z0) (vs.reverse ++ ctx)]) := by
  obtain ⟨rs1, rs2, w1, w2, vs1, vs2, rfl, rfl, rfl, h1, h2⟩ := h.split δ α rfl
  rw [h1.length]
  simpa using BuildsIn.rule hr h1 h2

structure GoodIn (G : CFG) (Trans : Nat → Nat → Nat → Prop) (code : Nat → Int) (z0 : V) (f : Nat → V → List V → V) (u : V)
    (input : List (Int × V)) (c : Cfg V) : Prop where
  errflag : c.errflag = 0
  recover : c.recover = false
  trees : ∃ γ rs w vs, Spell Trans γ.reverse (c.stack.map Prod.fst) ∧ c.stack.map Prod.snd = vs.reverse ++ [u] ∧
    BuildsIn G z0 f [u] rs γ w vs ∧ reductions c.log = rs.reverse ∧ shifts c.log = (w.map fun p => code p.1).reverse ∧
    tokensOf input = w.map (fun p => (code p.1, p.2)) ++ c.pending

theorem GoodIn.read {u : V} {input : List (Int × V)} {c : Cfg V} (H : GoodIn G Trans code z0 f u input c) :
    GoodIn G Trans code z0 f u input c.read := by
  obtain ⟨f1, f2, f3, f4, f5, f6⟩ := read_fields c
  obtain ⟨h1, h2, h3⟩ := H
  exact ⟨by rw [f2]; exact h1, by rw [f4]; exact h2, by rw [f1, f5, read_pending]; exact h3⟩

/-- What a result may be while no syntax error is reported. -/
def GoodInRes (G : CFG) (Trans : Nat → Nat → Nat → Prop) (code : Nat → Int) (z0 : V) (f : Nat → V → List V → V) (u : V)
    (input : List (Int × V)) : Res V → Prop
  | .next c => .report ∈ c.log ∨ GoodIn G Trans code z0 f u input c
  | .done .accept c => ∃ rs w q v, BuildsIn G z0 f [u] rs [G.ntok + 1] w [v] ∧ c.stack = [(q, v), (0, u)] ∧
      reductions c.log = rs.reverse ∧ shifts c.log = (w.map fun p => code p.1).reverse ∧
      tokensOf input = w.map (fun p => (code p.1, p.2))
  | .done _ _ => True

/-- actions that do nothing but compute a value, from the default value and the values on the stack -/
def ValueActs (P : Driver V) (f : Nat → V → List V → V) : Prop := ∀ r d st, P.act r d st = .val (f r d st)

theorem TabSound.reduce_goodIn (T : TabSound G nsyms n Item Trans code P.t) {bound : Nat} {c : Cfg V} (B : Base Trans bound c)
    (hact : ValueActs P f) (hz0 : z0 = P.zero)
    {u0 : V} {input : List (Int × V)} (H : GoodIn G Trans code z0 f u0 input c)
    {q : Nat} {u : V} {rest : List (Nat × V)} (hst : c.stack = (q, u) :: rest) {r A : Nat} {α : List Nat}
    (hr : G.rules[r]? = some (A, α)) (hi : Item q r α.length) (h0 : 0 < r) :
    GoodInRes G Trans code z0 f u0 input (P.reduce c r) := by
  obtain ⟨herr, hrec, γ, rs, w, vs, hsp, hvs, hb, hred, hshf, hin⟩ := H
  have hst' : c.stack.map Prod.fst = q :: rest.map Prod.fst := by rw [hst]; rfl
  obtain ⟨δ, s, below, q', hγ', hd, hδ, ht, hz, hA⟩ := T.shape (hst' ▸ hsp) hr hi h0
  rw [← hst'] at hd
  have hγ : γ = δ.reverse ++ α := by
    have := congrArg List.reverse hγ'
    simpa using this
  have hvl := hb.length
  have hsl : c.stack.length = vs.length + 1 := by
    have := congrArg List.length hvs
    simpa using this
  have hγl : γ.length = δ.length + α.length := by rw [hγ]; simp
  have hlen : ¬ c.stack.length ≤ α.length := by omega
  -- the values of the right-hand side
  have hus : ((c.stack.map Prod.snd).take α.length).reverse = vs.drop δ.length := by
    rw [hvs, List.take_append_of_le_length (by simp; omega), List.take_reverse, List.reverse_reverse]
    congr 1
    omega
  have hds : (c.stack.map Prod.snd).drop α.length = (vs.take δ.length).reverse ++ [u0] := by
    rw [hvs, List.drop_append_of_le_length (by simp; omega), List.drop_reverse]
    congr 3
    omega
  have hdef : (if α.length = 0 then P.zero else (c.stack.map Prod.snd).getD (α.length - 1) P.zero) =
      (vs.drop δ.length).headD P.zero := by
    by_cases hα : α.length = 0
    · rw [if_pos hα]
      have : vs.drop δ.length = [] := List.drop_eq_nil_of_le (by omega)
      rw [this]; rfl
    · rw [if_neg hα, List.getD_eq_getElem?_getD, List.headD_eq_head?_getD, List.head?_drop, hvs,
        List.getElem?_append_left (by simp; omega), List.getElem?_reverse (by omega)]
      congr 2
      omega
  have hbr := BuildsIn.reduce (hγ ▸ hb) hr
  rw [List.length_reverse] at hbr
  unfold Driver.reduce
  simp only [T.len r A α hr, Int.toNat_natCast]
  rw [if_neg hlen]
  have hv : P.act r (if α.length = 0 then P.zero else (c.stack.map Prod.snd).getD (α.length - 1) P.zero)
      (c.stack.map Prod.snd) = .val (f r ((vs.drop δ.length).headD z0) (vs.reverse ++ [u0])) := by
    rw [hact, hdef, hvs, hz0]
  rw [hv]
  simp only
  have hsp' : Spell Trans (δ.reverse ++ [A]).reverse (q' :: (c.stack.drop α.length).map Prod.fst) := by
    rw [List.map_drop, hd]; simpa using Spell.cons hδ ht
  have hvs' : f r ((vs.drop δ.length).headD z0) (vs.reverse ++ [u0]) :: (c.stack.drop α.length).map Prod.snd =
      (vs.take δ.length ++ [f r ((vs.drop δ.length).headD z0) (vs.reverse ++ [u0])]).reverse ++ [u0] := by
    rw [List.map_drop, hds]; simp
  have hreds : reductions (.reduce r :: c.log) = (rs ++ [r]).reverse := by
    simp only [reductions, List.filterMap_cons, List.reverse_append, List.reverse_cons, List.reverse_nil, List.nil_append,
      List.cons_append]
    congr 1
  have hshf' : shifts (.reduce r :: c.log) = (w.map fun p => code p.1).reverse := by
    rw [← hshf]; rfl
  have hgood : ∀ m, GoodIn G Trans code z0 f u0 input
      { c with log := .reduce r :: c.log, stack := (q', f r ((vs.drop δ.length).headD z0) (vs.reverse ++ [u0])) :: c.stack.drop α.length, size := m } := by
    intro m
    exact ⟨herr, hrec, δ.reverse ++ [A], rs ++ [r], w, _, hsp', hvs', hbr, hreds, hshf', hin⟩
  rcases T.finish (c := { c with log := .reduce r :: c.log }) (f r ((vs.drop δ.length).headD z0) (vs.reverse ++ [u0])) hr hd ht (fun e => (hz e).1) hA B.fits
      B.two with ⟨m, e, -⟩ | ⟨e, -⟩ | ⟨e, e0, eA, e1, e2⟩ | ⟨e, -⟩
  · rw [e]; exact .inr (hgood m)
  · rw [e]; exact .inr (hgood c.size).read
  · rw [e]
    have hR := (hgood c.size).read
    obtain ⟨f1, f2, f3, f4, f5, f6⟩ := read_fields ({ c with log := .reduce r :: c.log, stack := (q', f r ((vs.drop δ.length).headD z0) (vs.reverse ++ [u0])) :: c.stack.drop α.length } : Cfg V)
    obtain ⟨-, rfl⟩ := hz e0
    have hpend := read_pending ({ c with log := .reduce r :: c.log, stack := (q', f r ((vs.drop 0).headD z0) (vs.reverse ++ [u0])) :: c.stack.drop α.length } : Cfg V)
    simp only [List.length_nil, List.drop_zero, List.take_zero, List.nil_append, List.reverse_nil] at *
    refine ⟨rs ++ [r], w, q', f r (vs.headD z0) (vs.reverse ++ [u0]), eA ▸ hbr, ?_, ?_, ?_, ?_⟩
    · rw [f1]
      have h1 : (c.stack.drop α.length).map Prod.fst = [0] := by
        rw [List.map_drop, hd, e0, (hz e0).1]
      have h2 : (c.stack.drop α.length).map Prod.snd = [u0] := by
        rw [List.map_drop, hds]
      cases hdd : c.stack.drop α.length with
      | nil => rw [hdd] at h1; cases h1
      | cons p tl =>
        obtain ⟨p1, p2⟩ := p
        rw [hdd] at h1 h2
        simp only [List.map_cons, List.cons.injEq, List.map_eq_nil_iff] at h1 h2
        obtain ⟨rfl, rfl⟩ := h1
        obtain ⟨rfl, -⟩ := h2
        rfl
    · rw [f5]; exact hreds
    · rw [f5]; exact hshf'
    · have : Cfg.pending ({ c with log := .reduce r :: c.log, stack := (q', f r (vs.headD z0) (vs.reverse ++ [u0])) :: c.stack.drop α.length } : Cfg V).read = [] := by
        unfold Cfg.pending
        rw [e2]
        simp
      rw [this] at hpend
      rw [hin]
      have hp2 : c.pending = [] := by rw [show c.pending = _ from rfl]; exact hpend.symm
      rw [hp2]; simp
  · rw [e]; trivial

theorem TabSound.step_goodIn (T : TabSound G nsyms n Item Trans code P.t) {bound : Nat} {c : Cfg V} (B : Base Trans bound c)
    (hact : ValueActs P f) (hz0 : z0 = P.zero)
    {u0 : V} {input : List (Int × V)} (H : GoodIn G Trans code z0 f u0 input c) :
    GoodInRes G Trans code z0 f u0 input (P.step c) := by
  unfold Driver.step
  split
  · trivial
  rename_i q u rest hst
  have hq := B.top T.A hst
  rw [if_neg (by rw [H.recover]; simp)]
  split
  · rename_i hne
    obtain ⟨A, α, hr, hi⟩ := T.defred q hq hne
    exact T.reduce_goodIn B hact hz0 H hst hr hi (Nat.pos_of_ne_zero hne)
  · obtain ⟨f1, f2, f3, f4, f5, f6⟩ := read_fields c
    have BR := B.read
    have HR := H.read
    obtain ⟨x, hx, hx0⟩ := read_chr_nonneg c B.chr
    have hst' : c.read.stack = (q, u) :: rest := by rw [f1, hst]
    simp only [hx, Option.getD_some]
    split
    · rename_i q' hsh
      obtain ⟨X, hX, hXne, hcode, ht⟩ := T.shift q hq _ _ hx0 hsh
      have hxne : x ≠ 0 := by
        intro e
        refine hXne (T.inj X 0 hX T.wf.ntok ?_)
        rw [← hcode, e, T.code0]
      obtain ⟨herr, hrec, γ, rs, w, vs, hsp, hvs, hb, hred, hshf, hin⟩ := HR
      rcases push_cases (P := P) ({ c.read with chr := none, errflag := c.read.errflag - 1, log := .shift x :: c.read.log } : Cfg V)
          q' c.read.lval BR.fits BR.two with ⟨m, e1, e2, e3, e4⟩ | ⟨e1, -⟩
      · rw [e1]
        right
        refine ⟨by simp only; omega, hrec, γ ++ [X], rs, w ++ [(X, c.read.lval)], vs ++ [c.read.lval], ?_, ?_, .tok _ hX hb, ?_, ?_, ?_⟩
        · rw [hst'] at hsp ⊢
          simp only [List.reverse_append, List.reverse_cons, List.reverse_nil, List.nil_append, List.cons_append, List.map_cons]
          exact .cons hsp ht
        · simp [hvs]
        · rw [← hred]; rfl
        · simp only [List.map_append, List.map_cons, List.map_nil, List.reverse_append, List.reverse_cons, List.reverse_nil,
            List.nil_append, List.cons_append]
          rw [← hshf, ← hcode]; rfl
        · rw [hin]
          simp only [List.map_append, List.map_cons, List.map_nil, List.append_assoc, List.cons_append, List.nil_append]
          congr 1
          unfold Cfg.pending
          rw [hx]
          simp [hxne, ← hcode]
      · rw [e1]; trivial
    · split
      · rename_i r hre
        obtain ⟨h0, A, α, hr, hi⟩ := T.reduce q hq _ _ hx0 hre
        exact T.reduce_goodIn BR hact hz0 HR hst' hr hi h0
      · rw [if_pos HR.errflag]
        unfold Cfg.inrecovery
        simp only [HR.errflag]
        rw [if_pos (by omega)]
        left
        simp

end Verif.Byacc
