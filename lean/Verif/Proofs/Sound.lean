import Verif.Proofs.Driver
import Verif.Spec.Log
/-
Parses without a syntax error build parse trees.
-/
set_option autoImplicit false
namespace Verif.Byacc
open Spec Relation

variable {V : Type}

/-! ### the log only grows -/

variable {P : Driver V}

theorem write_log (c : Cfg V) (q : Nat) (v : V) : (c.write q v).cfg.log = c.log := by
  unfold Cfg.write
  split <;> rfl

theorem push_log (c : Cfg V) (q : Nat) (v : V) : (P.push c q v).cfg.log = c.log := by
  unfold Driver.push
  split
  · split
    · rfl
    · rw [write_log]
  · rw [write_log]

theorem read_log (c : Cfg V) : c.read.log = c.log := (read_fields c).2.2.2.2.1

theorem inrecovery_log (c : Cfg V) : c.log <:+ c.inrecovery.cfg.log := by
  unfold Cfg.inrecovery
  split
  · exact List.suffix_refl _
  · split
    · exact List.suffix_refl _
    · split
      · exact List.suffix_refl _
      · exact List.suffix_cons _ _

theorem finish_log (c : Cfg V) (m : Nat) (yym : Int) (v : V) : (P.finish c m yym v).cfg.log = c.log := by
  unfold Driver.finish
  split
  · rfl
  · rename_i s u below _
    simp only
    split
    · have h := write_log ({ c with stack := (s, u) :: below } : Cfg V) P.t.final v
      cases hw : Cfg.write ({ c with stack := (s, u) :: below } : Cfg V) P.t.final v with
      | done e c' => rw [hw] at h; exact h
      | next c' =>
        rw [hw] at h
        simp only
        split
        · show Cfg.log (Cfg.read _) = _
          rw [read_log]; exact h
        · show Cfg.log (Cfg.read _) = _
          rw [read_log]; exact h
    · rw [push_log]

theorem reduce_log (c : Cfg V) (r : Nat) : (Ev.reduce r :: c.log) <:+ (P.reduce c r).cfg.log := by
  unfold Driver.reduce
  simp only
  split
  · exact List.suffix_refl _
  · split
    · rw [finish_log]
    · exact (List.suffix_cons Ev.raised (Ev.reduce r :: c.log)).trans
        (inrecovery_log { c with log := .raised :: .reduce r :: c.log })
    · exact List.suffix_refl _
    · exact List.suffix_refl _

theorem step_log (c : Cfg V) : c.log <:+ (P.step c).cfg.log := by
  unfold Driver.step
  split
  · exact List.suffix_refl _
  · split
    · split
      · rw [push_log]; exact List.suffix_cons _ _
      · split
        · exact List.suffix_refl _
        · exact List.suffix_cons _ _
    · split
      · exact (List.suffix_cons _ _).trans (reduce_log _ _)
      · simp only
        split
        · rw [push_log]
          simp only [read_log]
          exact List.suffix_cons _ _
        · split
          · have := reduce_log (P := P) c.read
            simp only [read_log] at this
            exact (List.suffix_cons _ _).trans (this _)
          · split
            · refine List.IsSuffix.trans ?_ (inrecovery_log _)
              simp only [read_log]
              exact List.suffix_cons _ _
            · refine List.IsSuffix.trans ?_ (inrecovery_log _)
              rw [read_log]

/-! ### trees -/

/-- What has been read but not shifted, and what is left. -/
def Cfg.pending (c : Cfg V) : List (Int × V) :=
  match c.chr with
  | none => tokensOf c.input
  | some x => if x = 0 then [] else (x, c.lval) :: tokensOf c.input

theorem read_pending (c : Cfg V) : c.read.pending = c.pending := by
  unfold Cfg.read Cfg.pending
  cases hc : c.chr with
  | some x => simp [hc]
  | none =>
    cases hi : c.input with
    | nil => simp [tokensOf]
    | cons p rest =>
      obtain ⟨x, v⟩ := p
      simp only [tokensOf, List.takeWhile_cons, decide_eq_true_eq]
      by_cases h : x < 0
      · rw [if_pos h, if_pos rfl, if_neg (by omega)]
      · rw [if_neg h]
        by_cases h0 : x = 0
        · rw [if_pos h0, if_neg (by omega)]
        · rw [if_neg h0, if_pos (by omega)]

variable {G : CFG} {nsyms n : Nat} {Item Trans : _} {code : Nat → Int} {f : Nat → List V → V}

structure Good (G : CFG) (Trans : Nat → Nat → Nat → Prop) (code : Nat → Int) (f : Nat → List V → V) (u : V)
    (input : List (Int × V)) (c : Cfg V) : Prop where
  errflag : c.errflag = 0
  recover : c.recover = false
  trees : ∃ γ rs w vs, Spell Trans γ.reverse (c.stack.map Prod.fst) ∧ c.stack.map Prod.snd = vs.reverse ++ [u] ∧
    Builds G f rs γ w vs ∧ reductions c.log = rs.reverse ∧ shifts c.log = (w.map fun p => code p.1).reverse ∧
    tokensOf input = w.map (fun p => (code p.1, p.2)) ++ c.pending

theorem Good.read {u : V} {input : List (Int × V)} {c : Cfg V} (H : Good G Trans code f u input c) :
    Good G Trans code f u input c.read := by
  obtain ⟨f1, f2, f3, f4, f5, f6⟩ := read_fields c
  obtain ⟨h1, h2, h3⟩ := H
  exact ⟨by rw [f2]; exact h1, by rw [f4]; exact h2, by rw [f1, f5, read_pending]; exact h3⟩

/-- What a result may be while no syntax error is reported. -/
def GoodRes (G : CFG) (Trans : Nat → Nat → Nat → Prop) (code : Nat → Int) (f : Nat → List V → V) (u : V)
    (input : List (Int × V)) : Res V → Prop
  | .next c => .report ∈ c.log ∨ Good G Trans code f u input c
  | .done .accept c => ∃ rs w q v, Builds G f rs [G.ntok + 1] w [v] ∧ c.stack = [(q, v), (0, u)] ∧
      reductions c.log = rs.reverse ∧ shifts c.log = (w.map fun p => code p.1).reverse ∧
      tokensOf input = w.map (fun p => (code p.1, p.2))
  | .done _ _ => True

/-- actions that only compute a value from `$1`, ..., `$m` and the default value -/
def PureActs (P : Driver V) (fa : Nat → V → List V → V) : Prop :=
  ∀ r d st, P.act r d st = .val (fa r d ((st.take (P.t.len.getD r 0).toNat).reverse))

theorem TabSound.reduce_good (T : TabSound G nsyms n Item Trans code P.t) {bound : Nat} {c : Cfg V} (B : Base Trans bound c)
    {fa : Nat → V → List V → V} (hact : PureActs P fa) (hf : f = fun r us => fa r (us.headD P.zero) us)
    {u0 : V} {input : List (Int × V)} (H : Good G Trans code f u0 input c)
    {q : Nat} {u : V} {rest : List (Nat × V)} (hst : c.stack = (q, u) :: rest) {r A : Nat} {α : List Nat}
    (hr : G.rules[r]? = some (A, α)) (hi : Item q r α.length) (h0 : 0 < r) :
    GoodRes G Trans code f u0 input (P.reduce c r) := by
  obtain ⟨herr, hrec, γ, rs, w, vs, hsp, hvs, hb, hred, hshf, hin⟩ := H
  have hst' : c.stack.map Prod.fst = q :: rest.map Prod.fst := by rw [hst]; rfl
  obtain ⟨δ, s, below, q', hγ', hd, hδ, ht, hz, hA⟩ := T.shape (hst' ▸ hsp) hr hi h0
  rw [← hst'] at hd
  have hγ : γ = δ.reverse ++ α := by
    have := congrArg List.reverse hγ'
    simpa using this
  have hvl := hb.length
  have hsl : c.stack.length = vs.length + 1 := by
    have := congrArg List.length hvs
    simpa using this
  have hγl : γ.length = δ.length + α.length := by rw [hγ]; simp
  have hlen : ¬ c.stack.length ≤ α.length := by omega
  -- the values of the right-hand side
  have hus : ((c.stack.map Prod.snd).take α.length).reverse = vs.drop δ.length := by
    rw [hvs, List.take_append_of_le_length (by simp; omega), List.take_reverse, List.reverse_reverse]
    congr 1
    omega
  have hds : (c.stack.map Prod.snd).drop α.length = (vs.take δ.length).reverse ++ [u0] := by
    rw [hvs, List.drop_append_of_le_length (by simp; omega), List.drop_reverse]
    congr 3
    omega
  have hdef : (if α.length = 0 then P.zero else (c.stack.map Prod.snd).getD (α.length - 1) P.zero) =
      (vs.drop δ.length).headD P.zero := by
    by_cases hα : α.length = 0
    · rw [if_pos hα]
      have : vs.drop δ.length = [] := List.drop_eq_nil_of_le (by omega)
      rw [this]; rfl
    · rw [if_neg hα, List.getD_eq_getElem?_getD, List.headD_eq_head?_getD, List.head?_drop, hvs,
        List.getElem?_append_left (by simp; omega), List.getElem?_reverse (by omega)]
      congr 2
      omega
  have hbr := Builds.reduce (hγ ▸ hb) hr
  rw [List.length_reverse] at hbr
  unfold Driver.reduce
  simp only [T.len r A α hr, Int.toNat_natCast]
  rw [if_neg hlen]
  have hv : P.act r (if α.length = 0 then P.zero else (c.stack.map Prod.snd).getD (α.length - 1) P.zero)
      (c.stack.map Prod.snd) = .val (f r (vs.drop δ.length)) := by
    rw [hact, T.len r A α hr, Int.toNat_natCast, hus, hdef, hf]
  rw [hv]
  simp only
  have hsp' : Spell Trans (δ.reverse ++ [A]).reverse (q' :: (c.stack.drop α.length).map Prod.fst) := by
    rw [List.map_drop, hd]; simpa using Spell.cons hδ ht
  have hvs' : f r (vs.drop δ.length) :: (c.stack.drop α.length).map Prod.snd =
      (vs.take δ.length ++ [f r (vs.drop δ.length)]).reverse ++ [u0] := by
    rw [List.map_drop, hds]; simp
  have hreds : reductions (.reduce r :: c.log) = (rs ++ [r]).reverse := by
    simp only [reductions, List.filterMap_cons, List.reverse_append, List.reverse_cons, List.reverse_nil, List.nil_append,
      List.cons_append]
    congr 1
  have hshf' : shifts (.reduce r :: c.log) = (w.map fun p => code p.1).reverse := by
    rw [← hshf]; rfl
  have hgood : ∀ m, Good G Trans code f u0 input
      { c with log := .reduce r :: c.log, stack := (q', f r (vs.drop δ.length)) :: c.stack.drop α.length, size := m } := by
    intro m
    exact ⟨herr, hrec, δ.reverse ++ [A], rs ++ [r], w, _, hsp', hvs', hbr, hreds, hshf', hin⟩
  rcases T.finish (c := { c with log := .reduce r :: c.log }) (f r (vs.drop δ.length)) hr hd ht (fun e => (hz e).1) hA B.fits
      B.two with ⟨m, e, -⟩ | ⟨e, -⟩ | ⟨e, e0, eA, e1, e2⟩ | ⟨e, -⟩
  · rw [e]; exact .inr (hgood m)
  · rw [e]; exact .inr (hgood c.size).read
  · rw [e]
    have hR := (hgood c.size).read
    obtain ⟨f1, f2, f3, f4, f5, f6⟩ := read_fields ({ c with log := .reduce r :: c.log, stack := (q', f r (vs.drop δ.length)) :: c.stack.drop α.length } : Cfg V)
    obtain ⟨-, rfl⟩ := hz e0
    have hpend := read_pending ({ c with log := .reduce r :: c.log, stack := (q', f r (vs.drop 0)) :: c.stack.drop α.length } : Cfg V)
    simp only [List.length_nil, List.drop_zero, List.take_zero, List.nil_append, List.reverse_nil] at *
    refine ⟨rs ++ [r], w, q', f r vs, eA ▸ hbr, ?_, ?_, ?_, ?_⟩
    · rw [f1]
      have h1 : (c.stack.drop α.length).map Prod.fst = [0] := by
        rw [List.map_drop, hd, e0, (hz e0).1]
      have h2 : (c.stack.drop α.length).map Prod.snd = [u0] := by
        rw [List.map_drop, hds]
      cases hdd : c.stack.drop α.length with
      | nil => rw [hdd] at h1; cases h1
      | cons p tl =>
        obtain ⟨p1, p2⟩ := p
        rw [hdd] at h1 h2
        simp only [List.map_cons, List.cons.injEq, List.map_eq_nil_iff] at h1 h2
        obtain ⟨rfl, rfl⟩ := h1
        obtain ⟨rfl, -⟩ := h2
        rfl
    · rw [f5]; exact hreds
    · rw [f5]; exact hshf'
    · have : Cfg.pending ({ c with log := .reduce r :: c.log, stack := (q', f r vs) :: c.stack.drop α.length } : Cfg V).read = [] := by
        unfold Cfg.pending
        rw [e2]
        simp
      rw [this] at hpend
      rw [hin]
      have hp2 : c.pending = [] := by rw [show c.pending = _ from rfl]; exact hpend.symm
      rw [hp2]; simp
  · rw [e]; trivial

theorem TabSound.step_good (T : TabSound G nsyms n Item Trans code P.t) {bound : Nat} {c : Cfg V} (B : Base Trans bound c)
    {fa : Nat → V → List V → V} (hact : PureActs P fa) (hf : f = fun r us => fa r (us.headD P.zero) us)
    {u0 : V} {input : List (Int × V)} (H : Good G Trans code f u0 input c) :
    GoodRes G Trans code f u0 input (P.step c) := by
  unfold Driver.step
  split
  · trivial
  rename_i q u rest hst
  have hq := B.top T.A hst
  rw [if_neg (by rw [H.recover]; simp)]
  split
  · rename_i hne
    obtain ⟨A, α, hr, hi⟩ := T.defred q hq hne
    exact T.reduce_good B hact hf H hst hr hi (Nat.pos_of_ne_zero hne)
  · obtain ⟨f1, f2, f3, f4, f5, f6⟩ := read_fields c
    have BR := B.read
    have HR := H.read
    obtain ⟨x, hx, hx0⟩ := read_chr_nonneg c B.chr
    have hst' : c.read.stack = (q, u) :: rest := by rw [f1, hst]
    simp only [hx, Option.getD_some]
    split
    · rename_i q' hsh
      obtain ⟨X, hX, hXne, hcode, ht⟩ := T.shift q hq _ _ hx0 hsh
      have hxne : x ≠ 0 := by
        intro e
        refine hXne (T.inj X 0 hX T.wf.ntok ?_)
        rw [← hcode, e, T.code0]
      obtain ⟨herr, hrec, γ, rs, w, vs, hsp, hvs, hb, hred, hshf, hin⟩ := HR
      rcases push_cases (P := P) ({ c.read with chr := none, errflag := c.read.errflag - 1, log := .shift x :: c.read.log } : Cfg V)
          q' c.read.lval BR.fits BR.two with ⟨m, e1, e2, e3, e4⟩ | ⟨e1, -⟩
      · rw [e1]
        right
        refine ⟨by simp only; omega, hrec, γ ++ [X], rs, w ++ [(X, c.read.lval)], vs ++ [c.read.lval], ?_, ?_, .tok _ hX hb, ?_, ?_, ?_⟩
        · rw [hst'] at hsp ⊢
          simp only [List.reverse_append, List.reverse_cons, List.reverse_nil, List.nil_append, List.cons_append, List.map_cons]
          exact .cons hsp ht
        · simp [hvs]
        · rw [← hred]; rfl
        · simp only [List.map_append, List.map_cons, List.map_nil, List.reverse_append, List.reverse_cons, List.reverse_nil,
            List.nil_append, List.cons_append]
          rw [← hshf, ← hcode]; rfl
        · rw [hin]
          simp only [List.map_append, List.map_cons, List.map_nil, List.append_assoc, List.cons_append, List.nil_append]
          congr 1
          unfold Cfg.pending
          rw [hx]
          simp [hxne, ← hcode]
      · rw [e1]; trivial
    · split
      · rename_i r hre
        obtain ⟨h0, A, α, hr, hi⟩ := T.reduce q hq _ _ hx0 hre
        exact T.reduce_good BR hact hf HR hst' hr hi h0
      · rw [if_pos HR.errflag]
        unfold Cfg.inrecovery
        simp only [HR.errflag]
        rw [if_pos (by omega)]
        left
        simp

end Verif.Byacc
