import Verif.Byacc.Skel
import Verif.Proofs.Tables
import Verif.Proofs.Parse
/-
The generated parser on tables that agree with the LR(0) automaton.
-/
set_option autoImplicit false
namespace Verif.Byacc
open Spec Relation

/-- The states on the stack (top first) spell the symbols `γ` (last first). -/
inductive Spell (Trans : Nat → Nat → Nat → Prop) : List Nat → List Nat → Prop
  | nil : Spell Trans [] [0]
  | cons {γ : List Nat} {s : Nat} {ss : List Nat} {X q : Nat} (h : Spell Trans γ (s :: ss)) (ht : Trans s X q) :
      Spell Trans (X :: γ) (q :: s :: ss)

section
variable {Trans : Nat → Nat → Nat → Prop}

theorem Spell.length {γ ss : List Nat} (h : Spell Trans γ ss) : ss.length = γ.length + 1 := by
  induction h with
  | nil => rfl
  | cons h ht ih => simp only [List.length_cons] at ih ⊢; omega

theorem Spell.path {γ ss : List Nat} (h : Spell Trans γ ss) : ∀ {q : Nat} {ss' : List Nat}, ss = q :: ss' →
    Path Trans 0 γ.reverse q := by
  induction h with
  | nil => intro q ss' e; simp only [List.cons.injEq] at e; rw [← e.1]; exact .nil 0
  | cons h ht ih =>
    intro q ss' e
    simp only [List.cons.injEq] at e
    obtain ⟨rfl, -⟩ := e
    simpa using Path.snoc (ih rfl) ht

theorem Spell.drop {γ ss : List Nat} (h : Spell Trans γ ss) : ∀ k, k ≤ γ.length → Spell Trans (γ.drop k) (ss.drop k) := by
  induction h with
  | nil => intro k hk; simp only [List.length_nil, Nat.le_zero] at hk; subst hk; exact .nil
  | cons h ht ih =>
    intro k hk
    rcases k with _ | k
    · exact .cons h ht
    · simp only [List.drop_succ_cons]
      exact ih k (by simpa using hk)

theorem Spell.ne_nil {γ ss : List Nat} (h : Spell Trans γ ss) : ss ≠ [] := by
  intro e
  have := h.length
  rw [e] at this
  simp at this

theorem Spell.zero {γ ss ss' : List Nat} (hz : ∀ s X, ¬ Trans s X 0) (h : Spell Trans γ ss) (e : ss = 0 :: ss') :
    ss' = [] ∧ γ = [] := by
  cases h with
  | nil => simp at e; exact ⟨e.symm ▸ rfl, rfl⟩
  | cons h ht =>
    simp only [List.cons.injEq] at e
    exact absurd (e.1 ▸ ht) (hz _ _)

end

/-- Tables whose entries all come from the automaton. -/
structure TabSound (G : CFG) (nsyms n : Nat) (Item : Nat → Nat → Nat → Prop) (Trans : Nat → Nat → Nat → Prop)
    (code : Nat → Int) (t : Tables) : Prop where
  A : IsAuto G byaccInit (fun X => X ≠ 0) n Item Trans
  wf : WF G nsyms
  zero : ∀ s X, ¬ Trans s X 0
  shift : ∀ q, q < n → ∀ (x : Int) (y : Nat), 0 ≤ x → t.shiftOn q x = some y →
    ∃ X, X < G.ntok ∧ X ≠ 0 ∧ x = code X ∧ Trans q X y
  reduce : ∀ q, q < n → ∀ (x : Int) (r : Nat), 0 ≤ x → t.reduceOn q x = some r →
    0 < r ∧ ∃ A α, G.rules[r]? = some (A, α) ∧ Item q r α.length
  defred : ∀ q, q < n → t.defred.getD q 0 ≠ 0 →
    ∃ A α, G.rules[t.defred.getD q 0]? = some (A, α) ∧ Item q (t.defred.getD q 0) α.length
  goto : ∀ s A q, G.ntok < A → Trans s A q → t.gotoOf s ((A : Int) - G.ntok - 1) = q
  lhs : ∀ (r A : Nat) (α : List Nat), G.rules[r]? = some (A, α) → t.lhs.getD r 0 = (A : Int) - G.ntok - 1
  len : ∀ (r A : Nat) (α : List Nat), G.rules[r]? = some (A, α) → t.len.getD r 0 = (α.length : Int)
  final : Trans 0 (G.ntok + 1) t.final
  errcode : 0 ≤ t.errcode
  code0 : code 0 = 0
  codeNN : ∀ X, X < G.ntok → 0 ≤ code X
  inj : ∀ X Y, X < G.ntok → Y < G.ntok → code X = code Y → X = Y

variable {V : Type} {P : Driver V} {G : CFG} {nsyms n : Nat} {Item Trans : _} {code : Nat → Int}

/-- the shape of the stack before a reduction -/
theorem TabSound.shape (T : TabSound G nsyms n Item Trans code P.t) {γ ss : List Nat} {q r A : Nat} {α : List Nat}
    (hs : Spell Trans γ (q :: ss)) (hr : G.rules[r]? = some (A, α)) (hi : Item q r α.length) (h0 : 0 < r) :
    ∃ (δ : List Nat) (s : Nat) (below : List Nat) (q' : Nat), γ = α.reverse ++ δ ∧ (q :: ss).drop α.length = s :: below ∧
      Spell Trans δ (s :: below) ∧ Trans s A q' ∧ (s = 0 → below = [] ∧ δ = []) ∧ G.ntok < A := by
  have hp := hs.path rfl
  obtain ⟨z, hz⟩ := (T.A.item_valid hp r α.length).1 hi
  obtain ⟨δ, hδ, hz0⟩ := Ctx.back hz hr
  rw [List.take_length] at hδ
  have hγ : γ = α.reverse ++ δ.reverse := by
    have := congrArg List.reverse hδ
    simpa using this
  have hd := hs.drop α.length (by rw [hγ]; simp)
  rw [show γ.drop α.length = δ.reverse by rw [hγ]; simp] at hd
  cases hss : (q :: ss).drop α.length with
  | nil => exact absurd hss hd.ne_nil
  | cons s below =>
    rw [hss] at hd
    have hps : Path Trans 0 δ s := by simpa using hd.path rfl
    have hq' : ∃ q', Trans s A q' := by
      rcases Ctx.parent hz0 hr with h | ⟨r', d', z', A', α', hz', hr', hA', -⟩
      · simp only [byaccInit] at h; omega
      · refine (T.A.ex s A (T.A.path_lt T.A.pos hps)).2 ⟨?_, r', d', (T.A.item_valid hps r' d').2 ⟨z', hz'⟩, A', α', hr', hA'⟩
        have := (T.wf.lhs hr).1
        have := T.wf.ntok
        omega
    obtain ⟨q', hq'⟩ := hq'
    refine ⟨δ.reverse, s, below, q', hγ, rfl, hd, hq', ?_, (T.wf.user r A α h0 hr).1⟩
    rintro rfl
    obtain ⟨h1, h2⟩ := hd.zero T.zero rfl
    exact ⟨h1, h2⟩

/-- the invariant of every parse: the stack spells a path of the automaton and fits the allocation -/
structure Base (Trans : Nat → Nat → Nat → Prop) (bound : Nat) (c : Cfg V) : Prop where
  spell : ∃ γ, Spell Trans γ (c.stack.map Prod.fst)
  fits : c.stack.length ≤ c.size
  two : 2 ≤ c.size
  bnd : c.size ≤ bound
  chr : ∀ x, c.chr = some x → 0 ≤ x

theorem push_cases (c : Cfg V) (q : Nat) (v : V) (h1 : c.stack.length ≤ c.size) (h0 : 2 ≤ c.size) :
    (∃ n, P.push c q v = .next { c with stack := (q, v) :: c.stack, size := n } ∧ c.size ≤ n ∧ c.stack.length + 1 ≤ n ∧
      (n = c.size ∨ n ≤ P.max)) ∨
    (P.push c q v = .done .overflow c ∧ c.stack.length = c.size ∧ P.max ≤ c.size) := by
  unfold Driver.push
  by_cases h : c.stack.length ≥ c.size
  · rw [if_pos h]
    unfold Driver.grow
    rw [if_neg (by omega)]
    by_cases h2 : c.size ≥ P.max
    · rw [if_pos h2]; exact .inr ⟨rfl, by omega, h2⟩
    · rw [if_neg h2]
      left
      by_cases h3 : c.size * 2 > P.max
      · rw [if_pos h3]
        refine ⟨P.max, ?_, by omega, by omega, .inr (le_refl _)⟩
        simp only [Cfg.write]
        rw [if_pos (by omega)]
      · rw [if_neg h3]
        refine ⟨c.size * 2, ?_, by omega, by omega, .inr (by omega)⟩
        simp only [Cfg.write]
        rw [if_pos (by omega)]
  · rw [if_neg h]
    left
    refine ⟨c.size, ?_, le_refl _, by omega, .inl rfl⟩
    simp only [Cfg.write]
    rw [if_pos (by omega)]

theorem read_fields (c : Cfg V) : c.read.stack = c.stack ∧ c.read.errflag = c.errflag ∧ c.read.size = c.size ∧
    c.read.recover = c.recover ∧ c.read.log = c.log ∧ (∃ x, c.read.chr = some x ∧ (c.chr = none → 0 ≤ x)) := by
  unfold Cfg.read
  split
  · rename_i x hx
    exact ⟨rfl, rfl, rfl, rfl, rfl, x, hx, fun h => by rw [hx] at h; cases h⟩
  · split
    · exact ⟨rfl, rfl, rfl, rfl, rfl, 0, rfl, fun _ => le_refl _⟩
    · exact ⟨rfl, rfl, rfl, rfl, rfl, _, rfl, fun _ => by split <;> omega⟩

theorem read_chr_nonneg (c : Cfg V) (h : ∀ x, c.chr = some x → 0 ≤ x) : ∃ x, c.read.chr = some x ∧ 0 ≤ x := by
  obtain ⟨-, -, -, -, -, x, hx, h2⟩ := read_fields c
  refine ⟨x, hx, ?_⟩
  cases hc : c.chr with
  | none => exact h2 hc
  | some y =>
    have : c.read = c := by unfold Cfg.read; rw [hc]
    rw [this, hc] at hx
    cases hx
    exact h _ hc

/-- the end of a reduction -/
theorem TabSound.finish (T : TabSound G nsyms n Item Trans code P.t) {c : Cfg V} {r A q' s : Nat} {α below : List Nat} (v : V)
    (hr : G.rules[r]? = some (A, α)) (hd : (c.stack.map Prod.fst).drop α.length = s :: below)
    (ht : Trans s A q') (hz : s = 0 → below = []) (hA : G.ntok < A)
    (h1 : c.stack.length ≤ c.size) (h0 : 2 ≤ c.size) :
    (∃ n, P.finish c α.length (P.t.lhs.getD r 0) v =
        .next { c with stack := (q', v) :: c.stack.drop α.length, size := n } ∧ c.size ≤ n ∧
        (c.stack.drop α.length).length + 1 ≤ n ∧ (n = c.size ∨ n ≤ P.max) ∧ ¬ (s = 0 ∧ A = G.ntok + 1)) ∨
    (P.finish c α.length (P.t.lhs.getD r 0) v =
        .next { c with stack := (q', v) :: c.stack.drop α.length }.read ∧ s = 0 ∧ A = G.ntok + 1 ∧
        (c.stack.drop α.length).length = 1 ∧
        { c with stack := (q', v) :: c.stack.drop α.length }.read.chr ≠ some 0) ∨
    (P.finish c α.length (P.t.lhs.getD r 0) v =
        .done .accept { c with stack := (q', v) :: c.stack.drop α.length }.read ∧ s = 0 ∧ A = G.ntok + 1 ∧
        (c.stack.drop α.length).length = 1 ∧
        { c with stack := (q', v) :: c.stack.drop α.length }.read.chr = some 0) ∨
    (P.finish c α.length (P.t.lhs.getD r 0) v = .done .overflow { c with stack := c.stack.drop α.length } ∧
      (c.stack.drop α.length).length = c.size ∧ P.max ≤ c.size) := by
  have hlen : (c.stack.drop α.length).length ≤ c.stack.length := by simp
  rw [T.lhs r A α hr]
  unfold Driver.finish
  rw [← List.map_drop] at hd
  cases hst : c.stack.drop α.length with
  | nil => rw [hst] at hd; simp at hd
  | cons p rest =>
    obtain ⟨s', u⟩ := p
    rw [hst] at hd hlen
    simp only [List.map_cons, List.cons.injEq] at hd
    obtain ⟨rfl, rfl⟩ := hd
    simp only
    have hiff : (s' = 0 ∧ (A : Int) - G.ntok - 1 = 0) ↔ (s' = 0 ∧ A = G.ntok + 1) := by
      constructor <;> rintro ⟨e1, e2⟩ <;> exact ⟨e1, by omega⟩
    by_cases hf : s' = 0 ∧ A = G.ntok + 1
    · rw [if_pos (hiff.2 hf)]
      obtain ⟨rfl, rfl⟩ := hf
      have hb : rest = [] := by simpa using hz rfl
      subst hb
      have hq : q' = P.t.final := T.A.det ht T.final
      subst hq
      simp only [Cfg.write]
      rw [if_pos (by simp; omega)]
      simp only
      right
      by_cases hc : ({ c with stack := (P.t.final, v) :: (0, u) :: [] } : Cfg V).read.chr = some 0
      · rw [if_pos hc]
        exact .inr (.inl ⟨rfl, trivial, trivial, rfl, hc⟩)
      · rw [if_neg hc]
        exact .inl ⟨rfl, trivial, trivial, rfl, hc⟩
    · rw [if_neg (by rw [hiff]; exact hf), T.goto s' A q' hA ht]
      rcases push_cases (P := P) { c with stack := (s', u) :: rest } q' v (by simp only; omega) h0 with
        ⟨m, e1, e2, e3, e4⟩ | ⟨e1, e2, e3⟩
      · exact .inl ⟨m, e1, e2, e3, e4, hf⟩
      · exact .inr (.inr (.inr ⟨e1, e2, e3⟩))

/-- What a result may be. -/
def ResOK (Trans : Nat → Nat → Nat → Prop) (bound max : Nat) : Res V → Prop
  | .next c => Base Trans bound c
  | .done h c => h ≠ .underflow ∧ h ≠ .badWrite ∧ (h = .overflow → c.stack.length = c.size ∧ max ≤ c.size) ∧
      c.stack.length ≤ c.size ∧ c.size ≤ bound

theorem ResOK.inrecovery {bound : Nat} {c : Cfg V} (B : Base Trans bound c) : ResOK Trans bound P.max c.inrecovery := by
  unfold Cfg.inrecovery
  split
  · exact ⟨B.spell, B.fits, B.two, B.bnd, B.chr⟩
  · split
    · exact B
    · split
      · exact ⟨by simp, by simp, by simp, B.fits, B.bnd⟩
      · exact ⟨B.spell, B.fits, B.two, B.bnd, by simp⟩

theorem TabSound.reduce_base (T : TabSound G nsyms n Item Trans code P.t) {bound : Nat} {c : Cfg V} (B : Base Trans bound c)
    (hmax : P.max ≤ bound) {q : Nat} {u : V} {rest : List (Nat × V)} (hst : c.stack = (q, u) :: rest) {r A : Nat} {α : List Nat}
    (hr : G.rules[r]? = some (A, α)) (hi : Item q r α.length) (h0 : 0 < r) :
    ResOK Trans bound P.max (P.reduce c r) := by
  obtain ⟨γ, hγ⟩ := B.spell
  have hst' : c.stack.map Prod.fst = q :: rest.map Prod.fst := by rw [hst]; rfl
  obtain ⟨δ, s, below, q', hγ', hd, hδ, ht, hz, hA⟩ := T.shape (hst' ▸ hγ) hr hi h0
  rw [← hst'] at hd
  have hlen : ¬ c.stack.length ≤ α.length := by
    intro hle
    have : (c.stack.map Prod.fst).drop α.length = [] := List.drop_eq_nil_of_le (by simpa using hle)
    rw [this] at hd
    cases hd
  unfold Driver.reduce
  simp only [T.len r A α hr, Int.toNat_natCast]
  rw [if_neg hlen]
  have hfits := B.fits
  have hbnd := B.bnd
  split
  · rename_i v _
    have hsp : Spell Trans (A :: δ) (q' :: (c.stack.drop α.length).map Prod.fst) := by
      rw [List.map_drop, hd]; exact .cons hδ ht
    have hdl : (c.stack.drop α.length).length = c.stack.length - α.length := by simp
    rcases T.finish (c := { c with log := .reduce r :: c.log }) v hr hd ht (fun e => (hz e).1) hA B.fits B.two with
      ⟨m, e, e1, e2, e3, -⟩ | ⟨e, -, -, e1, -⟩ | ⟨e, -, -, e1, -⟩ | ⟨e, e1, e2⟩
    · rw [e]
      simp only at e1 e2 e3
      have := B.two
      exact ⟨⟨_, hsp⟩, e2, by simp only; omega, by simp only; omega, B.chr⟩
    · rw [e]
      simp only at e1
      obtain ⟨f1, f2, f3, f4, f5, f6⟩ := read_fields ({ c with log := .reduce r :: c.log, stack := (q', v) :: c.stack.drop α.length } : Cfg V)
      refine ⟨⟨A :: δ, by rw [f1]; exact hsp⟩, ?_, by rw [f3]; exact B.two, by rw [f3]; exact B.bnd, ?_⟩
      · rw [f1, f3]
        simp only [List.length_cons]
        have := B.two
        omega
      · intro x hx
        obtain ⟨y, hy, hy0⟩ := read_chr_nonneg ({ c with log := .reduce r :: c.log, stack := (q', v) :: c.stack.drop α.length } : Cfg V) B.chr
        rw [hy] at hx
        cases hx
        exact hy0
    · rw [e]
      simp only at e1
      obtain ⟨f1, f2, f3, f4, f5, f6⟩ := read_fields ({ c with log := .reduce r :: c.log, stack := (q', v) :: c.stack.drop α.length } : Cfg V)
      refine ⟨by simp, by simp, by simp, ?_, by rw [f3]; exact B.bnd⟩
      rw [f1, f3]
      simp only [List.length_cons]
      have := B.two
      omega
    · rw [e]
      exact ⟨by simp, by simp, fun _ => ⟨e1, e2⟩, by simp only [hdl]; omega, B.bnd⟩
  · exact ResOK.inrecovery ⟨B.spell, B.fits, B.two, B.bnd, B.chr⟩
  · exact ⟨by simp, by simp, by simp, B.fits, B.bnd⟩
  · exact ⟨by simp, by simp, by simp, B.fits, B.bnd⟩

theorem Base.top {bound : Nat} {c : Cfg V} (B : Base Trans bound c)
    (hA : IsAuto G byaccInit (fun X => X ≠ 0) n Item Trans) {q : Nat} {u : V}
    {rest : List (Nat × V)} (hst : c.stack = (q, u) :: rest) : q < n := by
  obtain ⟨γ, hγ⟩ := B.spell
  exact hA.path_lt hA.pos (hγ.path (by rw [hst]; rfl))

theorem Base.push {bound : Nat} {c : Cfg V} (B : Base Trans bound c) (hmax : P.max ≤ bound)
    {q : Nat} {u : V} {rest : List (Nat × V)} (hst : c.stack = (q, u) :: rest) {X q' : Nat} (ht : Trans q X q') (v : V) :
    ResOK Trans bound P.max (P.push c q' v) := by
  obtain ⟨γ, hγ⟩ := B.spell
  have hbnd := B.bnd
  have := B.two
  rcases push_cases (P := P) c q' v B.fits B.two with ⟨m, e1, e2, e3, e4⟩ | ⟨e1, e2, e3⟩
  · rw [e1]
    refine ⟨⟨X :: γ, ?_⟩, e3, by simp only; omega, by simp only; omega, B.chr⟩
    rw [hst] at hγ ⊢
    exact .cons hγ ht
  · rw [e1]
    exact ⟨by simp, by simp, fun _ => ⟨e2, e3⟩, by omega, B.bnd⟩

theorem Base.read {bound : Nat} {c : Cfg V} (B : Base Trans bound c) : Base Trans bound c.read := by
  obtain ⟨f1, f2, f3, f4, f5, f6⟩ := read_fields c
  refine ⟨by rw [f1]; exact B.spell, by rw [f1, f3]; exact B.fits, by rw [f3]; exact B.two, by rw [f3]; exact B.bnd, ?_⟩
  intro x hx
  obtain ⟨y, hy, hy0⟩ := read_chr_nonneg c B.chr
  rw [hy] at hx
  cases hx
  exact hy0

theorem TabSound.step_base (T : TabSound G nsyms n Item Trans code P.t) {bound : Nat} {c : Cfg V} (B : Base Trans bound c)
    (hmax : P.max ≤ bound) : ResOK Trans bound P.max (P.step c) := by
  obtain ⟨γ, hγ⟩ := B.spell
  unfold Driver.step
  split
  · rename_i hst
    rw [hst] at hγ
    exact absurd rfl hγ.ne_nil
  rename_i q u rest hst
  have hq := B.top T.A hst
  split
  · split
    · rename_i q' hsh
      obtain ⟨X, -, -, -, ht⟩ := T.shift q hq _ _ T.errcode hsh
      exact Base.push (c := { c with recover := false, log := .errShift :: c.log })
        ⟨B.spell, B.fits, B.two, B.bnd, B.chr⟩ hmax hst ht _
    · split
      · exact ⟨by simp, by simp, by simp, B.fits, B.bnd⟩
      · rename_i hne
        have hfits := B.fits
        rw [hst] at hfits
        simp only [List.length_cons] at hfits
        rw [hst] at hγ
        refine ⟨?_, by simp only; omega, B.two, B.bnd, B.chr⟩
        simp only
        have hl := hγ.length
        simp only [List.map_cons, List.length_cons, List.length_map] at hl
        have hpos : 0 < rest.length := by
          apply List.length_pos_iff.2
          simpa using hne
        have := hγ.drop 1 (by omega)
        simp only [List.map_cons, List.drop_succ_cons, List.drop_zero] at this
        exact ⟨_, this⟩
  · split
    · rename_i hne
      obtain ⟨A, α, hr, hi⟩ := T.defred q hq hne
      exact T.reduce_base B hmax hst hr hi (Nat.pos_of_ne_zero hne)
    · obtain ⟨f1, f2, f3, f4, f5, f6⟩ := read_fields c
      have BR := B.read
      obtain ⟨x, hx, hx0⟩ := read_chr_nonneg c B.chr
      have hst' : c.read.stack = (q, u) :: rest := by rw [f1, hst]
      simp only [hx, Option.getD_some]
      split
      · rename_i q' hsh
        obtain ⟨X, -, -, -, ht⟩ := T.shift q hq _ _ hx0 hsh
        exact Base.push (c := { c.read with chr := none, errflag := c.read.errflag - 1, log := .shift x :: c.read.log })
          ⟨BR.spell, BR.fits, BR.two, BR.bnd, by simp⟩ hmax hst' ht _
      · split
        · rename_i r hre
          obtain ⟨h0, A, α, hr, hi⟩ := T.reduce q hq _ _ hx0 hre
          exact T.reduce_base BR hmax hst' hr hi h0
        · split
          · refine ResOK.inrecovery ⟨BR.spell, BR.fits, BR.two, BR.bnd, ?_⟩
            intro y hy
            cases hy
            exact hx0
          · exact ResOK.inrecovery BR

/-! ### runs -/

theorem run_inv (Inv : Cfg V → Prop) (hstep : ∀ c c', Inv c → P.step c = .next c' → Inv c') :
    ∀ n c, Inv c → (∀ c', P.run n c = .next c' → Inv c') ∧
      (∀ h c', P.run n c = .done h c' → ∃ c0, Inv c0 ∧ P.step c0 = .done h c') := by
  intro n
  induction n with
  | zero =>
    intro c hc
    refine ⟨?_, ?_⟩
    · intro c' e; simp only [Driver.run, Res.next.injEq] at e; subst e; exact hc
    · intro h c' e; simp [Driver.run] at e
  | succ n ih =>
    intro c hc
    unfold Driver.run
    cases hs : P.step c with
    | next c1 => exact ih c1 (hstep c c1 hc hs)
    | done h1 c1 =>
      refine ⟨by simp, ?_⟩
      intro h c' e
      simp only [Res.done.injEq] at e
      obtain ⟨rfl, rfl⟩ := e
      exact ⟨c, hc, hs⟩

theorem start_base (P : Driver V) (size : Nat) (u : V) (input : List (Int × V)) (bound : Nat)
    (h2 : 2 ≤ (P.start size u input).size) (hb : (P.start size u input).size ≤ bound) :
    Base Trans bound (P.start size u input) :=
  ⟨⟨[], .nil⟩, by simp [Driver.start] at h2 ⊢; omega, h2, hb, by simp [Driver.start]⟩

end Verif.Byacc
