import Verif.Proofs.BtControl
/-
The parser with backtracking stays within its arrays.
-/
set_option autoImplicit false
namespace Verif.Byacc
open Spec Relation

variable {V : Type} {P : BDriver V} {G : CFG} {nsyms n : Nat} {Item : Nat → Nat → Nat → Prop} {Trans : Nat → Nat → Nat → Prop}
  {code : Nat → Int} {t : BTables} {bound : Nat} {R : Prop}

/-- Tables whose entries, lists of alternatives included, all come from the automaton. -/
structure BTabSound (G : CFG) (nsyms n : Nat) (Item : Nat → Nat → Nat → Prop) (Trans : Nat → Nat → Nat → Prop)
    (code : Nat → Int) (t : BTables) : Prop where
  plain : TabSound G nsyms n Item Trans code t.toTables
  conflict : ∀ q, q < n → t.defred.getD q 0 = 0 → ∀ (x : Int) (e : Nat), 0 ≤ x → t.conflictOn q x = some e →
    ∃ X, X < G.ntok ∧ x = code X ∧ ∃ sh rules, Lists t.ctable e sh rules ∧ (sh = -1 ∨ 0 ≤ sh) ∧ (sh = -1 → rules ≠ []) ∧
      (∀ s : Nat, sh = s → X ≠ 0 ∧ Trans q X s) ∧
      (∀ r ∈ rules, 0 < r ∧ ∃ A α, G.rules[r]? = some (A, α) ∧ Item q r α.length)

/-- what an alternative is -/
theorem BTabSound.alt (T : BTabSound G nsyms n Item Trans code t) {q : Nat} (hq : q < n) (hd : t.defred.getD q 0 = 0) {x : Int}
    {e ctry : Nat} (hx : 0 ≤ x) (he : t.conflictOn q x = some e) {ch : Choice} (h : t.AltAt e ctry ch) :
    match ch with
    | .shift s => ∃ X, X < G.ntok ∧ X ≠ 0 ∧ x = code X ∧ Trans q X s
    | .reduce r => 0 < r ∧ ∃ A α, G.rules[r]? = some (A, α) ∧ Item q r α.length := by
  obtain ⟨X, hX, hxc, sh, rules, hl, -, -, h2, h3⟩ := T.conflict q hq hd x e hx he
  obtain ⟨g1, g2⟩ := altAt_of_lists hl
  cases ch with
  | shift s =>
    obtain ⟨-, h⟩ := h
    obtain ⟨k1, k2⟩ := h2 s (by rw [← g1]; exact h)
    exact ⟨X, hX, k1, hxc, k2⟩
  | reduce r =>
    obtain ⟨i, hi, -⟩ := h
    rw [g2] at hi
    exact h3 r (List.mem_of_getElem? hi)

/-- the first alternative -/
theorem BTabSound.first (T : BTabSound G nsyms n Item Trans code t) {q : Nat} (hq : q < n) (hd : t.defred.getD q 0 = 0) {x : Int}
    {e : Nat} (hx : 0 ≤ x) (he : t.conflictOn q x = some e) :
    ∃ ch, t.AltAt e (if t.ctable.getD e (-1) = -1 then e + 1 else e) ch ∧
      ∀ ctry' ch', t.AltAt e ctry' ch' → (if t.ctable.getD e (-1) = -1 then e + 1 else e) ≤ ctry' := by
  obtain ⟨X, hX, hxc, sh, rules, hl, h0, h1, -, -⟩ := T.conflict q hq hd x e hx he
  obtain ⟨g1, g2⟩ := altAt_of_lists hl
  by_cases hs : sh = -1
  · rw [g1, if_pos hs]
    cases hr : rules with
    | nil => exact absurd hr (h1 hs)
    | cons r l =>
      refine ⟨.reduce r, ⟨0, by rw [g2, hr]; rfl, rfl⟩, ?_⟩
      intro ctry' ch' h'
      cases ch' with
      | shift s => obtain ⟨-, h⟩ := h'; rw [g1, hs] at h; omega
      | reduce r => obtain ⟨i, -, rfl⟩ := h'; omega
  · rw [g1, if_neg hs]
    obtain ⟨k, rfl⟩ := Int.eq_ofNat_of_zero_le (h0.resolve_left hs)
    refine ⟨.shift k, ⟨rfl, g1⟩, ?_⟩
    intro ctry' ch' h'
    cases ch' with
    | shift s => obtain ⟨rfl, -⟩ := h'; omega
    | reduce r => obtain ⟨i, -, rfl⟩ := h'; omega

/-! ### the invariant of every parse -/

/-- A saved state. -/
structure SaveOK (Trans : Nat → Nat → Nat → Prop) (c : BCfg V) (s : Saved V) : Prop where
  spell : ∃ γ, Spell Trans γ (s.stack.map Prod.fst)
  fits : s.stack.length ≤ c.size
  lex : s.lexeme ≤ c.queue.length

/-- What holds in every round.  `R`: actions of the grammar may execute `YYERROR` in a trial. -/
structure BBase (G : CFG) (Item : Nat → Nat → Nat → Prop) (Trans : Nat → Nat → Nat → Prop) (R : Prop) (bound : Nat)
    (c : BCfg V) : Prop where
  base : Base Trans bound c.toCfg
  lvp : c.lvp ≤ c.queue.length
  prov : ∀ x, c.chr = some x → (c.saves ≠ [] ∨ c.lvp < c.queue.length) →
    ∃ p, c.queue[c.lvp - 1]? = some p ∧ 0 < c.lvp ∧ x = (if p.1 < 0 then 0 else p.1) ∧ c.lval = p.2
  saves : ∀ s ∈ c.saves, SaveOK Trans c s
  path : ∀ s ∈ c.path, SaveOK Trans c s
  one : c.saves = [] ∨ c.path = []
  ctx : ∀ e, c.errctx = some e → (∃ γ, Spell Trans γ (e.stack.map Prod.fst)) ∧ e.stack.length ≤ c.size ∧
    (R ∨ 0 < e.lexeme) ∧ e.lexeme ≤ c.queue.length
  noctx : c.saves = [] → c.errctx = none
  red : ∀ r, c.red = some r → c.saves ≠ [] ∧ c.chr = none ∧ ∃ q u rest, c.stack = (q, u) :: rest ∧ 0 < r ∧
    ∃ A α, G.rules[r]? = some (A, α) ∧ Item q r α.length

theorem SaveOK.mono {c c' : BCfg V} {s : Saved V} (h : SaveOK Trans c s) (h1 : c.size ≤ c'.size)
    (h2 : c.queue.length ≤ c'.queue.length) : SaveOK Trans c' s :=
  ⟨h.spell, le_trans h.fits h1, le_trans h.lex h2⟩

/-- the parts that do not change from round to round -/
theorem BBase.mono {c c' : BCfg V} (B : BBase G Item Trans R bound c) (h1 : c.size ≤ c'.size)
    (h2 : c.queue.length ≤ c'.queue.length) (hs : c'.saves = c.saves) (hp : c'.path = c.path) (he : c'.errctx = c.errctx)
    (hb : Base Trans bound c'.toCfg) (hl : c'.lvp ≤ c'.queue.length)
    (hprov : ∀ x, c'.chr = some x → (c'.saves ≠ [] ∨ c'.lvp < c'.queue.length) →
      ∃ p, c'.queue[c'.lvp - 1]? = some p ∧ 0 < c'.lvp ∧ x = (if p.1 < 0 then 0 else p.1) ∧ c'.lval = p.2)
    (hr : c'.red = none) : BBase G Item Trans R bound c' := by
  refine ⟨hb, hl, hprov, ?_, ?_, ?_, ?_, ?_, ?_⟩
  · intro s h; rw [hs] at h; exact (B.saves s h).mono h1 h2
  · intro s h; rw [hp] at h; exact (B.path s h).mono h1 h2
  · rw [hs, hp]; exact B.one
  · intro e h
    rw [he] at h
    obtain ⟨k1, k2, k3, k4⟩ := B.ctx e h
    exact ⟨k1, le_trans k2 h1, k3, le_trans k4 h2⟩
  · rw [hs, he]; exact B.noctx
  · intro r h; rw [hr] at h; cases h

/-- What a result may be. -/
def BResOK (G : CFG) (Item : Nat → Nat → Nat → Prop) (Trans : Nat → Nat → Nat → Prop) (R : Prop) (bound max : Nat) :
    BRes V → Prop
  | .next c => BBase G Item Trans R bound c
  | .done h c => h ≠ .badRead ∧ h ≠ .std .underflow ∧ h ≠ .std .badWrite ∧
      (h = .std .overflow → c.stack.length = c.size ∧ max ≤ c.size) ∧ c.stack.length ≤ c.size ∧ c.size ≤ bound

/-! ### reading -/

theorem bread_fields (c : BCfg V) : c.read.stack = c.stack ∧ c.read.errflag = c.errflag ∧ c.read.size = c.size ∧
    c.read.recover = c.recover ∧ c.read.log = c.log ∧ c.read.saves = c.saves ∧ c.read.path = c.path ∧
    c.read.errctx = c.errctx ∧ c.read.red = c.red ∧ c.queue.length ≤ c.read.queue.length ∧
    (∃ x, c.read.chr = some x ∧ (c.chr = none → 0 ≤ x)) := by
  unfold BCfg.read
  split
  · rename_i x hx
    exact ⟨rfl, rfl, rfl, rfl, rfl, rfl, rfl, rfl, rfl, le_refl _, x, hx, fun h => by rw [hx] at h; cases h⟩
  · rename_i hc
    split
    · exact ⟨rfl, rfl, rfl, rfl, rfl, rfl, rfl, rfl, rfl, le_refl _, _, rfl, fun _ => by split <;> omega⟩
    · split
      · split
        · exact ⟨rfl, rfl, rfl, rfl, rfl, rfl, rfl, rfl, rfl, by simp, 0, rfl, fun _ => le_refl _⟩
        · exact ⟨rfl, rfl, rfl, rfl, rfl, rfl, rfl, rfl, rfl, by simp, _, rfl, fun _ => by split <;> omega⟩
      · obtain ⟨f1, f2, f3, f4, f5, x, f6, f7⟩ := read_fields c.toCfg
        exact ⟨f1, f2, f3, f4, f5, rfl, rfl, rfl, rfl, le_refl _, x, f6, f7⟩

theorem BBase.read {c : BCfg V} (B : BBase G Item Trans R bound c) (hr : c.red = none) : BBase G Item Trans R bound c.read := by
  obtain ⟨f1, f2, f3, f4, f5, f6, f7, f8, f9, f10, x, hx, hx0⟩ := bread_fields c
  refine B.mono (by rw [f3]) f10 f6 f7 f8 ?_ ?_ ?_ (by rw [f9, hr])
  · refine ⟨by rw [f1]; exact B.base.spell, by rw [f1, f3]; exact B.base.fits, by rw [f3]; exact B.base.two,
      by rw [f3]; exact B.base.bnd, ?_⟩
    intro y hy
    cases hc : c.chr with
    | none => rw [hx] at hy; cases hy; exact hx0 hc
    | some z =>
      have : c.read = c := by unfold BCfg.read; rw [hc]
      rw [this] at hy
      exact B.base.chr y hy
  · have hl := B.lvp
    unfold BCfg.read
    split
    · exact hl
    · split
      · rename_i h
        have := (List.getElem?_eq_some_iff.1 h).1
        exact this
      · split
        · split <;> simp <;> omega
        · exact hl
  · have hp := B.prov
    unfold BCfg.read
    split
    · exact hp
    · split
      · rename_i p v h
        intro y hy hor
        cases hy
        exact ⟨_, by simpa using h, Nat.succ_pos _, rfl, rfl⟩
      · rename_i h
        have hle := B.lvp
        have hge : c.queue.length ≤ c.lvp := by simpa using h
        have hlen : c.lvp = c.queue.length := by omega
        split
        · split
          · intro y hy hor
            cases hy
            exact ⟨(0, c.lval), by simp [hlen], Nat.succ_pos _, rfl, rfl⟩
          · rename_i p v rest _
            intro y hy hor
            cases hy
            exact ⟨(p, v), by simp [hlen], Nat.succ_pos _, rfl, rfl⟩
        · rename_i htr
          intro y hy hor
          exfalso
          rcases hor with hor | hor
          · apply htr
            unfold BCfg.trial
            cases hs : c.saves with
            | nil => exact absurd hs hor
            | cons => rfl
          · simp only at hor; omega

/-! ### pushing -/

theorem note_fields (c : BCfg V) (e : Ev) : (c.note e) = { c with log := if c.trial then c.log else e :: c.log } := by
  unfold BCfg.note
  split <;> rfl

theorem lift_push (c : BCfg V) (d : Cfg V) (q : Nat) (v : V) (h1 : d.stack.length ≤ d.size) (h0 : 2 ≤ d.size) :
    (∃ n, c.lift (P.plain.push d q v) =
        .next { c with toCfg := { d with stack := (q, v) :: d.stack, size := n, log := if c.trial then c.log else d.log } } ∧
        d.size ≤ n ∧ d.stack.length + 1 ≤ n ∧ (n = d.size ∨ n ≤ P.max)) ∨
    (∃ c', c.lift (P.plain.push d q v) = .done (.std .overflow) c' ∧ c'.stack = d.stack ∧ c'.size = d.size ∧
      d.stack.length = d.size ∧ P.max ≤ d.size) := by
  rcases push_cases (P := P.plain) d q v h1 h0 with ⟨m, e1, e2, e3, e4⟩ | ⟨e1, e2, e3⟩
  · left
    refine ⟨m, ?_, e2, e3, e4⟩
    rw [e1]; rfl
  · right
    rw [e1]
    exact ⟨_, rfl, rfl, rfl, e2, e3⟩

/-- the end of a reduction -/
theorem BTabSound.finish (T : BTabSound G nsyms n Item Trans code P.t) {c : BCfg V} {r A q' s : Nat} {α below : List Nat} (v : V)
    (hr : G.rules[r]? = some (A, α)) (hd : (c.stack.map Prod.fst).drop α.length = s :: below)
    (ht : Trans s A q') (hz : s = 0 → below = []) (hA : G.ntok < A)
    (h1 : c.stack.length ≤ c.size) (h0 : 2 ≤ c.size) :
    (∃ n, P.finish c α.length (P.t.lhs.getD r 0) v =
        .next { c with stack := (q', v) :: c.stack.drop α.length, size := n } ∧ c.size ≤ n ∧
        (c.stack.drop α.length).length + 1 ≤ n ∧ (n = c.size ∨ n ≤ P.max) ∧ ¬ (s = 0 ∧ A = G.ntok + 1)) ∨
    (P.finish c α.length (P.t.lhs.getD r 0) v =
        .next { c with stack := (q', v) :: c.stack.drop α.length }.read ∧ s = 0 ∧ A = G.ntok + 1 ∧
        (c.stack.drop α.length).length = 1 ∧
        { c with stack := (q', v) :: c.stack.drop α.length }.read.chr ≠ some 0) ∨
    (P.finish c α.length (P.t.lhs.getD r 0) v =
        { c with stack := (q', v) :: c.stack.drop α.length }.read.accept ∧ s = 0 ∧ A = G.ntok + 1 ∧
        (c.stack.drop α.length).length = 1 ∧
        { c with stack := (q', v) :: c.stack.drop α.length }.read.chr = some 0) ∨
    (∃ c', P.finish c α.length (P.t.lhs.getD r 0) v = .done (.std .overflow) c' ∧ c'.stack.length = c.size ∧ c'.size = c.size ∧
      (c.stack.drop α.length).length = c.size ∧ P.max ≤ c.size) := by
  have hlen : (c.stack.drop α.length).length ≤ c.stack.length := by simp
  rw [T.plain.lhs r A α hr]
  unfold BDriver.finish
  rw [← List.map_drop] at hd
  cases hst : c.stack.drop α.length with
  | nil => rw [hst] at hd; simp at hd
  | cons p rest =>
    obtain ⟨s', u⟩ := p
    rw [hst] at hd hlen
    simp only [List.map_cons, List.cons.injEq] at hd
    obtain ⟨rfl, rfl⟩ := hd
    simp only
    have hiff : (s' = 0 ∧ (A : Int) - G.ntok - 1 = 0) ↔ (s' = 0 ∧ A = G.ntok + 1) := by
      constructor <;> rintro ⟨e1, e2⟩ <;> exact ⟨e1, by omega⟩
    by_cases hf : s' = 0 ∧ A = G.ntok + 1
    · rw [if_pos (hiff.2 hf)]
      obtain ⟨rfl, rfl⟩ := hf
      have hb : rest = [] := by simpa using hz rfl
      subst hb
      have hq : q' = P.t.final := T.plain.A.det ht T.plain.final
      subst hq
      simp only [Cfg.write]
      rw [if_pos (by simp; omega)]
      simp only
      right
      by_cases hc : ({ c with stack := (P.t.final, v) :: (0, u) :: [] } : BCfg V).read.chr = some 0
      · rw [if_pos hc]
        exact .inr (.inl ⟨rfl, trivial, trivial, rfl, hc⟩)
      · rw [if_neg hc]
        exact .inl ⟨rfl, trivial, trivial, rfl, hc⟩
    · rw [if_neg (by rw [hiff]; exact hf), T.plain.goto s' A q' hA ht]
      rcases lift_push (P := P) ({ c with stack := (s', u) :: rest } : BCfg V) ({ c.toCfg with stack := (s', u) :: rest } : Cfg V) q' v
        (by simp only; omega) h0 with ⟨m, e1, e2, e3, e4⟩ | ⟨c', e1, e2, e3, e4, e5⟩
      · left
        refine ⟨m, ?_, e2, e3, e4, hf⟩
        rw [e1]
        simp only [ite_self]
      · exact .inr (.inr (.inr ⟨c', e1, by rw [e2]; exact e4, e3, e4, e5⟩))

/-! ### the ends of rounds -/

theorem BBase.stack_ne {c : BCfg V} (B : BBase G Item Trans R bound c) : ∃ q u rest, c.stack = (q, u) :: rest := by
  obtain ⟨γ, hγ⟩ := B.base.spell
  cases hs : c.stack with
  | nil => rw [hs] at hγ; exact absurd rfl hγ.ne_nil
  | cons p l => exact ⟨p.1, p.2, l, rfl⟩

theorem valid_ok {c : BCfg V} {max : Nat} (B : BBase G Item Trans R bound c) (hr : c.red = none) (htr : c.saves ≠ []) :
    BResOK G Item Trans R bound max c.valid := by
  unfold BCfg.valid
  split
  · exact ⟨by simp, by simp, by simp, by simp, B.base.fits, B.base.bnd⟩
  · rename_i hp
    split
    · rename_i hs
      exact absurd (by simpa using hs) htr
    · rename_i s rest hs
      have hmem : ∀ x ∈ s :: rest, x ∈ c.saves := by
        intro x hx
        rw [← hs] at hx
        simpa using hx
      have hS := B.saves s (hmem s (by simp))
      refine ⟨⟨hS.spell, hS.fits, B.base.two, B.base.bnd, by simp⟩, hS.lex, by simp, by simp, ?_, .inl rfl, by simp, by simp, ?_⟩
      · intro x hx
        exact (B.saves x (hmem x hx)).mono (le_refl _) (le_refl _)
      · intro r h
        simp only [hr] at h
        cases h

theorem trial_iff (c : BCfg V) : c.trial = true ↔ c.saves ≠ [] := by
  unfold BCfg.trial
  cases c.saves <;> simp

theorem accept_ok {c : BCfg V} {max : Nat} (B : BBase G Item Trans R bound c) (hr : c.red = none) :
    BResOK G Item Trans R bound max c.accept := by
  unfold BCfg.accept
  split
  · rename_i h
    exact valid_ok B hr ((trial_iff c).1 h)
  · exact ⟨by simp, by simp, by simp, by simp, B.base.fits, B.base.bnd⟩

/-- the configuration at the start of a reduction -/
theorem BBase.start_red {c : BCfg V} (B : BBase G Item Trans R bound c) (e : Ev) :
    BBase G Item Trans R bound { c.note e with red := none } := by
  rw [note_fields]
  exact B.mono (le_refl _) (le_refl _) rfl rfl rfl ⟨B.base.spell, B.base.fits, B.base.two, B.base.bnd, B.base.chr⟩ B.lvp B.prov rfl

theorem BTabSound.finish_ok (T : BTabSound G nsyms n Item Trans code P.t) {c : BCfg V} (B : BBase G Item Trans R bound c)
    (hred : c.red = none) (hmax : P.max ≤ bound) {q : Nat} {u : V} {rest : List (Nat × V)} (hst : c.stack = (q, u) :: rest) {r A : Nat} {α : List Nat}
    (hr : G.rules[r]? = some (A, α)) (hi : Item q r α.length) (h0 : 0 < r) (v : V) :
    BResOK G Item Trans R bound P.max (P.finish c α.length (P.t.lhs.getD r 0) v) := by
  obtain ⟨γ, hγ⟩ := B.base.spell
  have hst' : c.stack.map Prod.fst = q :: rest.map Prod.fst := by rw [hst]; rfl
  obtain ⟨δ, s, below, q', hγ', hd, hδ, ht, hz, hA⟩ := TabSound.shape (P := P.plain) T.plain (hst' ▸ hγ) hr hi h0
  rw [← hst'] at hd
  have hfits := B.base.fits
  have hbnd := B.base.bnd
  have htwo := B.base.two
  have hsp : Spell Trans (A :: δ) (q' :: (c.stack.drop α.length).map Prod.fst) := by
    rw [List.map_drop, hd]; exact .cons hδ ht
  have hdl : (c.stack.drop α.length).length = c.stack.length - α.length := by simp
  have hb2 : ∀ m, (c.stack.drop α.length).length + 1 ≤ m → c.size ≤ m → m ≤ bound →
      BBase G Item Trans R bound { c with stack := (q', v) :: c.stack.drop α.length, size := m } := by
    intro m h1 h2 h3
    exact B.mono h2 (le_refl _) rfl rfl rfl ⟨⟨_, hsp⟩, by simpa using h1, by simp only; omega, h3, B.base.chr⟩ B.lvp B.prov hred
  rcases T.finish v hr hd ht (fun e => (hz e).1) hA B.base.fits B.base.two with
    ⟨m, e, e1, e2, e3, -⟩ | ⟨e, -, -, e1, -⟩ | ⟨e, -, -, e1, -⟩ | ⟨c', e, e1, e2, e3, e4⟩
  · rw [e]
    exact hb2 m e2 e1 (by omega)
  · rw [e]
    exact (hb2 c.size (by omega) (le_refl _) hbnd).read hred
  · rw [e]
    refine accept_ok ((hb2 c.size (by omega) (le_refl _) hbnd).read hred) ?_
    rw [(bread_fields _).2.2.2.2.2.2.2.2.1]
    exact hred
  · rw [e]
    exact ⟨by simp, by simp, by simp, fun _ => ⟨by omega, by omega⟩, by omega, by omega⟩

theorem lift_push_ok (c : BCfg V) (d : Cfg V) (B : BBase G Item Trans R bound c) (hmax : P.max ≤ bound)
    {q : Nat} {u : V} {rest : List (Nat × V)} (hst : d.stack = (q, u) :: rest) (hdc : d.stack = c.stack) (hds : d.size = c.size)
    (hchr : d.chr = none) (hred : c.red = none) {X s : Nat} (ht : Trans q X s) (v : V) :
    BResOK G Item Trans R bound P.max (c.lift (P.plain.push d s v)) := by
  obtain ⟨γ, hγ⟩ := B.base.spell
  have hbnd := B.base.bnd
  have htwo := B.base.two
  rcases lift_push (P := P) c d s v (by rw [hdc, hds]; exact B.base.fits) (by rw [hds]; exact htwo) with
    ⟨m, e1, e2, e3, e4⟩ | ⟨c', e1, e2, e3, e4, e5⟩
  · rw [e1]
    refine B.mono (by simp only; omega) (le_refl _) rfl rfl rfl ⟨⟨X :: γ, ?_⟩, by simpa using e3, by simp only; omega, by simp only; omega, ?_⟩
      B.lvp ?_ hred
    · rw [← hdc, hst] at hγ
      simp only [hst, List.map_cons]
      exact .cons hγ ht
    · simp [hchr]
    · simp [hchr]
  · rw [e1]
    exact ⟨by simp, by simp, by simp, fun _ => ⟨by rw [e2, e3]; exact e4, by rw [e3]; exact e5⟩,
      by rw [e2, e3]; omega, by rw [e3, hds]; exact hbnd⟩

end Verif.Byacc
