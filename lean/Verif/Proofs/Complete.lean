import Verif.Proofs.Sound
import Verif.Proofs.Licensed
/-
With tables that contain every licensed action, the parser follows the licensed moves.
-/
set_option autoImplicit false
namespace Verif.Byacc
open Spec Relation

variable {V : Type} {G : CFG} {nsyms n : Nat} {Item Trans : _} {code : Nat → Int} {t : Tables}

/-- Tables that contain every action licensed by the grammar, and no other for the same token. -/
structure TabComplete (G : CFG) (Trans : Nat → Nat → Nat → Prop) (code : Nat → Int) (t : Tables) : Prop where
  shift : ∀ q X y, X < G.ntok → Trans q X y → t.defred.getD q 0 = 0 ∧ t.shiftOn q (code X) = some y
  reduce : ∀ (q r A : Nat) (α γ z : List Nat) (X : Nat), Path Trans 0 γ q → G.rules[r]? = some (A, α) →
    Ctx G byaccInit γ r α.length z → Fst G z X → 0 < r ∧ (t.defred.getD q 0 = r ∨
      (t.defred.getD q 0 = 0 ∧ t.shiftOn q (code X) = none ∧ t.reduceOn q (code X) = some r))

/-- the codes still to be shifted, with the end marker -/
def Cfg.rest (c : Cfg V) : List Int := c.pending.map Prod.fst ++ [0]

structure Rel (G : CFG) (Trans : Nat → Nat → Nat → Prop) (code : Nat → Int) (γ v : List Nat) (c : Cfg V) : Prop where
  spell : Spell Trans γ.reverse (c.stack.map Prod.fst)
  errflag : c.errflag = 0
  recover : c.recover = false
  rest : c.rest = v.map code
  toks : ∀ X ∈ v, X < G.ntok
  goal : γ = [G.ntok + 1] → ∃ x, c.chr = some x ∧ x ≠ 0

theorem read_rest (c : Cfg V) : c.read.rest = c.rest ∧
    ∃ x l, c.read.chr = some x ∧ c.rest = x :: l ∧ (x ≠ 0 → l = (tokensOf c.read.input).map Prod.fst ++ [0]) ∧
      (x = 0 → l = []) := by
  have h := read_pending c
  obtain ⟨-, -, -, -, -, x, hx, -⟩ := read_fields c
  refine ⟨by unfold Cfg.rest; rw [h], ?_⟩
  unfold Cfg.rest
  rw [← h]
  unfold Cfg.pending
  rw [hx]
  by_cases h0 : x = 0
  · subst h0; exact ⟨0, [], rfl, by simp, by simp, by simp⟩
  · exact ⟨x, _, rfl, by simp only; rw [if_neg h0]; rfl, fun _ => rfl, fun h => absurd h h0⟩

theorem run_step {P : Driver V} {c c1 : Cfg V} (h : P.step c = .next c1) (k : Nat) : P.run (k+1) c = P.run k c1 := by
  rw [Driver.run, h]

/-- The stack spells `γ`, no error has happened, and the start symbol alone on the stack means that there is a token. -/
structure Mid (G : CFG) (Trans : Nat → Nat → Nat → Prop) (γ : List Nat) (c : Cfg V) : Prop where
  spell : Spell Trans γ.reverse (c.stack.map Prod.fst)
  errflag : c.errflag = 0
  recover : c.recover = false
  goal : γ = [G.ntok + 1] → ∃ x, c.chr = some x ∧ x ≠ 0

/-- pushing the left-hand side after a licensed reduction -/
theorem reduce_core {P : Driver V} (ht : P.t = t) (T : TabSound G nsyms n Item Trans code t)
    (hval : ∀ r d st, ∃ v, P.act r d st = .val v) {bound : Nat} {c : Cfg V} (B : Base Trans bound c) (hmax : P.max ≤ bound)
    {δ α z : List Nat} {r A q : Nat} {u : V} {tl : List (Nat × V)} (h0 : 0 < r)
    (R : Mid G Trans (δ ++ α) c) (hst : c.stack = (q, u) :: tl)
    (hr : G.rules[r]? = some (A, α)) (hz : Ctx G byaccInit (δ ++ α) r α.length z) :
    (∃ c', P.reduce c r = .next c' ∧ Base Trans bound c' ∧ Mid G Trans (δ ++ [A]) c' ∧ c'.rest = c.rest ∧
        c'.log = .reduce r :: c.log) ∨
    (∃ c', P.reduce c r = .done .accept c' ∧ c'.log = .reduce r :: c.log) ∨
    (∃ c', P.reduce c r = .done .overflow c' ∧ c'.log = .reduce r :: c.log ∧ P.max < δ.length + 2) := by
  subst ht
  have hst' : c.stack.map Prod.fst = q :: tl.map Prod.fst := by rw [hst]; rfl
  have hpath : Path Trans 0 (δ ++ α) q := by
    have := R.spell.path hst'
    simpa using this
  have hi : Item q r α.length := (T.A.item_valid hpath r α.length).2 ⟨z, hz⟩
  obtain ⟨δ', s, below, q', hγ', hd, hδ, htr, hzero, hA⟩ := T.shape (hst' ▸ R.spell) hr hi h0
  have hδ' : δ' = δ.reverse := by
    rw [List.reverse_append] at hγ'
    exact (List.append_cancel_left hγ').symm
  subst hδ'
  rw [← hst'] at hd
  have hlen : ¬ c.stack.length ≤ α.length := by
    intro hle
    have : (c.stack.map Prod.fst).drop α.length = [] := List.drop_eq_nil_of_le (by simpa using hle)
    rw [this] at hd
    cases hd
  have hbase := T.reduce_base B hmax hst hr hi h0
  have hlog : (P.reduce c r).cfg.log = .reduce r :: c.log := by
    unfold Driver.reduce
    simp only [T.len r A α hr, Int.toNat_natCast]
    rw [if_neg hlen]
    obtain ⟨v', hv⟩ := hval r (if α.length = 0 then P.zero else (c.stack.map Prod.snd).getD (α.length - 1) P.zero)
      (c.stack.map Prod.snd)
    rw [hv]
    simp only
    rw [finish_log]
  have hdl : (c.stack.drop α.length).length = δ.length + 1 := by
    have := hδ.length
    rw [← hd] at this
    simpa using this
  obtain ⟨v', hv⟩ := hval r (if α.length = 0 then P.zero else (c.stack.map Prod.snd).getD (α.length - 1) P.zero)
      (c.stack.map Prod.snd)
  have hred : P.reduce c r = P.finish { c with log := .reduce r :: c.log } α.length (P.t.lhs.getD r 0) v' := by
    unfold Driver.reduce
    simp only [T.len r A α hr, Int.toNat_natCast]
    rw [if_neg hlen, hv]
  have hsp : Spell Trans (δ ++ [A]).reverse (q' :: (c.stack.drop α.length).map Prod.fst) := by
    rw [List.map_drop, hd]
    simpa using Spell.cons hδ htr
  rcases T.finish (c := { c with log := .reduce r :: c.log }) v' hr hd htr (fun e => (hzero e).1) hA B.fits B.two with
      ⟨m, e, e1, e2, e3, e4⟩ | ⟨e, e0, eA, e1, e2⟩ | ⟨e, -⟩ | ⟨e, e1, e2⟩
  · left
    refine ⟨_, hred.trans e, ?_, ?_, rfl, rfl⟩
    · have := hbase
      rw [hred, e] at this
      exact this
    · refine ⟨hsp, R.errflag, R.recover, ?_⟩
      intro hg
      exfalso
      apply e4
      have hδnil : δ = [] := by
        have := congrArg List.length hg
        simp only [List.length_append, List.length_cons, List.length_nil] at this
        exact List.eq_nil_of_length_eq_zero (by omega)
      subst hδnil
      simp only [List.nil_append, List.cons.injEq, and_true] at hg
      refine ⟨?_, hg⟩
      generalize hg0 : ([] : List Nat).reverse = g0 at hδ
      generalize hg1 : s :: below = g1 at hδ
      cases hδ with
      | nil => simpa using congrArg List.head? hg1
      | cons => simp at hg0
  · left
    refine ⟨_, hred.trans e, ?_, ?_, ?_, ?_⟩
    · have := hbase
      rw [hred, e] at this
      exact this
    · obtain ⟨f1, f2, f3, f4, f5, f6⟩ := read_fields ({ c with log := .reduce r :: c.log, stack := (q', v') :: c.stack.drop α.length } : Cfg V)
      refine ⟨by rw [f1]; exact hsp, by rw [f2]; exact R.errflag, by rw [f4]; exact R.recover, fun _ => ?_⟩
      obtain ⟨x, hx, -⟩ := f6
      exact ⟨x, hx, fun h0 => e2 (by rw [hx, h0])⟩
    · obtain ⟨g1, g3⟩ := read_rest ({ c with log := .reduce r :: c.log, stack := (q', v') :: c.stack.drop α.length } : Cfg V)
      exact g1
    · rw [read_log]
  · right; left
    exact ⟨_, hred.trans e, by rw [read_log]⟩
  · right; right
    simp only at e1 e2
    exact ⟨_, hred.trans e, rfl, by omega⟩

/-- the same, with enough room on the stack -/
theorem reduce_sim {P : Driver V} (ht : P.t = t) (T : TabSound G nsyms n Item Trans code t)
    (hval : ∀ r d st, ∃ v, P.act r d st = .val v) {bound : Nat} {c : Cfg V} (B : Base Trans bound c) (hmax : P.max ≤ bound)
    {δ α v z : List Nat} {r A X q : Nat} {u : V} {tl : List (Nat × V)} (h0 : 0 < r)
    (R : Rel G Trans code (δ ++ α) (X :: v) c) (hst : c.stack = (q, u) :: tl)
    (hr : G.rules[r]? = some (A, α)) (hz : Ctx G byaccInit (δ ++ α) r α.length z)
    (hroom : δ.length + 2 ≤ P.max) :
    (∃ c', P.reduce c r = .next c' ∧ Base Trans bound c' ∧ Rel G Trans code (δ ++ [A]) (X :: v) c' ∧
        c'.log = .reduce r :: c.log) ∨
    (∃ c', P.reduce c r = .done .accept c' ∧ c'.log = .reduce r :: c.log) := by
  rcases reduce_core ht T hval B hmax h0 ⟨R.spell, R.errflag, R.recover, R.goal⟩ hst hr hz with
      ⟨c', e1, e2, e3, e4, e5⟩ | h | ⟨_, -, -, h⟩
  · exact .inl ⟨c', e1, e2, ⟨e3.spell, e3.errflag, e3.recover, by rw [e4]; exact R.rest, R.toks, e3.goal⟩, e5⟩
  · exact .inr h
  · omega

theorem Rel.read {γ v : List Nat} {c : Cfg V} (R : Rel G Trans code γ v c) : Rel G Trans code γ v c.read := by
  obtain ⟨f1, f2, f3, f4, f5, f6⟩ := read_fields c
  obtain ⟨g1, g3⟩ := read_rest c
  refine ⟨by rw [f1]; exact R.spell, by rw [f2]; exact R.errflag, by rw [f4]; exact R.recover, by rw [g1]; exact R.rest,
    R.toks, fun hg => ?_⟩
  obtain ⟨x, hx, h0⟩ := R.goal hg
  have : c.read = c := by unfold Cfg.read; rw [hx]
  rw [this]
  exact ⟨x, hx, h0⟩

/-- Following licensed moves to the goal, the parser accepts. -/
theorem simulate (T : TabSound G nsyms n Item Trans code t) (TC : TabComplete G Trans code t) {rs : List Nat}
    {a b : List Nat × List Nat} (h : Lic G byaccInit rs a b) (hb : b = ([G.ntok + 1], [0])) :
    ∃ D, ∀ P : Driver V, P.t = t → (∀ r d st, ∃ v, P.act r d st = .val v) → D ≤ P.max → ∀ (c : Cfg V) (bound : Nat),
      Base Trans bound c → P.max ≤ bound → Rel G Trans code a.1 a.2 c →
      ∃ k c', P.run k c = .done .accept c' ∧ (.report ∈ c'.log → .report ∈ c.log) := by
  induction h with
  | refl c =>
    refine ⟨0, ?_⟩
    intro P ht hval hD c' bound B hmax R
    exfalso
    rw [hb] at R
    obtain ⟨x, hc, hx⟩ := R.goal rfl
    have hrest := R.rest
    simp only [List.map_cons, List.map_nil, T.code0] at hrest
    unfold Cfg.rest Cfg.pending at hrest
    rw [hc] at hrest
    simp only at hrest
    rw [if_neg hx] at hrest
    have := congrArg List.length hrest
    simp at this
  | @shift rs γ v z α r d A X c hz hr hX hlt h ih =>
    obtain ⟨D, hD⟩ := ih hb
    refine ⟨max D (γ.length + 2), ?_⟩
    intro P ht hval hDm c0 bound B hmax R
    simp only at R
    subst ht
    have hnil := R.spell.ne_nil
    cases hst : c0.stack with
    | nil => rw [hst] at hnil; exact absurd rfl hnil
    | cons p tl =>
    obtain ⟨q, u⟩ := p
    have hpath : Path Trans 0 γ q := by
      have := R.spell.path (q := q) (ss' := tl.map Prod.fst) (by rw [hst]; rfl)
      simpa using this
    have hq := B.top T.A hst
    obtain ⟨f1, f2, f3, f4, f5, f6⟩ := read_fields c0
    obtain ⟨g1, x, l, gx, gr, gl, gz⟩ := read_rest c0
    have hxl : x = code X ∧ l = v.map code := by
      have := R.rest
      rw [gr] at this
      simpa using this
    obtain ⟨rfl, rfl⟩ := hxl
    have hX0 : X ≠ 0 := by
      rintro rfl
      have hv : v = [] := by
        simpa using gz T.code0
      subst hv
      have := h.nil_end
      rw [hb] at this
      simp at this
    have hcX : code X ≠ 0 := by
      intro e
      exact hX0 (T.inj X 0 hlt T.wf.ntok (by rw [e, T.code0]))
    obtain ⟨y, hy⟩ := (T.A.ex q X hq).2 ⟨hX0, r, d, (T.A.item_valid hpath r d).2 ⟨z, hz⟩, A, α, hr, hX⟩
    obtain ⟨hdef, hsh⟩ := TC.shift q X y hlt hy
    have BR := B.read
    have hsl : c0.stack.length = γ.length + 1 := by
      have := R.spell.length
      simpa using this
    have hst' : c0.read.stack = (q, u) :: tl := by rw [f1, hst]
    have hstep : P.step c0 = P.push { c0.read with chr := none, errflag := c0.read.errflag - 1, log := .shift (code X) :: c0.read.log }
        y c0.read.lval := by
      unfold Driver.step
      rw [hst]
      simp only
      rw [if_neg (by rw [R.recover]; simp), if_neg (by rw [hdef]; simp)]
      simp only [gx, Option.getD_some, hsh]
    rcases push_cases (P := P) ({ c0.read with chr := none, errflag := c0.read.errflag - 1, log := .shift (code X) :: c0.read.log } : Cfg V)
        y c0.read.lval BR.fits BR.two with ⟨m, e1, e2, e3, e4⟩ | ⟨e1, e2, e3⟩
    · rw [e1] at hstep
      have hbase := T.step_base B hmax
      rw [hstep] at hbase
      obtain ⟨k, c', hk, hlog⟩ := hD P rfl hval (le_trans (Nat.le_max_left _ _) hDm) _ bound hbase hmax
        ⟨by
          simp only [hst', List.map_cons, List.reverse_append, List.reverse_cons, List.reverse_nil, List.nil_append, List.cons_append]
          have := R.spell
          rw [hst] at this
          exact .cons this hy, by simp only; rw [f2, R.errflag], by simp only; rw [f4]; exact R.recover,
          by simp only [Cfg.rest, Cfg.pending]; exact (gl hcX).symm, fun Y hY => R.toks Y (by simp [hY]), by
          intro hg
          exfalso
          have hγ : γ = [] := by
            have := congrArg List.length hg
            simp only [List.length_append, List.length_cons, List.length_nil] at this
            exact List.eq_nil_of_length_eq_zero (by omega)
          subst hγ
          simp only [List.nil_append, List.cons.injEq, and_true] at hg
          omega⟩
      refine ⟨k+1, c', by rw [run_step hstep]; exact hk, ?_⟩
      intro hr
      have := hlog hr
      simpa [f5] using this
    · exfalso
      simp only [f1, f3] at e2 e3
      have := le_trans (Nat.le_max_right _ _) hDm
      omega
  | @reduce rs δ v z α r A X c hz hr hf h ih =>
    obtain ⟨D, hD⟩ := ih hb
    refine ⟨max D (δ.length + 2), ?_⟩
    intro P ht hval hDm c0 bound B hmax R
    simp only at R
    subst ht
    have hroom := le_trans (Nat.le_max_right _ _) hDm
    have hDm' := le_trans (Nat.le_max_left _ _) hDm
    have hnil := R.spell.ne_nil
    cases hst : c0.stack with
    | nil => rw [hst] at hnil; exact absurd rfl hnil
    | cons p tl =>
    obtain ⟨q, u⟩ := p
    have hpath : Path Trans 0 (δ ++ α) q := by
      have := R.spell.path (q := q) (ss' := tl.map Prod.fst) (by rw [hst]; rfl)
      simpa using this
    obtain ⟨h0, hcase⟩ := TC.reduce q r A α (δ ++ α) z X hpath hr hz hf
    have key : ∃ c1, P.step c0 = P.reduce c1 r ∧ Base Trans bound c1 ∧ Rel G Trans code (δ ++ α) (X :: v) c1 ∧
        c1.stack = (q, u) :: tl ∧ c1.log = c0.log := by
      rcases hcase with hdef | ⟨hdef, hsh, hre⟩
      · refine ⟨c0, ?_, B, R, hst, rfl⟩
        unfold Driver.step
        rw [hst]
        simp only
        rw [if_neg (by rw [R.recover]; simp), if_pos (by rw [hdef]; omega), hdef]
      · obtain ⟨f1, f2, f3, f4, f5, f6⟩ := read_fields c0
        obtain ⟨g1, x, l, gx, gr, gl, gz⟩ := read_rest c0
        have hxl : x = code X := by
          have := R.rest
          rw [gr] at this
          simp only [List.map_cons, List.cons.injEq] at this
          exact this.1
        subst hxl
        refine ⟨c0.read, ?_, B.read, R.read, by rw [f1, hst], f5⟩
        unfold Driver.step
        rw [hst]
        simp only
        rw [if_neg (by rw [R.recover]; simp), if_neg (by rw [hdef]; simp)]
        simp only [gx, Option.getD_some, hsh, hre]
    obtain ⟨c1, hstep, B1, R1, hst1, hlog1⟩ := key
    rcases reduce_sim rfl T hval B1 hmax h0 R1 hst1 hr hz hroom with ⟨c', e1, e2, e3, e4⟩ | ⟨c', e1, e2⟩
    · obtain ⟨k, c'', hk, hlog⟩ := hD P rfl hval hDm' c' bound e2 hmax e3
      refine ⟨k+1, c'', by rw [run_step (hstep.trans e1)]; exact hk, ?_⟩
      intro hrep
      have := hlog hrep
      rw [e4, hlog1] at this
      simpa using this
    · refine ⟨1, c', ?_, ?_⟩
      · simp only [Driver.run]
        rw [hstep, e1]
      · rw [e2, hlog1]; simp

end Verif.Byacc
