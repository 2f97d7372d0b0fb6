import Verif.Lemon.Actions
import Verif.Spec.LemonConflict
import Verif.Proofs.Msort
/-
Proofs about `FindActions` and `resolve_conflict`.
-/
set_option autoImplicit false
namespace Verif.Lemon

variable {g : Gram} {ps : Nat → Option Nat}

theorem Count.zero_add (c : Count) : Count.zero.add c = c := by cases c; simp [Count.zero, Count.add]
theorem Count.add_zero (c : Count) : c.add Count.zero = c := by cases c; simp [Count.zero, Count.add]
theorem Count.add_assoc (a b c : Count) : (a.add b).add c = a.add (b.add c) := by
  cases a; cases b; cases c; simp only [Count.add, Count.mk.injEq]; omega

/-- not settled yet -/
def Act.live (a : Act) : Bool := !a.type.settled

/-- the competitor an action is -/
def Act.cand (a : Act) : Option Cand :=
  match a.type with
  | .SHIFT => some (.shift a.x)
  | .REDUCE => some (.reduce a.x)
  | .ACCEPT => some .accept
  | _ => none

/-- precedence of rules by their precedence symbol -/
def rulePrecs (g : Gram) (ps : Nat → Option Nat) (r : Nat) : Option Int := (ps r).bind g.precOf

/-- the precedence table for symbol `t` -/
def gduel (g : Gram) (ps : Nat → Option Nat) (t : Nat) : Cand → Cand → Duel :=
  duel (g.precOf t) (g.assoc t) (rulePrecs g ps)

def dead (x : Act) (t : AType) : Act := { x with type := t }

theorem optPrec_neg {r : Nat} : g.optPrec (ps r) < 0 ↔ rulePrecs g ps r = none := by
  unfold Gram.optPrec rulePrecs Gram.precOf
  cases ps r with
  | none => simp
  | some p => simp

theorem optPrec_some {r : Nat} {p : Int} (h : rulePrecs g ps r = some p) : g.optPrec (ps r) = p := by
  unfold rulePrecs Gram.precOf at h
  unfold Gram.optPrec
  cases hp : ps r with
  | none => rw [hp] at h; simp at h
  | some q =>
    rw [hp] at h
    simp only [Option.bind_some] at h
    split at h
    · cases h
    · simpa using h

theorem precOf_neg {t : Nat} : g.prec t < 0 ↔ g.precOf t = none := by unfold Gram.precOf; simp

theorem precOf_some {t : Nat} {p : Int} (h : g.precOf t = some p) : g.prec t = p := by
  unfold Gram.precOf at h
  split at h
  · cases h
  · simpa using h

/-- `resolve_conflict` on two actions that are not settled -/
theorem resolve_live {x y : Act} {c d : Cand} (hx : x.cand = some c) (hy : y.cand = some d) :
    match gduel g ps x.sp c d with
    | .first => ∃ t, t.settled = true ∧ resolveConflict g ps x y = some (x, dead y t, .zero)
    | .second => ∃ t, t.settled = true ∧ resolveConflict g ps x y = some (dead x t, y, .zero)
    | .conflict => ∃ t, t.settled = true ∧ resolveConflict g ps x y = some (x, dead y t, conflictCount c d)
    | .neither => resolveConflict g ps x y = some (dead x .ERROR, y, .zero)
    | .abort => resolveConflict g ps x y = none := by
  obtain ⟨sx, tx, xx, ix⟩ := x
  obtain ⟨sy, ty, xy, iy⟩ := y
  cases tx <;> cases ty <;> simp only [Act.cand, Option.some.injEq, reduceCtorEq] at hx hy <;> subst hx <;> subst hy
  all_goals unfold resolveConflict gduel duel dead
  · exact ⟨.SSCONFLICT, rfl, rfl⟩
  · rfl
  · simp only [beq_iff_eq, reduceCtorEq, Bool.and_false, Bool.false_eq_true, ite_false, Bool.and_self, ite_true, Bool.true_and,
      decide_true, decide_false, Bool.and_true, beq_self_eq_true, AType.settled]
    have e1 := @optPrec_neg g ps xy
    have e2 := @precOf_neg g sx
    cases h1 : g.precOf sx with
    | none => 
      simp only [h1, iff_true] at e2
      simp only [e2, decide_true, Bool.or_true, ite_true]
      exact ⟨.SRCONFLICT, rfl, rfl⟩
    | some p =>
      cases h2 : rulePrecs g ps xy with
      | none =>
        simp only [h2, iff_true] at e1
        simp only [e1, decide_true, Bool.true_or, ite_true]
        exact ⟨.SRCONFLICT, rfl, rfl⟩
      | some q =>
        simp only [h2, reduceCtorEq, iff_false] at e1
        simp only [h1, reduceCtorEq, iff_false] at e2
        simp only [e1, e2, decide_false, Bool.or_self, Bool.false_eq_true, ite_false]
        rw [precOf_some h1, optPrec_some h2]
        by_cases hlt : q < p
        · simp only [gt_iff_lt, hlt, ite_true]
          exact ⟨.RD_RESOLVED, rfl, rfl⟩
        · by_cases hgt : p < q
          · simp only [gt_iff_lt, hlt, hgt, ite_true, ite_false]
            exact ⟨.SH_RESOLVED, rfl, rfl⟩
          · simp only [gt_iff_lt, hlt, hgt, ite_false]
            cases g.assoc sx <;> simp [AType.settled]
            all_goals first
              | exact ⟨.RD_RESOLVED, rfl, rfl⟩
              | exact ⟨.SH_RESOLVED, rfl, rfl⟩
  · rfl
  · rfl
  · rfl
  · rfl
  · rfl
  · simp only [beq_iff_eq, reduceCtorEq, Bool.and_false, Bool.false_eq_true, ite_false, Bool.and_self, ite_true, Bool.true_and,
      decide_true, decide_false, Bool.and_true, beq_self_eq_true, AType.settled]
    have e1 := @optPrec_neg g ps xx
    have e2 := @optPrec_neg g ps xy
    cases h1 : rulePrecs g ps xx with
    | none => 
      simp only [h1, iff_true] at e1
      simp only [e1, decide_true, Bool.true_or, ite_true]
      exact ⟨.RRCONFLICT, rfl, rfl⟩
    | some p =>
      cases h2 : rulePrecs g ps xy with
      | none =>
        simp only [h2, iff_true] at e2
        simp only [e2, decide_true, Bool.true_or, Bool.or_true, ite_true]
        exact ⟨.RRCONFLICT, rfl, rfl⟩
      | some q =>
        simp only [h1, reduceCtorEq, iff_false] at e1
        simp only [h2, reduceCtorEq, iff_false] at e2
        simp only [e1, e2, decide_false, Bool.false_or, Bool.false_eq_true, ite_false]
        rw [optPrec_some h1, optPrec_some h2]
        by_cases hlt : q < p
        · have : ¬ p = q := by omega
          have hb : (p == q) = false := by simpa using this
          simp only [gt_iff_lt, hlt, hb, Bool.false_eq_true, ite_true, ite_false]
          exact ⟨.RD_RESOLVED, rfl, rfl⟩
        · by_cases hgt : p < q
          · have : ¬ p = q := by omega
            have hb : (p == q) = false := by simpa using this
            simp only [gt_iff_lt, hlt, hgt, hb, Bool.false_eq_true, ite_true, ite_false]
            exact ⟨.RD_RESOLVED, rfl, rfl⟩
          · have hb : (p == q) = true := by simp; omega
            simp only [hlt, hgt, hb, ite_true, ite_false]
            exact ⟨.RRCONFLICT, rfl, rfl⟩

theorem resolve_settled {x y : Act} (h : x.type.settled = true ∨ y.type.settled = true) :
    resolveConflict g ps x y = some (x, y, .zero) := by
  obtain ⟨sx, tx, xx, ix⟩ := x
  obtain ⟨sy, ty, xy, iy⟩ := y
  cases tx <;> cases ty <;> simp [AType.settled] at h <;> rfl

theorem resolve_error {x y : Act} (hx : x.type = .ERROR) (hy : y.live = true) : resolveConflict g ps x y = none := by
  obtain ⟨sx, tx, xx, ix⟩ := x
  obtain ⟨sy, ty, xy, iy⟩ := y
  subst hx
  cases ty <;> simp [Act.live, AType.settled] at hy <;> rfl

/-- only the type of an action changes, and how -/
def Upd (a b : Act) : Prop :=
  b.sp = a.sp ∧ b.x = a.x ∧ b.id = a.id ∧
    (b.type = a.type ∨ b.type.settled = true ∨ (a.type = .SHIFT ∧ b.type = .ERROR))

theorem Upd.refl (a : Act) : Upd a a := ⟨rfl, rfl, rfl, .inl rfl⟩

theorem Upd.trans {a b c : Act} (h1 : Upd a b) (h2 : Upd b c) : Upd a c := by
  obtain ⟨a1, a2, a3, a4⟩ := h1
  obtain ⟨b1, b2, b3, b4⟩ := h2
  refine ⟨b1.trans a1, b2.trans a2, b3.trans a3, ?_⟩
  rcases b4 with h | h | ⟨h, h'⟩
  · rcases a4 with k | k | ⟨k, k'⟩
    · exact .inl (h.trans k)
    · exact .inr (.inl (by rw [h]; exact k))
    · exact .inr (.inr ⟨k, h.trans k'⟩)
  · exact .inr (.inl h)
  · rcases a4 with k | k | ⟨k, k'⟩
    · exact .inr (.inr ⟨by rw [← k]; exact h, h'⟩)
    · rw [h] at k; cases k
    · rw [h] at k'; cases k'

theorem resolve_upd {x y x' y' : Act} {c : Count} (h : resolveConflict g ps x y = some (x', y', c)) : Upd x x' ∧ Upd y y' := by
  unfold resolveConflict at h
  simp only [] at h
  have hd : ∀ (a : Act) (t : AType), t.settled = true → Upd a { a with type := t } := fun a t ht => ⟨rfl, rfl, rfl, .inr (.inl ht)⟩
  split_ifs at h <;> simp only [Option.some.injEq, Prod.mk.injEq, reduceCtorEq] at h
  all_goals obtain ⟨rfl, rfl, rfl⟩ := h
  all_goals first
    | exact ⟨Upd.refl _, Upd.refl _⟩
    | exact ⟨Upd.refl _, hd _ _ rfl⟩
    | exact ⟨hd _ _ rfl, Upd.refl _⟩
    | skip
  rename_i hs _ _ _ _ _ _
  simp only [Bool.and_eq_true, beq_iff_eq] at hs
  exact ⟨⟨rfl, rfl, rfl, .inr (.inr ⟨hs.1, rfl⟩)⟩, Upd.refl _⟩

theorem row_upd : ∀ (l : List Act) {x x' : Act} {l' : List Act} {c : Count}, resolveRow g ps x l = some (x', l', c) →
    Upd x x' ∧ List.Forall₂ Upd l l' := by
  intro l
  induction l with
  | nil =>
    intro x x' l' c h
    simp only [resolveRow, Option.some.injEq, Prod.mk.injEq] at h
    obtain ⟨rfl, rfl, _⟩ := h
    exact ⟨Upd.refl _, .nil⟩
  | cons y l ih =>
    intro x x' l' c h
    unfold resolveRow at h
    split at h
    · obtain ⟨⟨x1, y1, c1⟩, h1, h2⟩ := Option.bind_eq_some_iff.mp h
      obtain ⟨⟨x2, l2, c2⟩, h3, h4⟩ := Option.map_eq_some_iff.mp h2
      simp only [Prod.mk.injEq] at h4
      obtain ⟨rfl, rfl, _⟩ := h4
      obtain ⟨u1, u2⟩ := resolve_upd h1
      obtain ⟨u3, u4⟩ := ih h3
      exact ⟨u1.trans u3, .cons u2 u4⟩
    · simp only [Option.some.injEq, Prod.mk.injEq] at h
      obtain ⟨rfl, rfl, _⟩ := h
      refine ⟨Upd.refl _, ?_⟩
      exact List.forall₂_same.mpr fun a _ => Upd.refl a

theorem forall₂_upd_trans {l l' l'' : List Act} (h1 : List.Forall₂ Upd l l') (h2 : List.Forall₂ Upd l' l'') :
    List.Forall₂ Upd l l'' := by
  induction h1 generalizing l'' with
  | nil => exact h2
  | cons h _ ih =>
    cases h2 with
    | cons h' h'' => exact .cons (h.trans h') (ih h'')

theorem all_upd : ∀ (n : Nat) {l l' : List Act} {c : Count}, resolveAll g ps n l = some (l', c) → List.Forall₂ Upd l l' := by
  intro n
  induction n with
  | zero =>
    intro l l' c h
    simp only [resolveAll, Option.some.injEq, Prod.mk.injEq] at h
    obtain ⟨rfl, _⟩ := h
    exact List.forall₂_same.mpr fun a _ => Upd.refl a
  | succ n ih =>
    intro l l' c h
    cases l with
    | nil =>
      simp only [resolveAll, Option.some.injEq, Prod.mk.injEq] at h
      obtain ⟨rfl, _⟩ := h
      exact .nil
    | cons x l =>
      unfold resolveAll at h
      obtain ⟨⟨x1, l1, c1⟩, h1, h2⟩ := Option.bind_eq_some_iff.mp h
      obtain ⟨⟨l2, c2⟩, h3, h4⟩ := Option.map_eq_some_iff.mp h2
      simp only [Prod.mk.injEq] at h4
      obtain ⟨rfl, _⟩ := h4
      obtain ⟨u1, u2⟩ := row_upd l h1
      exact .cons u1 (forall₂_upd_trans u2 (ih h3))

/-! ### one group -/

/-- what becomes of the action whose row is processed -/
inductive Row
  | kept | killed | err
  deriving DecidableEq

def Act.row (a : Act) : Row := if a.type.settled then .killed else if a.type = .ERROR then .err else .kept

/-- the competitors among the actions -/
def cands (l : List Act) : List Cand := l.filterMap Act.cand

/-- what the row of `x` does to the live actions of its group -/
def rowA (d : Cand → Cand → Duel) (c : Cand) : List Cand → Option (Row × List Cand × Count)
  | [] => some (.kept, [], .zero)
  | e :: es =>
    match d c e with
    | .first => rowA d c es
    | .second => some (.killed, e :: es, .zero)
    | .conflict => (rowA d c es).map fun r => (r.1, r.2.1, (conflictCount c e).add r.2.2)
    | .neither => if es = [] then some (.err, [e], .zero) else none
    | .abort => none

theorem settle_cons {d : Cand → Cand → Duel} {c e : Cand} {es : List Cand} : settle d c (e :: es) =
    match d c e with
    | .first => settle d c es
    | .second => settle d e es
    | .conflict => (settle d c es).map fun r => (r.1, (conflictCount c e).add r.2)
    | .neither => if es = [] then some (.tie c e, .zero) else none
    | .abort => none := rfl

theorem rowA_settle {d : Cand → Cand → Duel} {c : Cand} (es : List Cand) :
    (rowA d c es = none → settle d c es = none) ∧
    (∀ ds k, rowA d c es = some (.kept, ds, k) → ds = [] ∧ settle d c es = some (.one c, k)) ∧
    (∀ ds k, rowA d c es = some (.err, ds, k) → ∃ e, ds = [e] ∧ settle d c es = some (.tie c e, k)) ∧
    (∀ ds k, rowA d c es = some (.killed, ds, k) → ∃ e es', ds = e :: es' ∧
      settle d c es = (settle d e es').map fun r => (r.1, k.add r.2)) := by
  induction es with
  | nil => simp [rowA, settle]
  | cons e es ih =>
    obtain ⟨i1, i2, i3, i4⟩ := ih
    rw [settle_cons (c := c) (e := e) (es := es)]
    unfold rowA
    cases hd : d c e with
    | first => exact ⟨i1, i2, i3, i4⟩
    | second =>
      refine ⟨by simp, by simp, by simp, ?_⟩
      intro ds k h
      simp only [Option.some.injEq, Prod.mk.injEq, true_and] at h
      obtain ⟨rfl, rfl⟩ := h
      refine ⟨e, es, rfl, ?_⟩
      simp only [Count.zero_add]
      cases settle d e es <;> rfl
    | conflict =>
      simp only [Option.map_eq_none_iff, Option.map_eq_some_iff, Prod.mk.injEq, Prod.exists]
      refine ⟨i1, ?_, ?_, ?_⟩
      · rintro ds k ⟨a, b, c', h, rfl, rfl, rfl⟩
        obtain ⟨rfl, h2⟩ := i2 _ _ h
        exact ⟨rfl, _, _, h2, rfl, rfl⟩
      · rintro ds k ⟨a, b, c', h, rfl, rfl, rfl⟩
        obtain ⟨e', rfl, h2⟩ := i3 _ _ h
        exact ⟨e', rfl, _, _, h2, rfl, rfl⟩
      · rintro ds k ⟨a, b, c', h, rfl, rfl, rfl⟩
        obtain ⟨e', es', rfl, h2⟩ := i4 _ _ h
        refine ⟨e', es', rfl, ?_⟩
        rw [h2, Option.map_map]
        congr 1
        funext r
        simp [Count.add_assoc]
    | neither =>
      by_cases he : es = []
      · simp [he]
      · simp [he]
    | abort => simp

/-- a competitor as type and argument of an action -/
def Cand.act : Cand → AType × Nat
  | .shift q => (.SHIFT, q)
  | .reduce r => (.REDUCE, r)
  | .accept => (.ACCEPT, 0)

/-- all actions of `l` are on `t`, and the live ones are shifts, reductions or acceptance -/
def Grp (t : Nat) (l : List Act) : Prop := ∀ a ∈ l, a.sp = t ∧ (a.live = true → ∃ c, a.cand = some c ∧ c.act = (a.type, a.x))

theorem cand_live {a : Act} {c : Cand} (h : a.cand = some c) : a.live = true := by
  obtain ⟨s, ty, x, i⟩ := a
  cases ty <;> simp [Act.cand] at h <;> rfl

theorem cands_cons_dead {a : Act} {l : List Act} (h : a.type.settled = true) : cands (a :: l) = cands l := by
  unfold cands
  rw [List.filterMap_cons]
  have : a.cand = none := by
    obtain ⟨s, ty, x, i⟩ := a
    cases ty <;> simp [AType.settled] at h <;> rfl
  rw [this]

theorem cands_cons_cand {a : Act} {l : List Act} {c : Cand} (h : a.cand = some c) : cands (a :: l) = c :: cands l := by
  unfold cands; rw [List.filterMap_cons, h]

theorem row_settled {x : Act} (hx : x.type.settled = true) : ∀ l : List Act, resolveRow g ps x l = some (x, l, .zero) := by
  intro l
  induction l with
  | nil => rfl
  | cons y l ih =>
    unfold resolveRow
    split
    · rw [resolve_settled (.inl hx)]
      simp [ih, Count.zero_add]
    · rfl

theorem row_error {x : Act} (hx : x.type = .ERROR) : ∀ l : List Act, Grp x.sp l →
    resolveRow g ps x l = if cands l = [] then some (x, l, .zero) else none := by
  intro l
  induction l with
  | nil => intro _; rfl
  | cons y l ih =>
    intro hl
    have ih' := ih (fun a ha => hl a (List.mem_cons_of_mem _ ha))
    obtain ⟨h1, h2⟩ := hl y List.mem_cons_self
    unfold resolveRow
    rw [if_pos (by simp [h1])]
    cases hy : y.type.settled with
    | true =>
      rw [resolve_settled (.inr hy), cands_cons_dead hy]
      simp only [Option.bind_some, ih']
      split <;> simp [Count.zero_add]
    | false =>
      have hlive : y.live = true := by simp [Act.live, hy]
      obtain ⟨c, hc, _⟩ := h2 hlive
      rw [resolve_error hx hlive, cands_cons_cand hc]
      simp

theorem row_spec : ∀ (l : List Act) {x : Act} {c : Cand}, x.cand = some c → Grp x.sp l →
    ((resolveRow g ps x l).map fun r => (r.1.row, cands r.2.1, r.2.2)) = rowA (gduel g ps x.sp) c (cands l) := by
  intro l
  induction l with
  | nil =>
    intro x c hx _
    have : x.row = .kept := by
      obtain ⟨s, ty, xx, i⟩ := x
      cases ty <;> simp [Act.cand] at hx <;> rfl
    simp [resolveRow, cands, rowA, this]
  | cons y l ih =>
    intro x c hx hl
    have hl' : Grp x.sp l := fun a ha => hl a (List.mem_cons_of_mem _ ha)
    have ih' := ih hx hl'
    obtain ⟨h1, h2⟩ := hl y List.mem_cons_self
    unfold resolveRow
    rw [if_pos (by simp [h1])]
    cases hy : y.type.settled with
    | true =>
      rw [resolve_settled (.inr hy), cands_cons_dead hy, ← ih']
      simp only [Option.bind_some, Option.map_map]
      congr 1
      funext r
      simp [cands_cons_dead hy, Count.zero_add]
    | false =>
      obtain ⟨e, he, _⟩ := h2 (by simp [Act.live, hy])
      rw [cands_cons_cand he]
      have key := resolve_live (g := g) (ps := ps) hx he
      unfold rowA
      cases hd : gduel g ps x.sp c e with
      | first =>
        simp only [hd] at key
        obtain ⟨t, ht, hr⟩ := key
        rw [hr]
        simp only [Option.bind_some, Option.map_map]
        rw [← ih']
        congr 1
        funext r
        have : cands (dead y t :: r.2.1) = cands r.2.1 := cands_cons_dead ht
        simp [this, Count.zero_add]
      | second =>
        simp only [hd] at key
        obtain ⟨t, ht, hr⟩ := key
        rw [hr]
        simp only [Option.bind_some, Option.map_map]
        rw [row_settled (x := dead x t) ht]
        have : (dead x t).row = .killed := by unfold Act.row dead; simp [ht]
        simp [this, cands_cons_cand he, Count.zero_add]
      | conflict =>
        simp only [hd] at key
        obtain ⟨t, ht, hr⟩ := key
        rw [hr]
        simp only [Option.bind_some, Option.map_map]
        rw [← ih', Option.map_map]
        congr 1
        funext r
        have : cands (dead y t :: r.2.1) = cands r.2.1 := cands_cons_dead ht
        simp [this]
      | neither =>
        simp only [hd] at key
        rw [key]
        simp only [Option.bind_some, Option.map_map]
        rw [row_error (x := dead x .ERROR) rfl l hl']
        by_cases hn : cands l = []
        · have : (dead x .ERROR).row = .err := rfl
          simp [hn, this, cands_cons_cand he, Count.zero_add]
        · simp [hn]
      | abort =>
        simp only [hd] at key
        rw [key]
        simp

/-- the actions that remain: type and argument of those not settled -/
def remains (l : List Act) : List (AType × Nat) := (l.filter Act.live).map fun a => (a.type, a.x)

/-- what remains of a group, by its outcome: of a tie, the shift as an error and the reduction -/
def Outcome.acts : Outcome → List (AType × Nat)
  | .one c => [c.act]
  | .tie c d => [(.ERROR, c.act.2), d.act]

/-- all competitors of a group, from left to right -/
def settleAll (d : Cand → Cand → Duel) : List Cand → Option (List (AType × Nat) × Count)
  | [] => some ([], .zero)
  | c :: cs => (settle d c cs).map fun r => (r.1.acts, r.2)

theorem grp_upd {t : Nat} {l l' : List Act} (h : List.Forall₂ Upd l l') (hl : Grp t l)
    (hne : ∀ a ∈ l', a.type ≠ .ERROR) : Grp t l' := by
  induction h with
  | nil => exact hl
  | @cons a b l l' hab _ ih =>
    intro y hy
    rcases List.mem_cons.mp hy with rfl | hy
    · obtain ⟨h1, h2⟩ := hl a List.mem_cons_self
      obtain ⟨u1, u2, _, u4⟩ := hab
      refine ⟨u1.trans h1, fun hlive => ?_⟩
      rcases u4 with u | u | ⟨_, u⟩
      · have : a.live = true := by unfold Act.live at *; rw [← u]; exact hlive
        obtain ⟨c, h3, h4⟩ := h2 this
        refine ⟨c, ?_, by rw [h4, u, u2]⟩
        unfold Act.cand at *
        rw [u, u2]; exact h3
      · simp [Act.live, u] at hlive
      · exact absurd u (hne y List.mem_cons_self)
    · exact ih (fun a ha => hl a (List.mem_cons_of_mem _ ha)) (fun a ha => hne a (List.mem_cons_of_mem _ ha)) y hy

/-- a row turns no action of the rest into an error -/
theorem resolve_noerr {x y x' y' : Act} {c : Count} (h : resolveConflict g ps x y = some (x', y', c)) (hy : y.type ≠ .ERROR) :
    y'.type ≠ .ERROR := by
  unfold resolveConflict at h
  simp only [] at h
  split_ifs at h <;> simp only [Option.some.injEq, Prod.mk.injEq, reduceCtorEq] at h
  all_goals obtain ⟨rfl, rfl, rfl⟩ := h
  all_goals first
    | exact hy
    | exact AType.noConfusion

theorem row_noerr : ∀ (l : List Act) {x x' : Act} {l' : List Act} {c : Count}, resolveRow g ps x l = some (x', l', c) →
    (∀ a ∈ l, a.type ≠ .ERROR) → ∀ a ∈ l', a.type ≠ .ERROR := by
  intro l
  induction l with
  | nil =>
    intro x x' l' c h
    simp only [resolveRow, Option.some.injEq, Prod.mk.injEq] at h
    obtain ⟨rfl, rfl, _⟩ := h
    exact fun h => h
  | cons y l ih =>
    intro x x' l' c h hne
    unfold resolveRow at h
    split at h
    · obtain ⟨⟨x1, y1, c1⟩, h1, h2⟩ := Option.bind_eq_some_iff.mp h
      obtain ⟨⟨x2, l2, c2⟩, h3, h4⟩ := Option.map_eq_some_iff.mp h2
      simp only [Prod.mk.injEq] at h4
      obtain ⟨rfl, rfl, _⟩ := h4
      intro a ha
      rcases List.mem_cons.mp ha with rfl | ha
      · exact resolve_noerr h1 (hne y List.mem_cons_self)
      · exact ih h3 (fun a ha => hne a (List.mem_cons_of_mem _ ha)) a ha
    · simp only [Option.some.injEq, Prod.mk.injEq] at h
      obtain ⟨rfl, rfl, _⟩ := h
      exact hne

theorem grp_noerr {t : Nat} {l : List Act} (h : Grp t l) : ∀ a ∈ l, a.type ≠ .ERROR := by
  intro a ha he
  obtain ⟨c, hc, _⟩ := (h a ha).2 (by simp [Act.live, he, AType.settled])
  simp [Act.cand, he] at hc

theorem remains_cons (a : Act) (l : List Act) :
    remains (a :: l) = if a.live then (a.type, a.x) :: remains l else remains l := by
  unfold remains
  rw [List.filter_cons]
  split <;> simp

/-- one group -/
theorem group_spec {t : Nat} : ∀ (n : Nat) (l : List Act), l.length ≤ n → Grp t l →
    ((resolveAll g ps n l).map fun r => (remains r.1, r.2)) = settleAll (gduel g ps t) (cands l) := by
  intro n
  induction n with
  | zero =>
    intro l hn _
    rw [List.length_eq_zero_iff.mp (Nat.le_zero.mp hn)]
    rfl
  | succ n ih =>
    intro l hn hl
    cases l with
    | nil => rfl
    | cons x l =>
      have hx := hl x List.mem_cons_self
      have hl' : Grp t l := fun a ha => hl a (List.mem_cons_of_mem _ ha)
      have hlen : l.length ≤ n := by simpa using hn
      unfold resolveAll
      cases hs : x.type.settled with
      | true =>
        rw [row_settled hs, cands_cons_dead hs]
        simp only [Option.bind_some, Option.map_map]
        rw [← ih l hlen hl']
        congr 1
        funext r
        simp [remains_cons, Act.live, hs, Count.zero_add]
      | false =>
        obtain ⟨c, hc, hact⟩ := hx.2 (by simp [Act.live, hs])
        have hsp := hx.1
        subst hsp
        have hrow := row_spec (g := g) (ps := ps) l hc hl'
        rw [cands_cons_cand hc]
        obtain ⟨r1, r2, r3, r4⟩ := rowA_settle (d := gduel g ps x.sp) (c := c) (cands l)
        show _ = (settle (gduel g ps x.sp) c (cands l)).map fun r => (r.1.acts, r.2)
        cases hr : resolveRow g ps x l with
        | none =>
          rw [hr] at hrow
          rw [r1 hrow.symm]
          simp
        | some r =>
          obtain ⟨x', l', k⟩ := r
          rw [hr] at hrow
          simp only [Option.map_some] at hrow
          obtain ⟨u1, u2⟩ := row_upd l hr
          have hgl : Grp x.sp l' := grp_upd u2 hl' (row_noerr l hr (grp_noerr hl'))
          have hlen' : l'.length ≤ n := by rw [← u2.length_eq]; exact hlen
          have ih' := ih l' hlen' hgl
          simp only [Option.bind_some, Option.map_map]
          cases hst : x'.row with
          | kept =>
            rw [hst] at hrow
            obtain ⟨h1, h2⟩ := r2 _ _ hrow.symm
            rw [h2]
            rw [h1] at ih'
            simp only [settleAll, Option.map_eq_some_iff, Prod.mk.injEq, Prod.exists] at ih'
            obtain ⟨l2, k2, e1, e2, e3⟩ := ih'
            subst e3
            rw [e1]
            have hxt : x'.type.settled = false ∧ x'.type ≠ .ERROR := by
              unfold Act.row at hst
              split at hst
              · cases hst
              · rename_i h
                split at hst
                · cases hst
                · rename_i h'
                  exact ⟨by simpa using h, h'⟩
            have hty : x'.type = x.type := by
              rcases u1.2.2.2 with h | h | ⟨_, h⟩
              · exact h
              · rw [hxt.1] at h; cases h
              · exact absurd h hxt.2
            simp [hs, remains_cons, Act.live, hxt.1, e2, Outcome.acts, hact, hty, u1.2.1, Count.add_zero]
          | killed =>
            rw [hst] at hrow
            obtain ⟨e, es', h1, h2⟩ := r4 _ _ hrow.symm
            rw [h2, Option.map_map]
            rw [h1] at ih'
            simp only [settleAll] at ih'
            have hxt : x'.type.settled = true := by
              unfold Act.row at hst
              split at hst
              · assumption
              · split at hst <;> cases hst
            cases hset : settle (gduel g ps x.sp) e es' with
            | none =>
              rw [hset] at ih'
              simp only [Option.map_none, Option.map_eq_none_iff] at ih'
              rw [ih']
              rfl
            | some o =>
              rw [hset] at ih'
              simp only [Option.map_some, Option.map_eq_some_iff, Prod.mk.injEq, Prod.exists] at ih'
              obtain ⟨l2, k2, e1, e2, e3⟩ := ih'
              rw [e1]
              simp [remains_cons, Act.live, hxt, e2, e3]
          | err =>
            rw [hst] at hrow
            obtain ⟨e, h1, h2⟩ := r3 _ _ hrow.symm
            rw [h2]
            rw [h1] at ih'
            simp only [settleAll, settle, Option.map_some, Option.map_eq_some_iff, Prod.mk.injEq, Prod.exists, Outcome.acts] at ih'
            obtain ⟨l2, k2, e1, e2, rfl⟩ := ih'
            rw [e1]
            have hxt : x'.type = .ERROR := by
              unfold Act.row at hst
              split at hst
              · cases hst
              · split at hst
                · assumption
                · cases hst
            have hc2 : c.act.2 = x.x := by rw [hact]
            simp [remains_cons, Act.live, hxt, AType.settled, e2, Outcome.acts, hc2, u1.2.1, Count.add_zero]

/-! ### groups of a sorted list -/

theorem sorted_blocks {α : Type} (key : α → Nat) : ∀ (n : Nat) (l : List α), l.Pairwise (fun a b => key a ≤ key b) →
    (∀ a ∈ l, key a < n) → l = (List.range n).flatMap fun i => l.filter fun a => key a == i := by
  intro n
  induction n with
  | zero =>
    intro l _ h
    cases l with
    | nil => rfl
    | cons a l => exact absurd (h a List.mem_cons_self) (Nat.not_lt_zero _)
  | succ n ih =>
    intro l hs hb
    rw [List.range_succ, List.flatMap_append]
    have hsplit : l = (l.filter fun a => key a < n) ++ l.filter fun a => key a == n := by
      clear ih
      induction l with
      | nil => rfl
      | cons a l ih =>
        obtain ⟨h1, h2⟩ := List.pairwise_cons.mp hs
        have ih' := ih h2 (fun b hb' => hb b (List.mem_cons_of_mem _ hb'))
        have ha := hb a List.mem_cons_self
        by_cases hk : key a < n
        · have : ¬ key a = n := by omega
          rw [List.filter_cons_of_pos (by simpa using hk), List.filter_cons_of_neg (by simpa using this), List.cons_append, ← ih']
        · have hk' : key a = n := by omega
          rw [List.filter_cons_of_neg (by simpa using hk), List.filter_cons_of_pos (by simpa using hk')]
          have e1 : (l.filter fun a => decide (key a < n)) = [] := by
            rw [List.filter_eq_nil_iff]
            intro b hb'
            have := h1 b hb'
            simp only [decide_eq_true_eq]; omega
          rw [e1] at ih' ⊢
          simp only [List.nil_append] at ih' ⊢
          rw [← ih']
    have e := ih (l.filter fun a => key a < n) (hs.sublist List.filter_sublist) (by simp)
    have e2 : (List.range n).flatMap (fun i => (l.filter fun a => decide (key a < n)).filter fun a => key a == i) =
        (List.range n).flatMap (fun i => l.filter fun a => key a == i) := by
      apply List.flatMap_congr
      intro i hi
      have hi' := List.mem_range.mp hi
      rw [List.filter_filter]
      apply List.filter_congr
      intro a _
      by_cases h : key a = i
      · simp [h, hi']
      · simp [h]
    rw [e2] at e
    rw [← e]
    simp only [List.flatMap_cons, List.flatMap_nil, List.append_nil]
    exact hsplit

theorem row_append {x : Act} : ∀ (l1 l2 : List Act), (∀ a ∈ l1, a.sp = x.sp) → (∀ a ∈ l2, a.sp ≠ x.sp) →
    resolveRow g ps x (l1 ++ l2) = (resolveRow g ps x l1).map fun r => (r.1, r.2.1 ++ l2, r.2.2) := by
  intro l1
  induction l1 generalizing x with
  | nil =>
    intro l2 _ h2
    cases l2 with
    | nil => rfl
    | cons b l2 =>
      have := h2 b List.mem_cons_self
      simp [resolveRow, this]
  | cons a l1 ih =>
    intro l2 h1 h2
    have ha := h1 a List.mem_cons_self
    rw [List.cons_append]
    unfold resolveRow
    simp only [ha, beq_self_eq_true, ite_true]
    cases hr : resolveConflict g ps x a with
    | none => rfl
    | some r =>
      obtain ⟨x', a', c⟩ := r
      have hsp := (resolve_upd hr).1.1
      simp only [Option.bind_some, Option.map_map]
      rw [ih l2 (fun b hb => by rw [hsp]; exact h1 b (List.mem_cons_of_mem _ hb)) (fun b hb => by rw [hsp]; exact h2 b hb), Option.map_map]
      rfl

theorem all_cons {n : Nat} {x : Act} {l : List Act} : resolveAll g ps (n+1) (x :: l) =
    (resolveRow g ps x l).bind fun r => (resolveAll g ps n r.2.1).map fun r' => (r.1 :: r'.1, r.2.2.add r'.2) := rfl

theorem all_append {t : Nat} : ∀ (n : Nat) (l1 l2 : List Act), l1.length = n → (∀ a ∈ l1, a.sp = t) → (∀ a ∈ l2, a.sp ≠ t) →
    resolveAll g ps (l1.length + l2.length) (l1 ++ l2) =
      (resolveAll g ps l1.length l1).bind fun r => (resolveAll g ps l2.length l2).map fun r' => (r.1 ++ r'.1, r.2.add r'.2) := by
  intro n
  induction n with
  | zero =>
    intro l1 l2 hl _ _
    rw [List.length_eq_zero_iff.mp hl]
    simp only [List.length_nil, Nat.zero_add, List.nil_append, resolveAll, Option.bind_some, Count.zero_add]
    cases resolveAll g ps l2.length l2 <;> rfl
  | succ n ih =>
    intro l1 l2 hl h1 h2
    cases l1 with
    | nil => cases hl
    | cons x l1 =>
      have hx := h1 x List.mem_cons_self
      have hlen : l1.length = n := by simpa using hl
      rw [List.cons_append, show (x :: l1).length + l2.length = (l1.length + l2.length) + 1 by simp; omega, List.length_cons,
        all_cons, all_cons]
      rw [row_append l1 l2 (fun a ha => by rw [hx]; exact h1 a (List.mem_cons_of_mem _ ha)) (fun a ha => by rw [hx]; exact h2 a ha)]
      cases hr : resolveRow g ps x l1 with
      | none => rfl
      | some r =>
        obtain ⟨x', l', c⟩ := r
        have hu := (row_upd l1 hr).2
        have hl' : l'.length = l1.length := hu.length_eq.symm
        have hsp : ∀ a ∈ l', a.sp = t := by
          intro a ha
          obtain ⟨i, hi, rfl⟩ := List.getElem_of_mem ha
          have := (List.forall₂_iff_get.mp hu).2 i (by omega) hi
          simp only [List.get_eq_getElem] at this
          rw [this.1]
          exact h1 _ (List.mem_cons_of_mem _ (List.getElem_mem _))
        simp only [Option.map_some, Option.bind_some]
        rw [← hl', ih l' l2 (by omega) hsp h2]
        cases resolveAll g ps l'.length l' with
        | none => rfl
        | some r1 =>
          simp only [Option.bind_some, Option.map_some]
          cases resolveAll g ps l2.length l2 with
          | none => rfl
          | some r2 => simp [Count.add_assoc]

/-- the groups one after the other -/
theorem all_blocks (B : Nat → List Act) (t : Nat → Nat) : ∀ is : List Nat,
    (is.map t).Nodup → (∀ i ∈ is, ∀ a ∈ B i, a.sp = t i) →
    resolveAll g ps (is.flatMap B).length (is.flatMap B) =
      (is.mapM fun i => resolveAll g ps (B i).length (B i)).map fun rs => (rs.flatMap Prod.fst, (rs.map Prod.snd).foldr Count.add .zero) := by
  intro is
  induction is with
  | nil => intro _ _; rfl
  | cons i is ih =>
    intro hnd hB
    obtain ⟨h1, h2⟩ := List.nodup_cons.mp (by rw [List.map_cons] at hnd; exact hnd)
    have ih' := ih h2 (fun j hj => hB j (List.mem_cons_of_mem _ hj))
    rw [List.flatMap_cons, List.length_append, all_append (B i).length (B i) (is.flatMap B) rfl (hB i List.mem_cons_self) ?_, ih']
    · simp only [List.mapM_cons]
      cases resolveAll g ps (B i).length (B i) with
      | none => rfl
      | some r =>
        simp only [Option.bind_some, Option.bind_eq_bind, Option.map_map]
        cases is.mapM (fun i => resolveAll g ps (B i).length (B i)) with
        | none => rfl
        | some rs => rfl
    · intro a ha he
      obtain ⟨j, hj, ha⟩ := List.mem_flatMap.mp ha
      have := hB j (List.mem_cons_of_mem _ hj) a ha
      exact h1 (List.mem_map.mpr ⟨j, hj, by rw [← this, he]⟩)

/-! ### sorting -/

theorem actioncmp_le {a b : Act} : actioncmp g a b ≤ 0 ↔
    g.index a.sp < g.index b.sp ∨ (g.index a.sp = g.index b.sp ∧ (a.type.code < b.type.code ∨ (a.type = b.type ∧
      (((a.type = .REDUCE ∨ a.type = .SHIFTREDUCE) ∧ a.x < b.x) ∨
       (((a.type = .REDUCE ∨ a.type = .SHIFTREDUCE) → a.x = b.x) ∧ b.id ≤ a.id))))) := by
  have hc : (a.type.code = b.type.code ↔ a.type = b.type) := by
    cases a.type <;> cases b.type <;> simp [AType.code]
  unfold actioncmp
  simp only [beq_iff_eq, Bool.and_eq_true, Bool.or_eq_true]
  rw [← hc]
  generalize g.index a.sp = ia
  generalize g.index b.sp = ib
  generalize a.type.code = ca
  generalize b.type.code = cb
  by_cases h1 : (a.type = .REDUCE ∨ a.type = .SHIFTREDUCE)
  · simp only [h1, true_and, and_true, forall_const]
    split_ifs <;> omega
  · simp only [h1, false_and, and_false, ite_false, IsEmpty.forall_iff, true_and, false_or]
    split_ifs <;> omega

theorem actioncmp_total (a b : Act) : actioncmp g a b ≤ 0 ∨ actioncmp g b a ≤ 0 := by
  rw [actioncmp_le, actioncmp_le]
  by_cases he : a.type = b.type
  · rw [he]
    by_cases h : (b.type = .REDUCE ∨ b.type = .SHIFTREDUCE)
    · simp only [h, true_and, forall_const]
      omega
    · simp only [h, false_and, IsEmpty.forall_iff, true_and, false_or]
      omega
  · have hc : a.type.code ≠ b.type.code := by
      intro hc
      apply he
      revert hc
      cases a.type <;> cases b.type <;> simp [AType.code]
    omega

theorem actioncmp_trans (a b c : Act) (h1 : actioncmp g a b ≤ 0) (h2 : actioncmp g b c ≤ 0) : actioncmp g a c ≤ 0 := by
  rw [actioncmp_le] at h1 h2 ⊢
  rcases h1 with h1 | ⟨h1, h1' | ⟨e1, h1'⟩⟩
  · left; omega
  · rcases h2 with h2 | ⟨h2, h2' | ⟨e2, h2'⟩⟩
    · left; omega
    · right; omega
    · right; rw [← e2]; omega
  · rcases h2 with h2 | ⟨h2, h2' | ⟨e2, h2'⟩⟩
    · left; omega
    · right; rw [e1]; omega
    · right
      refine ⟨by omega, .inr ⟨e1.trans e2, ?_⟩⟩
      rw [← e1] at h2'
      by_cases h : (a.type = .REDUCE ∨ a.type = .SHIFTREDUCE)
      · simp only [h, true_and, forall_const] at h1' h2' ⊢
        omega
      · simp only [h, false_and, IsEmpty.forall_iff, true_and, false_or] at h1' h2' ⊢
        omega

theorem actionSort_spec {l : List Act} (hl : l.length < 2 ^ 30) :
    (actionSort g l).Perm l ∧ (actionSort g l).Pairwise (fun x y => actioncmp g x y ≤ 0) :=
  msortWith_spec (S := fun l => l.Pairwise (fun x y => actioncmp g x y ≤ 0)) (isMerge_merge actioncmp_total actioncmp_trans)
    (by simp) (by simp) (by decide) l hl

/-- the symbol with a given `index` -/
def Gram.sym (g : Gram) (i : Nat) : Nat := if i < g.nterm then i else i + g.mts.length

/-- a terminal or nonterminal -/
def Gram.plain (g : Gram) (X : Nat) : Prop := X < g.nterm ∨ g.nlow ≤ X

theorem sym_index {X : Nat} (h : g.plain X) : g.sym (g.index X) = X := by
  unfold Gram.plain Gram.nlow at h
  unfold Gram.sym Gram.index
  split_ifs <;> omega

theorem index_sym (i : Nat) : g.index (g.sym i) = i := by
  unfold Gram.sym Gram.index
  split_ifs <;> omega

theorem sym_inj {i j : Nat} (h : g.sym i = g.sym j) : i = j := by rw [← index_sym (g := g) i, h, index_sym]

/-- the competitors for a symbol -/
def comps (t : Nat) (l : List Act) : List Cand := cands (l.filter fun a => a.sp == t)

/-- a list of actions as `Action_add` makes them -/
def FreshActs (g : Gram) (n : Nat) (l : List Act) : Prop :=
  ∀ a ∈ l, g.plain a.sp ∧ g.index a.sp < n ∧ ∃ c, a.cand = some c ∧ c.act = (a.type, a.x)

theorem mapM_eq_some {α β : Type} {f : α → Option β} (d : β) : ∀ {l : List α} {rs : List β}, l.mapM f = some rs →
    rs = l.map (fun x => (f x).getD d) ∧ ∀ x ∈ l, f x = some ((f x).getD d) := by
  intro l
  induction l with
  | nil => intro rs h; simp at h; subst h; simp
  | cons a l ih =>
    intro rs h
    rw [List.mapM_cons] at h
    obtain ⟨b, h1, h2⟩ := Option.bind_eq_some_iff.mp h
    obtain ⟨bs, h3, h4⟩ := Option.bind_eq_some_iff.mp h2
    cases h4
    obtain ⟨e1, e2⟩ := ih h3
    refine ⟨by simp [h1, ← e1], ?_⟩
    intro x hx
    rcases List.mem_cons.mp hx with rfl | hx
    · simp [h1]
    · exact e2 x hx

theorem flatMap_one {β : Type} (c : List β) {i : Nat} : ∀ n : Nat,
    ((List.range n).flatMap fun j => if j = i then c else []) = if i < n then c else [] := by
  intro n
  induction n with
  | zero => rfl
  | succ n ih =>
    rw [List.range_succ, List.flatMap_append, ih]
    simp only [List.flatMap_cons, List.flatMap_nil, List.append_nil]
    by_cases h : n = i
    · subst h; simp
    · by_cases h' : i < n
      · simp [h, h', Nat.lt_succ_of_lt h']
      · have : ¬ i < n + 1 := by omega
        simp [h, h', this]

theorem mapM_eq_none {α β : Type} {f : α → Option β} : ∀ {l : List α}, l.mapM f = none ↔ ∃ a ∈ l, f a = none := by
  intro l
  induction l with
  | nil => simp
  | cons a l ih =>
    rw [List.mapM_cons]
    cases h : f a with
    | none => simp [h]
    | some b =>
      simp only [Option.bind_eq_bind, Option.bind_some, List.mem_cons, exists_eq_or_imp, h, reduceCtorEq, false_or]
      rw [← ih]
      cases l.mapM f <;> simp

theorem state_spec {n : Nat} {l : List Act} (hf : FreshActs g n l) (hs : l.Pairwise (fun x y => actioncmp g x y ≤ 0)) :
    match resolveAll g ps l.length l with
    | none => ∃ i < n, settleAll (gduel g ps (g.sym i)) (comps (g.sym i) l) = none
    | some (l', c) => List.Forall₂ Upd l l' ∧ ∃ k : Nat → Count,
        (∀ i < n, settleAll (gduel g ps (g.sym i)) (comps (g.sym i) l) =
          some (remains (l'.filter fun a => a.sp == g.sym i), k i)) ∧
        c = ((List.range n).map k).foldr Count.add .zero := by
  have hkey : ∀ a ∈ l, ∀ i, ((g.index a.sp == i) = (a.sp == g.sym i)) := by
    intro a ha i
    by_cases h : a.sp = g.sym i
    · simp [h, index_sym]
    · have : ¬ g.index a.sp = i := by rintro rfl; exact h (sym_index (hf a ha).1).symm
      simp [h, this]
  have hb := sorted_blocks (fun a : Act => g.index a.sp) n l
    (hs.imp fun {a b} h => by rcases actioncmp_le.mp h with h | ⟨h, _⟩ <;> omega) (fun a ha => (hf a ha).2.1)
  have hb' : l = (List.range n).flatMap fun i => l.filter fun a => a.sp == g.sym i := by
    conv_lhs => rw [hb]
    apply List.flatMap_congr
    intro i _
    exact List.filter_congr fun a ha => hkey a ha i
  have hgrp : ∀ i, Grp (g.sym i) (l.filter fun a => a.sp == g.sym i) := by
    intro i a ha
    obtain ⟨h1, h2⟩ := List.mem_filter.mp ha
    exact ⟨by simpa using h2, fun _ => (hf a h1).2.2⟩
  have hall := all_blocks (g := g) (ps := ps) (fun i => l.filter fun a => a.sp == g.sym i) g.sym (List.range n)
    (List.Nodup.map (fun _ _ h => sym_inj h) List.nodup_range) (fun i _ a ha => (hgrp i a ha).1)
  rw [← hb'] at hall
  have hgs := fun i => group_spec (g := g) (ps := ps) (t := g.sym i) (l.filter fun a => a.sp == g.sym i).length _ (Nat.le_refl _) (hgrp i)
  cases hr : resolveAll g ps l.length l with
  | none =>
    rw [hr] at hall
    obtain ⟨i, hi, hn⟩ := mapM_eq_none.mp (Option.map_eq_none_iff.mp hall.symm)
    refine ⟨i, List.mem_range.mp hi, ?_⟩
    have := hgs i
    rw [hn] at this
    exact this.symm
  | some r =>
    obtain ⟨l', c⟩ := r
    refine ⟨all_upd _ hr, ?_⟩
    rw [hr] at hall
    obtain ⟨rs, h1, h2⟩ := Option.map_eq_some_iff.mp hall.symm
    simp only [Prod.mk.injEq] at h2
    obtain ⟨h2, h3⟩ := h2
    obtain ⟨h4, h5⟩ := mapM_eq_some ([], Count.zero) h1
    generalize hR : (fun i => (resolveAll g ps (l.filter fun a => a.sp == g.sym i).length (l.filter fun a => a.sp == g.sym i)).getD ([], .zero)) = R at h4 h5
    have h5' : ∀ i < n, resolveAll g ps (l.filter fun a => a.sp == g.sym i).length (l.filter fun a => a.sp == g.sym i) = some (R i) := by
      intro i hi
      rw [← hR]
      exact h5 i (List.mem_range.mpr hi)
    refine ⟨fun i => (R i).2, ?_, ?_⟩
    · intro i hi
      have e := hgs i
      rw [h5' i hi] at e
      unfold comps
      rw [← e]
      have hsp : ∀ j < n, ∀ a ∈ (R j).1, a.sp = g.sym j := by
        intro j hj a ha
        have hu := all_upd (l' := (R j).1) (c := (R j).2) _ (h5' j hj)
        obtain ⟨k, hk, rfl⟩ := List.getElem_of_mem ha
        have := (List.forall₂_iff_get.mp hu).2 k (by rw [hu.length_eq]; exact hk) hk
        simp only [List.get_eq_getElem] at this
        rw [this.1]
        exact (hgrp j _ (List.getElem_mem _)).1
      have : (l'.filter fun a => a.sp == g.sym i) = (R i).1 := by
        rw [← h2, h4, List.flatMap_map, List.filter_flatMap]
        rw [List.flatMap_congr (g := fun j => if j = i then (R i).1 else [])]
        · rw [flatMap_one, if_pos hi]
        · intro j hj
          have hj' := List.mem_range.mp hj
          by_cases hji : j = i
          · subst hji
            simp only [if_true]
            rw [List.filter_eq_self]
            intro a ha
            simpa using hsp j hj' a ha
          · rw [if_neg hji, List.filter_eq_nil_iff]
            intro a ha
            rw [hsp j hj' a ha]
            simp only [beq_iff_eq]
            exact fun h => hji (sym_inj h)
      rw [this]
      rfl
    · rw [← h3, h4, List.map_map]
      rfl

end Verif.Lemon
