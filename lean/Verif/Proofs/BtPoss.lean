import Verif.Proofs.BtGroup
import Verif.Proofs.GenDriver
import Verif.Spec.Choice
/-
The tables of a backtracking parser and the possible actions of the automaton.
-/
set_option autoImplicit false
namespace Verif.Byacc
open Spec

theorem altsOf_lists {L : List Action} {s : Nat} (hs : L.Pairwise ActLt) (hX : ∀ x ∈ L, x.symbol = s) (hne : L ≠ [])
    (hr : ∀ x ∈ L, x.code = .REDUCE → 3 ≤ x.number) :
    ∃ (sh : Int) (rules : List Nat), altsOf L = sh :: rules.map (fun r : Nat => (r : Int)) ∧
      Enumerates sh rules (fun a => match a with
        | .shift k => ∃ x ∈ L, x.code = .SHIFT ∧ x.number = k
        | .reduce r => ∃ x ∈ L, x.code = .REDUCE ∧ x.number = r + 2) ∧ (sh = -1 → rules ≠ []) := by
  have hredl : ∀ l : List Action, (∀ x ∈ l, x.code = .REDUCE) → (∀ x ∈ l, 3 ≤ x.number) →
      l.map Action.alt = (l.map (fun x => x.number - 2)).map (fun r : Nat => (r : Int)) := by
    intro l hc h3
    rw [List.map_map]
    apply List.map_congr_left
    intro x hx
    have := h3 x hx
    simp only [Action.alt, Function.comp, hc x hx]
    rw [if_neg (by simp)]
    omega
  have hsorted : ∀ l : List Action, l.Pairwise ActLt → (∀ x ∈ l, x.symbol = s) → (∀ x ∈ l, x.code = .REDUCE) → (∀ x ∈ l, 3 ≤ x.number) →
      (l.map (fun x => x.number - 2)).Pairwise (· < ·) := by
    intro l h1 h2 h3 h4
    rw [List.pairwise_map]
    refine h1.imp_of_mem ?_
    intro a b ha hb h
    unfold ActLt at h
    rw [h2 a ha, h2 b hb, h3 a ha, h3 b hb] at h
    have := h4 a ha
    have := h4 b hb
    simp at h
    omega
  cases L with
  | nil => exact absurd rfl hne
  | cons x l =>
    have hp := List.pairwise_cons.1 hs
    have hlred : ∀ y ∈ l, y.code = .REDUCE := by
      intro y hy
      have := hp.1 y hy
      unfold ActLt at this
      rw [hX x (by simp), hX y (by simp [hy])] at this
      rcases this with h | ⟨-, h | h⟩
      · omega
      · exact h.2
      · exact h.2.1
    have h3 : ∀ y ∈ l, 3 ≤ y.number := fun y hy => hr y (by simp [hy]) (hlred y hy)
    cases hc : x.code with
    | SHIFT =>
      refine ⟨x.number, l.map (fun x => x.number - 2), ?_, ⟨?_, .inr (by omega), ?_, hsorted l hp.2 (fun y hy => hX y (by simp [hy])) hlred h3⟩, by omega⟩
      · rw [altsOf_cons, if_pos hc, List.nil_append, List.map_cons, hredl l hlred h3]
        simp [Action.alt, hc]
      · intro k
        constructor
        · rintro ⟨y, hy, c, rfl⟩
          rcases List.mem_cons.1 hy with rfl | hy
          · rfl
          · rw [hlred y hy] at c; cases c
        · intro h
          exact ⟨x, by simp, hc, by omega⟩
      · intro r
        constructor
        · rintro ⟨y, hy, c, e⟩
          rcases List.mem_cons.1 hy with rfl | hy
          · rw [hc] at c; cases c
          · exact List.mem_map.2 ⟨y, hy, by omega⟩
        · intro h
          obtain ⟨y, hy, e⟩ := List.mem_map.1 h
          have := h3 y hy
          exact ⟨y, by simp [hy], hlred y hy, by omega⟩
    | REDUCE =>
      have hall : ∀ y ∈ x :: l, y.code = .REDUCE := by
        intro y hy
        rcases List.mem_cons.1 hy with rfl | hy
        · exact hc
        · exact hlred y hy
      have h3' : ∀ y ∈ x :: l, 3 ≤ y.number := fun y hy => hr y hy (hall y hy)
      refine ⟨-1, (x :: l).map (fun x => x.number - 2), ?_, ⟨?_, .inl rfl, ?_, hsorted _ hs hX hall h3'⟩, by simp⟩
      · rw [altsOf_cons, if_neg (by rw [hc]; simp), hredl _ hall h3']
        rfl
      · intro k
        constructor
        · rintro ⟨y, hy, c, rfl⟩
          rw [hall y hy] at c; cases c
        · intro h; omega
      · intro r
        constructor
        · rintro ⟨y, hy, c, e⟩
          exact List.mem_map.2 ⟨y, hy, by omega⟩
        · intro h
          obtain ⟨y, hy, e⟩ := List.mem_map.1 h
          have := h3' y hy
          exact ⟨y, hy, hall y hy, by omega⟩

/-- What the automaton and the lookaheads allow. -/
def Poss (g : Gram) (G : CFG) (o : Generated) (q X : Nat) : Choice → Prop
  | .shift s => ShiftsTo o.aut q X s
  | .reduce r => (∃ d, AItem g G o.aut q r d ∧ Complete G r d) ∧ LASet G (ShiftsTo o.aut) q r X

/-- Precedence decides between two choices. -/
def Decides (g : Gram) (sp : SymPrec) (lemon : Bool) (X : Nat) : Choice → Choice → Prop
  | .shift _, .reduce r => 0 < sp.prec.getD X 0 ∧ 0 < g.rprec.getD (r + 2) 0
  | .reduce r, .reduce r' => lemon = true ∧ r ≠ r' ∧ 0 < g.rprec.getD (r + 2) 0 ∧ 0 < g.rprec.getD (r' + 2) 0
  | _, .shift _ => False

/-- the choice an action stands for -/
def Action.choice (x : Action) : Choice := if x.code = .SHIFT then .shift x.number else .reduce (x.number - 2)

section
variable {g : Gram} {G : CFG} {sp : SymPrec} {lemon : Bool} {e1 e2 : Int} {o : Generated} {sv : List Int} {t : BTables}

theorem GenB.poss_of_row (K : GenB g G sp lemon e1 e2 o) {q : Nat} (hq : q < o.aut.nstates) {x : Action}
    (hx : x ∈ o.parser.rows.getD q []) : Poss g G o q x.symbol x.choice ∧
      (x.code = .SHIFT → x.prec = sp.prec.getD x.symbol 0) ∧ (x.code = .REDUCE → x.prec = g.rprec.getD x.number 0) := by
  rcases (K.A.mem q hq _).1 (K.mem_row hq hx) with ⟨X, t, hX, hs, e⟩ | ⟨r, t, h1, h2, ht, e⟩
  · have e1 : x.symbol = X := congrArg Action.symbol e
    have e2 : x.number = t := congrArg Action.number e
    have e3 : x.code = .SHIFT := congrArg Action.code e
    have e4 : x.prec = sp.prec.getD X 0 := congrArg Action.prec e
    refine ⟨?_, fun _ => by rw [e4, e1], fun h => by rw [e3] at h; cases h⟩
    unfold Action.choice
    rw [if_pos e3, e1, e2]
    exact hs
  · have e1 : x.symbol = t := congrArg Action.symbol e
    have e2 : x.number = r + 2 := congrArg Action.number e
    have e3 : x.code = .REDUCE := congrArg Action.code e
    have e4 : x.prec = g.rprecOf (r + 2) := congrArg Action.prec e
    refine ⟨?_, (fun h => by rw [e3] at h; cases h), fun _ => by rw [e4, e2]; rfl⟩
    unfold Action.choice
    rw [if_neg (by rw [e3]; simp), e1, e2]
    exact ⟨h1, h2⟩

theorem GenB.row_of_poss (K : GenB g G sp lemon e1 e2 o) {q X : Nat} (hq : q < o.aut.nstates) (hX : X < g.ntokens) {a : Choice}
    (h : Poss g G o q X a) : ∃ x ∈ o.parser.rows.getD q [], x.symbol = X ∧ x.choice = a := by
  have hin : ∀ y ∈ o.acts g sp q, ∃ x ∈ o.parser.rows.getD q [], x.supp 0 = y := by
    intro y hy
    rw [← K.same hq] at hy
    obtain ⟨x, hx, rfl⟩ := List.mem_map.1 hy
    exact ⟨x, hx, rfl⟩
  have hX' : X < G.ntok := by rw [← K.A.ctx.packs.ntok]; exact hX
  cases a with
  | shift s =>
    obtain ⟨x, hx, e⟩ := hin _ ((K.A.mem q hq _).2 (.inl ⟨X, s, hX', h, rfl⟩))
    have e1 : x.symbol = X := congrArg Action.symbol e
    have e2 : x.number = s := congrArg Action.number e
    have e3 : x.code = .SHIFT := congrArg Action.code e
    refine ⟨x, hx, e1, ?_⟩
    unfold Action.choice
    rw [if_pos e3, e2]
  | reduce r =>
    obtain ⟨x, hx, e⟩ := hin _ ((K.A.mem q hq _).2 (.inr ⟨r, X, h.1, h.2, hX', rfl⟩))
    have e1 : x.symbol = X := congrArg Action.symbol e
    have e2 : x.number = r + 2 := congrArg Action.number e
    have e3 : x.code = .REDUCE := congrArg Action.code e
    refine ⟨x, hx, e1, ?_⟩
    unfold Action.choice
    rw [if_neg (by rw [e3]; simp), e2]
    rfl

theorem GenB.choice_inj (K : GenB g G sp lemon e1 e2 o) {q : Nat} (hq : q < o.aut.nstates) {x y : Action}
    (hx : x ∈ o.parser.rows.getD q []) (hy : y ∈ o.parser.rows.getD q []) (hs : x.symbol = y.symbol) (h : x.choice = y.choice) : x = y := by
  by_contra hne
  have hlt : ActLt x y ∨ ActLt y x := by
    obtain ⟨i, hi, rfl⟩ := List.mem_iff_getElem.1 hx
    obtain ⟨j, hj, rfl⟩ := List.mem_iff_getElem.1 hy
    have := List.pairwise_iff_getElem.1 (K.sorted hq)
    rcases Nat.lt_trichotomy i j with h' | h' | h'
    · exact .inl (this i j hi hj h')
    · subst h'; exact absurd rfl hne
    · exact .inr (this j i hj hi h')
  have R := K.rowOK q hq
  have aux : ∀ x y : Action, x ∈ o.parser.rows.getD q [] → y ∈ o.parser.rows.getD q [] → x.symbol = y.symbol → x.choice = y.choice →
      ¬ ActLt x y := by
    intro x y hx hy hs h hl
    unfold ActLt at hl
    unfold Action.choice at h
    rcases hl with hl | ⟨-, ⟨c1, c2⟩ | ⟨c1, c2, hl⟩⟩
    · omega
    · rw [if_pos c1, if_neg (by rw [c2]; simp)] at h; cases h
    · have := R.red x hx c1
      rw [if_neg (by rw [c1]; simp), if_neg (by rw [c2]; simp)] at h
      injection h with h
      omega
  rcases hlt with hl | hl
  · exact aux x y hx hy hs h hl
  · exact aux y x hy hx hs.symm h.symm hl

/-- a list in the tables -/
theorem BTablesOK.lists (K : GenB g G sp lemon e1 e2 o) (T : BTablesOK g G sv o t) {q : Nat} (hq : q < o.aut.nstates)
    (hd : t.defred.getD q 0 = 0) {x : Int} (hx : 0 ≤ x) {j : Nat} (hj : t.conflictOn q x = some j) :
    ∃ X, X < g.ntokens ∧ x = sv.getD X 0 ∧ ∃ sh rules, Lists t.ctable j sh rules ∧ (sh = -1 → rules ≠ []) ∧
      Enumerates sh rules (fun a => ∃ x ∈ o.parser.rows.getD q [], x.symbol = X ∧ x.suppressed = 1 ∧ x.choice = a) := by
  obtain ⟨X, hX, hm, rfl, hl⟩ := T.list q hq x j hx hj
  refine ⟨X, hX, rfl, ?_⟩
  have hd0 : o.parser.defred.getD q 0 = 0 := by
    rcases T.defred q hq with ⟨h1, -⟩ | ⟨r, h0, h1, h2⟩
    · exact h1
    · rw [List.getD_eq_getElem?_getD, h2] at hd
      simp at hd; omega
  rw [hd0] at hl
  have R := K.rowOK q hq
  have hmem : ∀ y, y ∈ listing 0 (o.parser.rows.getD q []) X ↔ y ∈ o.parser.rows.getD q [] ∧ y.symbol = X ∧ y.suppressed = 1 := by
    intro y
    unfold listing
    rw [List.mem_filter]
    simp only [Bool.and_eq_true, beq_iff_eq, Bool.or_eq_true, bne_iff_ne]
    constructor
    · rintro ⟨h1, ⟨h2, h3⟩, -⟩; exact ⟨h1, h2, h3⟩
    · rintro ⟨h1, h2, h3⟩
      have := R.num y h1
      exact ⟨h1, ⟨h2, h3⟩, .inr (by omega)⟩
  obtain ⟨sh, rules, f1, f2, f3⟩ := altsOf_lists (L := listing 0 (o.parser.rows.getD q []) X) (s := X) ((K.sorted hq).filter _)
    (fun y hy => ((hmem y).1 hy).2.1)
    (by
      obtain ⟨y, hy, h1, h2⟩ := hm
      exact List.ne_nil_of_mem ((hmem y).2 ⟨hy, h1, h2⟩))
    (fun y hy hc => R.red y ((hmem y).1 hy).1 hc)
  refine ⟨sh, rules, ?_, f3, ?_⟩
  · unfold Lists
    rw [← f1]
    exact hl
  · have heq : (fun a => match a with
        | .shift k => ∃ x ∈ listing 0 (o.parser.rows.getD q []) X, x.code = .SHIFT ∧ x.number = k
        | .reduce r => ∃ x ∈ listing 0 (o.parser.rows.getD q []) X, x.code = .REDUCE ∧ x.number = r + 2) =
        (fun a : Choice => ∃ x ∈ o.parser.rows.getD q [], x.symbol = X ∧ x.suppressed = 1 ∧ x.choice = a) := by
      funext a
      cases a with
      | shift k =>
        simp only [eq_iff_iff]
        constructor
        · rintro ⟨y, hy, h1, h2⟩
          obtain ⟨k1, k2, k3⟩ := (hmem y).1 hy
          exact ⟨y, k1, k2, k3, by unfold Action.choice; rw [if_pos h1, h2]⟩
        · rintro ⟨y, k1, k2, k3, h⟩
          refine ⟨y, (hmem y).2 ⟨k1, k2, k3⟩, ?_⟩
          unfold Action.choice at h
          split at h
          · rename_i hc; injection h with h; exact ⟨hc, h⟩
          · cases h
      | reduce r =>
        simp only [eq_iff_iff]
        constructor
        · rintro ⟨y, hy, h1, h2⟩
          obtain ⟨k1, k2, k3⟩ := (hmem y).1 hy
          exact ⟨y, k1, k2, k3, by unfold Action.choice; rw [if_neg (by rw [h1]; simp), h2]; rfl⟩
        · rintro ⟨y, k1, k2, k3, h⟩
          refine ⟨y, (hmem y).2 ⟨k1, k2, k3⟩, ?_⟩
          unfold Action.choice at h
          split at h
          · cases h
          · rename_i hc
            have hc : y.code = .REDUCE := by cases h' : y.code <;> simp_all
            have := R.red y k1 hc
            injection h with h
            exact ⟨hc, by omega⟩
    rw [heq] at f2
    exact f2

/-- marks of a token about which precedence says nothing -/
theorem GenB.marks (K : GenB g G sp lemon e1 e2 o) {q X : Nat} (hq : q < o.aut.nstates)
    (hnp : ∀ a b, Poss g G o q X a → Poss g G o q X b → ¬ Decides g sp lemon X a b) :
    ∀ x ∈ o.parser.rows.getD q [], x.symbol = X → x.suppressed = if 2 ≤ onTok X (o.parser.rows.getD q []) then 1 else 0 := by
  have hrow := K.row hq
  have hacts : ∀ x ∈ o.acts g sp q, x.suppressed = 0 ∧ Poss g G o q x.symbol x.choice ∧
      (x.code = .SHIFT → x.prec = sp.prec.getD x.symbol 0) ∧
      (x.code = .REDUCE → x.prec = g.rprec.getD x.number 0 ∧ 3 ≤ x.number) := by
    intro x hx
    rw [← K.same hq] at hx
    obtain ⟨y, hy, rfl⟩ := List.mem_map.1 hx
    obtain ⟨h1, h2, h3⟩ := K.poss_of_row hq hy
    exact ⟨rfl, h1, h2, fun h => ⟨h3 h, (K.rowOK q hq).red y hy h⟩⟩
  have := crRowB_group (lemon := lemon) (fin := q == o.parser.final) (X := X) (acts := o.acts g sp q) (K.A.sorted q hq)
    (fun x hx => (hacts x hx).1) (by
      intro x hx y hy hxX hyX hne hc hh
      obtain ⟨-, p1, p2, p3⟩ := hacts x hx
      obtain ⟨-, r1, r2, r3⟩ := hacts y hy
      rw [hxX] at p1
      rw [hyX] at r1
      refine hnp _ _ p1 r1 ?_
      have n2 := (r3 hc).2
      have ey : y.choice = .reduce (y.number - 2) := by unfold Action.choice; rw [if_neg (by rw [hc]; simp)]
      have yp : 0 < g.rprec.getD (y.number - 2 + 2) 0 := by
        rw [show y.number - 2 + 2 = y.number by omega, ← (r3 hc).1]; exact hh.2.1
      rw [ey]
      cases hcx : x.code with
      | SHIFT =>
        have ex : x.choice = .shift x.number := by unfold Action.choice; rw [if_pos hcx]
        rw [ex]
        refine ⟨?_, yp⟩
        rw [← hxX, ← p2 hcx]; exact hh.1
      | REDUCE =>
        have n1 := (p3 hcx).2
        have ex : x.choice = .reduce (x.number - 2) := by unfold Action.choice; rw [if_neg (by rw [hcx]; simp)]
        rw [ex]
        refine ⟨?_, ?_, ?_, yp⟩
        · rcases hh.2.2 with h | h
          · rw [hcx] at h; cases h
          · exact h
        · intro e
          have hs : (o.acts g sp q).Pairwise ActLt := K.A.sorted q hq
          apply hne
          obtain ⟨i, hi, rfl⟩ := List.mem_iff_getElem.1 hx
          obtain ⟨j, hj, rfl⟩ := List.mem_iff_getElem.1 hy
          have hp := List.pairwise_iff_getElem.1 hs
          rcases Nat.lt_trichotomy i j with h' | h' | h'
          · have := hp i j hi hj h'
            unfold ActLt at this
            rw [hxX, hyX, hcx, hc, show (o.acts g sp q)[i].number = (o.acts g sp q)[j].number by omega] at this
            simp at this
          · subst h'; rfl
          · have := hp j i hj hi h'
            unfold ActLt at this
            rw [hxX, hyX, hcx, hc, show (o.acts g sp q)[i].number = (o.acts g sp q)[j].number by omega] at this
            simp at this
        · rw [show x.number - 2 + 2 = x.number by omega, ← (p3 hcx).1]; exact hh.1)
  rw [← hrow] at this
  exact this

theorem two_onTok {X : Nat} {l : List Action} (hnd : l.Nodup) :
    2 ≤ onTok X l ↔ ∃ x ∈ l, ∃ y ∈ l, x ≠ y ∧ x.symbol = X ∧ y.symbol = X := by
  unfold onTok
  rw [List.countP_eq_length_filter]
  have hf := hnd.filter (fun x => x.symbol == X)
  constructor
  · intro h
    cases hl : l.filter (fun x => x.symbol == X) with
    | nil => rw [hl] at h; simp at h
    | cons a m =>
      cases m with
      | nil => rw [hl] at h; simp at h
      | cons b m =>
        rw [hl] at hf
        have ha : a ∈ l.filter (fun x => x.symbol == X) := by rw [hl]; simp
        have hb : b ∈ l.filter (fun x => x.symbol == X) := by rw [hl]; simp
        rw [List.mem_filter] at ha hb
        refine ⟨a, ha.1, b, hb.1, ?_, by simpa using ha.2, by simpa using hb.2⟩
        rintro rfl
        simp at hf
  · rintro ⟨x, hx, y, hy, hne, h1, h2⟩
    have ha : x ∈ l.filter (fun x => x.symbol == X) := List.mem_filter.2 ⟨hx, by simpa using h1⟩
    have hb : y ∈ l.filter (fun x => x.symbol == X) := List.mem_filter.2 ⟨hy, by simpa using h2⟩
    match hl : l.filter (fun x => x.symbol == X) with
    | [] => rw [hl] at ha; simp at ha
    | [a] =>
      rw [hl] at ha hb
      simp at ha hb
      exact absurd (ha.trans hb.symm) hne
    | a :: b :: m => rw [hl]; simp

theorem sum_zero : ∀ l : List Nat, (∀ x ∈ l, x = 0) → l.sum = 0
  | [], _ => rfl
  | a :: l, h => by
    rw [List.sum_cons, h a (by simp), sum_zero l (fun x hx => h x (by simp [hx]))]

/-- a reported conflict is in the array -/
theorem GenB.listed (K : GenB g G sp lemon e1 e2 o) (hsv : SymVals g.ntokens g.nsyms sv)
    (h : 0 < o.parser.SRtotal + o.parser.RRtotal) {st : List Int × List Vec} (hst : tokenActionsB g sv o = .ok st) : st.1 ≠ [] := by
  obtain ⟨hs, hr⟩ := K.totals
  have hex : ∃ q, q < o.aut.nstates ∧ 0 < (crRowB lemon (q == o.parser.final) (o.acts g sp q)).sr +
      (crRowB lemon (q == o.parser.final) (o.acts g sp q)).rr := by
    by_contra hne
    have hz : ∀ q ∈ List.range o.aut.nstates, (crRowB lemon (q == o.parser.final) (o.acts g sp q)).sr = 0 ∧
        (crRowB lemon (q == o.parser.final) (o.acts g sp q)).rr = 0 := by
      intro q hq
      have := List.mem_range.1 hq
      by_contra hc
      exact hne ⟨q, this, by omega⟩
    have z1 : ((List.range o.aut.nstates).map
        (fun q => (crRowB lemon (q == o.parser.final) (o.acts g sp q)).sr)).sum = 0 := by
      exact sum_zero _ (fun x hx => by
        obtain ⟨q, hq, rfl⟩ := List.mem_map.1 hx
        exact (hz q hq).1)
    have z2 : ((List.range o.aut.nstates).map
        (fun q => (crRowB lemon (q == o.parser.final) (o.acts g sp q)).rr)).sum = 0 := by
      exact sum_zero _ (fun x hx => by
        obtain ⟨q, hq, rfl⟩ := List.mem_map.1 hx
        exact (hz q hq).2)
    omega
  obtain ⟨q, hq, hpos⟩ := hex
  obtain ⟨x, hx, h1⟩ := crRowB_marked lemon (q == o.parser.final) (o.acts g sp q) hpos
  rw [← K.row hq] at hx
  obtain ⟨st', hst', -, -, -, -, -, -, hc⟩ := tokenActionsB_ok K hsv
  rw [hst] at hst'
  injection hst' with e
  subst e
  obtain ⟨y, hy⟩ := (hc q hq).2 x.symbol ⟨x, hx, rfl, h1⟩
  obtain ⟨s, -, -, -, hp⟩ := (hc q hq).1 _ _ hy
  intro e
  rw [e] at hp
  have := hp.length_le
  simp at this

end
end Verif.Byacc
