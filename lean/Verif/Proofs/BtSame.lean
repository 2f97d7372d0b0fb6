import Verif.Proofs.BtGen
import Verif.Proofs.GenDriver
/-
The parser with backtracking, made from a grammar without conflicts, moves as the one without.
-/
set_option autoImplicit false
namespace Verif.Byacc
open Spec

section
variable {V : Type}

/-- What an action does in a parser without backtracking. -/
def BAct.toAct : BAct V → Act V
  | .val v => .val v
  | .yyerror => .yyerror
  | .yyaccept => .yyaccept
  | .yyabort => .yyabort
  | .yyvalid v => .val v
  | .yyvalidNested v => .val v

/-- The result of the parser without backtracking, with the other variables of `c`. -/
def BCfg.with (c : BCfg V) : Res V → BRes V
  | .next d => .next { c with toCfg := d }
  | .done h d => .done (.std h) { c with toCfg := d }

/-- no choice made, no tokens in the queue -/
structure Idle (c : BCfg V) : Prop where
  saves : c.saves = []
  path : c.path = []
  queue : c.queue.length ≤ c.lvp
  red : c.red = none

theorem lift_idle {c : BCfg V} (h : c.saves = []) (r : Res V) : c.lift r = c.with r := by
  cases r <;> simp [BCfg.lift, BCfg.with, BCfg.trial, h]

theorem read_idle {c : BCfg V} (h : Idle c) : c.read = { c with toCfg := c.toCfg.read } := by
  unfold BCfg.read
  cases hc : c.chr with
  | some x => simp [Cfg.read, hc]
  | none =>
    simp only
    rw [List.getElem?_eq_none h.queue]
    simp [BCfg.trial, h.saves]

/-- The tables of both parsers say the same, and there are no conflicts. -/
structure SameTab (n : Nat) (tB : BTables) (t : Tables) : Prop where
  shift : ∀ q, q < n → ∀ x : Int, 0 ≤ x → tB.shiftOn q x = t.shiftOn q x
  reduce : ∀ q, q < n → ∀ x : Int, 0 ≤ x → tB.reduceOn q x = t.reduceOn q x
  defred : ∀ q, q < n → tB.defred.getD q 0 = t.defred.getD q 0
  final : tB.final = t.final
  errcode : tB.errcode = t.errcode
  conflict : ∀ q, q < n → ∀ x : Int, 0 ≤ x → tB.conflictOn q x = none

variable {P : BDriver V} {P0 : Driver V} {G : CFG} {nsyms n : Nat} {Item Trans : _} {code : Nat → Int}

/-- the actions and constants of both parsers agree, and `YYERROR` is not used -/
structure SameActs (P : BDriver V) (P0 : Driver V) : Prop where
  act : ∀ r d st, P0.act r d st = (P.act false r d st).toAct
  noerr : ∀ r d st, P.act false r d st ≠ .yyerror
  zero : P.zero = P0.zero
  init : P.init = P0.init
  max : P.max = P0.max

theorem SameActs.push (S : SameActs P P0) (c : Cfg V) (q : Nat) (v : V) : P.plain.push c q v = P0.push c q v := by
  unfold Driver.push Driver.grow BDriver.plain
  simp only [S.init, S.max]

theorem same_reduce (T : TabSound G nsyms n Item Trans code P0.t) (TB : TabSound G nsyms n Item Trans code P.t.toTables)
    (E : SameTab n P.t P0.t) (S : SameActs P P0) {c : BCfg V} (hi : Idle c) {γ ss : List Nat} {q r A : Nat} {α : List Nat}
    (hst : c.stack.map Prod.fst = q :: ss) (hs : Spell Trans γ (q :: ss)) (h0 : 0 < r) (hr : G.rules[r]? = some (A, α))
    (hit : Item q r α.length) : P.reduce c r = c.with (P0.reduce c.toCfg r) := by
  obtain ⟨δ, s, below, q', -, hdrop, -, htr, -, hA⟩ := T.shape hs hr hit h0
  have hl : P.t.len.getD r 0 = P0.t.len.getD r 0 := by rw [TB.len r A α hr, T.len r A α hr]
  have hlen : (P0.t.len.getD r 0).toNat = α.length := by rw [T.len r A α hr]; simp
  have hh : P.t.lhs.getD r 0 = P0.t.lhs.getD r 0 := by rw [TB.lhs r A α hr, T.lhs r A α hr]
  have hg : P.t.gotoOf s (P0.t.lhs.getD r 0) = P0.t.gotoOf s (P0.t.lhs.getD r 0) := by
    rw [T.lhs r A α hr, T.goto s A q' hA htr, TB.goto s A q' hA htr]
  have hnote : c.note (.reduce r) = { c with log := .reduce r :: c.log } := by simp [BCfg.note, BCfg.trial, hi.saves]
  unfold BDriver.reduce Driver.reduce
  simp only [hnote, hl, hh, hlen, S.zero]
  by_cases hle : c.stack.length ≤ α.length
  · rw [if_pos hle, if_pos hle]
    simp [BCfg.with, hi.red]
  · rw [if_neg hle, if_neg hle]
    have htr : (BCfg.trial { c with log := .reduce r :: c.log, red := none }) = false := by simp [BCfg.trial, hi.saves]
    rw [htr, S.act]
    have hfin : ∀ v, P.finish { c with log := .reduce r :: c.log, red := none } α.length (P0.t.lhs.getD r 0) v =
        c.with (P0.finish { c.toCfg with log := .reduce r :: c.log } α.length (P0.t.lhs.getD r 0) v) := by
      intro v
      unfold BDriver.finish Driver.finish
      simp only
      cases hd : c.stack.drop α.length with
      | nil => simp [BCfg.with, hi.red]
      | cons p bel =>
        obtain ⟨s', v'⟩ := p
        have hs' : s' = s := by
          have := congrArg (List.map Prod.fst) hd
          rw [List.map_drop, hst, hdrop] at this
          simp only [List.map_cons, List.cons.injEq] at this
          exact this.1.symm
        subst hs'
        simp only
        by_cases hz : s' = 0 ∧ P0.t.lhs.getD r 0 = 0
        · rw [if_pos hz, if_pos hz, E.final]
          cases hw : Cfg.write ({ c.toCfg with stack := (s', v') :: bel, log := .reduce r :: c.log } : Cfg V) P0.t.final v with
          | done h d => simp [BCfg.with, hi.red]
          | next d =>
            simp only
            rw [read_idle (c := { c with toCfg := d, red := none }) ⟨hi.saves, hi.path, hi.queue, rfl⟩]
            simp only
            by_cases hc : d.read.chr = some 0
            · rw [if_pos hc, if_pos hc]
              simp [BCfg.with, BCfg.accept, BCfg.trial, hi.saves, hi.red]
            · rw [if_neg hc, if_neg hc]
              simp [BCfg.with, hi.red]
        · rw [if_neg hz, if_neg hz, lift_idle (by exact hi.saves), S.push, hg]
          cases P0.push _ _ _ <;> simp [BCfg.with, hi.red]
    have hne := S.noerr r (if α.length = 0 then P0.zero else (c.stack.map Prod.snd).getD (α.length - 1) P0.zero) (c.stack.map Prod.snd)
    cases ha : P.act false r (if α.length = 0 then P0.zero else (c.stack.map Prod.snd).getD (α.length - 1) P0.zero) (c.stack.map Prod.snd) with
    | val v => exact hfin v
    | yyerror => exact absurd ha hne
    | yyaccept => simp [BAct.toAct, BCfg.with, BCfg.accept, BCfg.trial, hi.saves, hi.red]
    | yyabort => simp [BAct.toAct, BCfg.with, hi.red]
    | yyvalid v =>
      simp only [BAct.toAct, Bool.false_eq_true, if_false]
      exact hfin v
    | yyvalidNested v =>
      simp only [BAct.toAct]
      rw [if_neg (by simp [hi.saves])]
      exact hfin v

/-- One step of both parsers. -/
theorem same_step (T : TabSound G nsyms n Item Trans code P0.t) (TB : TabSound G nsyms n Item Trans code P.t.toTables)
    (E : SameTab n P.t P0.t) (S : SameActs P P0) {bound : Nat} {c : BCfg V} (hi : Idle c) (B : Base Trans bound c.toCfg) :
    P.step c = c.with (P0.step c.toCfg) := by
  obtain ⟨γ, hs⟩ := B.spell
  unfold BDriver.step Driver.step
  rw [hi.red]
  simp only
  cases hst : c.stack with
  | nil => simp [BCfg.with]
  | cons p below =>
    obtain ⟨q, v⟩ := p
    have hmap : c.stack.map Prod.fst = q :: below.map Prod.fst := by rw [hst]; rfl
    rw [hmap] at hs
    have hq : q < n := T.A.path_lt T.A.pos (hs.path rfl)
    simp only
    cases hrec : c.recover with
    | true =>
      simp only [if_true]
      rw [lift_idle hi.saves]
      congr 1
      have : P.plain.t.shiftOn q P.plain.t.errcode = P0.t.shiftOn q P0.t.errcode := by
        show P.t.shiftOn q P.t.errcode = _
        rw [E.errcode]
        exact E.shift q hq _ T.errcode
      rw [this]
      cases P0.t.shiftOn q P0.t.errcode with
      | none => rfl
      | some q' => exact S.push _ _ _
    | false =>
      simp only [Bool.false_eq_true, if_false]
      rw [E.defred q hq]
      by_cases hd : P0.t.defred.getD q 0 = 0
      · have hd' : ¬ (P0.t.defred.getD q 0 ≠ 0) := fun h => h hd
        rw [if_neg hd', if_neg hd']
        rw [read_idle hi]
        obtain ⟨x, hx, hx0⟩ := read_chr_nonneg c.toCfg B.chr
        simp only [hx, Option.getD_some]
        rw [E.conflict q hq x hx0, E.shift q hq x hx0, E.reduce q hq x hx0]
        simp only
        cases hsh : P0.t.shiftOn q x with
        | some q' =>
          simp only
          rw [lift_idle (by exact hi.saves), S.push]
          cases P0.push _ _ _ <;> simp [BCfg.with]
        | none =>
          simp only
          have hi' : Idle ({ c with toCfg := c.toCfg.read } : BCfg V) := ⟨hi.saves, hi.path, hi.queue, hi.red⟩
          cases hre : P0.t.reduceOn q x with
          | some r =>
            simp only
            obtain ⟨h0, A, α, hr, hit⟩ := T.reduce q hq x r hx0 hre
            have := same_reduce T TB E S hi' (c := { c with toCfg := c.toCfg.read }) (by
              show c.toCfg.read.stack.map Prod.fst = _
              rw [(read_fields c.toCfg).1, hmap]) hs h0 hr hit
            rw [this]
            cases P0.reduce c.toCfg.read r <;> simp [BCfg.with]
          | none =>
            simp only [hi.saves]
            unfold BDriver.handle BCfg.inrecovery
            simp only [if_true]
            by_cases he : c.toCfg.read.errflag = 0
            · rw [if_pos he, if_pos he, lift_idle rfl, hx]
              cases Cfg.inrecovery _ <;> simp [BCfg.with, hi.saves]
            · rw [if_neg he, if_neg he, lift_idle (by first | rfl | exact hi.saves)]
              cases Cfg.inrecovery _ <;> simp [BCfg.with, hi.saves]
      · have hd' : P0.t.defred.getD q 0 ≠ 0 := hd
        rw [if_pos hd', if_pos hd']
        obtain ⟨A, α, hr, hit⟩ := T.defred q hq hd
        exact same_reduce T TB E S hi hmap hs (by omega) hr hit

/-- Any number of steps. -/
theorem same_run (T : TabSound G nsyms n Item Trans code P0.t) (TB : TabSound G nsyms n Item Trans code P.t.toTables)
    (E : SameTab n P.t P0.t) (S : SameActs P P0) {bound : Nat} (hmax : P0.max ≤ bound) : ∀ (m : Nat) (c : BCfg V), Idle c → Base Trans bound c.toCfg →
      P.run m c = c.with (P0.run m c.toCfg) := by
  intro m
  induction m with
  | zero => intro c hi B; simp [BDriver.run, Driver.run, BCfg.with]
  | succ m ih =>
    intro c hi B
    unfold BDriver.run Driver.run
    rw [same_step T TB E S hi B]
    have hb := T.step_base B hmax
    cases hc : P0.step c.toCfg with
    | done h d => simp [BCfg.with]
    | next d =>
      rw [hc] at hb
      simp only [BCfg.with]
      rw [ih { c with toCfg := d } ⟨hi.saves, hi.path, hi.queue, hi.red⟩ hb]
      cases P0.run m d <;> simp [BCfg.with]

end

/-! ### the tables -/

section
variable {g : Gram} {G : CFG} {sp : SymPrec} {lemon : Bool} {e1 e2 : Int} {o : Generated} {sv : List Int}

theorem le_sum_of_mem' {a : Nat} : ∀ l : List Nat, a ∈ l → a ≤ l.sum
  | [], h => absurd h (by simp)
  | b :: l, h => by
    rw [List.sum_cons]
    rcases List.mem_cons.1 h with rfl | h
    · omega
    · have := le_sum_of_mem' l h
      omega

/-- Without conflicts no action has mark 1. -/
theorem GenB.unmarked (K : GenB g G sp lemon e1 e2 o) (h0 : o.parser.SRtotal = 0) (h1 : o.parser.RRtotal = 0) {q : Nat}
    (hq : q < o.aut.nstates) {x : Action} (hx : x ∈ o.parser.rows.getD q []) : x.suppressed ≠ 1 := by
  intro hm
  have hw := K.weight_le
  rw [h0, h1] at hw
  have hpos : weight (o.parser.rows.getD q []) = 0 := by
    have : weight (o.parser.rows.getD q []) ∈ (List.range o.aut.nstates).map (fun q => weight (o.parser.rows.getD q [])) :=
      List.mem_map.2 ⟨q, List.mem_range.2 hq, rfl⟩
    have := le_sum_of_mem' _ this
    omega
  unfold weight at hpos
  have : x ∈ markedOnes (o.parser.rows.getD q []) := List.mem_filter.2 ⟨hx, by simpa using hm⟩
  have := List.length_pos_of_mem this
  omega

theorem forall₂_eq {l m : List Action} (h : List.Forall₂ MarkRel l m) (hm : ∀ x ∈ m, x.suppressed ≠ 1) : l = m := by
  induction h with
  | nil => rfl
  | @cons a b l m hab _ ih =>
    rw [ih (fun x hx => hm x (by simp [hx]))]
    have hb := hm b (by simp)
    obtain ⟨h1, h2 | ⟨-, h2⟩⟩ := hab
    · cases a; cases b
      simp only [Action.supp, Action.mk.injEq] at h1 h2 ⊢
      simp_all
    · exact absurd h2 hb

/-- Without conflicts both parsers have the same actions. -/
theorem GenB.rows_same (K : GenB g G sp lemon e1 e2 o) (h0 : o.parser.SRtotal = 0) (h1 : o.parser.RRtotal = 0) {q : Nat}
    (hq : q < o.aut.nstates) : (o.plain g sp lemon e1 e2).parser.rows.getD q [] = o.parser.rows.getD q [] :=
  forall₂_eq (K.rel hq) (fun _ hx => K.unmarked h0 h1 hq hx)

theorem soleLoop_same : ∀ (acts : List Action) (c r : Nat), (∀ x ∈ acts, x.suppressed ≠ 1) →
    soleLoopB acts c r = soleLoop acts c r := by
  intro acts
  induction acts with
  | nil => intro c r _; rfl
  | cons p acts ih =>
    intro c r h
    have hp : (p.suppressed ≤ 1) ↔ p.suppressed = 0 := by have := h p (by simp); omega
    have hm : p.may = p.live := by rw [Bool.eq_iff_iff]; simp [Action.may, Action.live, hp]
    have ih' := fun c r => ih c r (fun x hx => h x (by simp [hx]))
    unfold soleLoopB soleLoop
    simp only [ih', hm]

theorem GenB.sameTab (K : GenB g G sp lemon e1 e2 o) (h0 : o.parser.SRtotal = 0) (h1 : o.parser.RRtotal = 0) {tB : BTables} {t : Tables}
    (TB : BTablesOK g G sv o tB) (T : TablesOK g G sv (o.plain g sp lemon e1 e2) t) : SameTab o.aut.nstates tB t := by
  have hdr : ∀ q, q < o.aut.nstates → (o.plain g sp lemon e1 e2).parser.defred.getD q 0 = o.parser.defred.getD q 0 := by
    intro q hq
    have hd : o.parser.defred = o.parser.rows.map soleReductionB := by rw [K.parser]; rfl
    have hd' : (o.plain g sp lemon e1 e2).parser.defred = (o.plain g sp lemon e1 e2).parser.rows.map soleReduction := rfl
    have hl : q < o.parser.rows.length := by rw [K.rows_len]; exact hq
    have hrow := K.rows_same h0 h1 hq
    have hl' : q < (o.plain g sp lemon e1 e2).parser.rows.length := by
      have : (o.plain g sp lemon e1 e2).parser.rows.length = o.aut.nstates := by simp [Generated.plain, makeParser]
      omega
    have hu := fun x => K.unmarked h0 h1 hq (x := x)
    rw [List.getD_eq_getElem?_getD, List.getD_eq_getElem?_getD, List.getElem?_eq_getElem hl, List.getElem?_eq_getElem hl'] at hrow
    rw [List.getD_eq_getElem?_getD, List.getElem?_eq_getElem hl] at hu
    simp only [Option.getD_some] at hrow hu
    rw [hd, hd', List.getD_eq_getElem?_getD, List.getD_eq_getElem?_getD, List.getElem?_map, List.getElem?_map,
      List.getElem?_eq_getElem hl, List.getElem?_eq_getElem hl', hrow]
    exact (soleLoop_same _ 0 0 (fun x hx => hu x hx)).symm
  have opt : ∀ {a b : Option Nat}, (∀ y, a = some y ↔ b = some y) → a = b := fun h => Option.ext h
  refine ⟨?_, ?_, ?_, ?_, ?_, ?_⟩
  · intro q hq x hx
    refine opt fun y => ?_
    rw [TB.shift q hq x y hx, T.shift q hq x y hx, K.rows_same h0 h1 hq]
  · intro q hq x hx
    refine opt fun y => ?_
    rw [TB.reduce q hq x y hx, T.reduce q hq x y hx, K.rows_same h0 h1 hq, hdr q hq]
  · intro q hq
    have a := TB.defred q hq
    have b := T.defred q hq
    rw [hdr q hq] at b
    rw [List.getD_eq_getElem?_getD, List.getD_eq_getElem?_getD]
    rcases a with ⟨a1, a2⟩ | ⟨r, a0, a1, a2⟩ <;> rcases b with ⟨b1, b2⟩ | ⟨r', b0, b1, b2⟩
    · rw [a2, b2]
    · omega
    · omega
    · rw [a2, b2, show r = r' by omega]
  · rw [TB.final, T.final, K.final]
  · rw [TB.errcode, T.errcode]
  · intro q hq x hx
    cases hc : tB.conflictOn q x with
    | none => rfl
    | some j =>
      obtain ⟨s, -, hm, -, -⟩ := TB.list q hq x j hx hc
      exfalso
      obtain ⟨y, hy, hy1⟩ := hm
      exact K.unmarked h0 h1 hq hy hy1.2

end
end Verif.Byacc
