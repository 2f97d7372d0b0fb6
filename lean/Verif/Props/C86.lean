import Verif.Proofs.BtSame
import Verif.Props.C84
import Verif.Props.C18
/-
C86 — option -B changes nothing for a grammar without conflicts.
-/
set_option autoImplicit false
namespace Verif.Byacc
open Spec

/-- C86: for a grammar in which byacc reports no conflicts (it reports the same with and without -B), the parser
made with -B goes through the same configurations as the one made without: same stack, same tokens, same messages, same
actions, same result, for any input and any actions that do not execute `YYERROR` (`YYVALID` has no effect). -/
theorem C86_same_partial (lp : Bool) (ntokens nsyms : Nat) (rs : List SrcRule)
    (h : UserRules ntokens nsyms (rs.map SrcRule.rule)) (h2 : 2 ≤ ntokens) (g : Gram)
    (hg : g = packGrammar lp ntokens nsyms (rs.map SrcRule.p) (encPitem rs))
    (sp : SymPrec) (lemon : Bool) (e1 e2 : Int) (sv : List Int) (hsv : SymVals ntokens nsyms sv) (per : Nat)
    (hper : per = 2 ∨ per = 3) :
    ∃ o oB, generate g sp lemon e1 e2 = some o ∧ generateB g sp lemon e1 e2 = some oB ∧
      oB.parser.SRtotal = o.parser.SRtotal ∧ oB.parser.RRtotal = o.parser.RRtotal ∧
      (o.parser.SRtotal = 0 → o.parser.RRtotal = 0 →
        ∀ t tB, outputTables per g sv o = .ok t → outputTablesB g sv oB = .ok tB →
        ∀ (V : Type) (P : Driver V) (PB : BDriver V), P.t = t → PB.t = tB →
          (∀ r d st, P.act r d st = (PB.act false r d st).toAct) → (∀ r d st, P.act r d st ≠ .yyerror) →
          PB.zero = P.zero → PB.init = P.init → PB.max = P.max → 2 ≤ P.init →
        ∀ (size : Nat) (u : V) (input queue : List (Int × V)) (n : Nat), (size = 0 ∨ 2 ≤ size) →
          (∀ c, P.run n (P.start size u input) = .next c →
            PB.run n (PB.start size u input queue queue.length) = .next ⟨c, queue, queue.length, [], [], none, none⟩) ∧
          (∀ r c, P.run n (P.start size u input) = .done r c →
            PB.run n (PB.start size u input queue queue.length) = .done (.std r) ⟨c, queue, queue.length, [], [], none, none⟩)) := by
  obtain ⟨oB, hoB, ho, K⟩ := generateB_ok lp ntokens nsyms rs h g hg sp lemon e1 e2
  have hnt : g.ntokens = ntokens := K.A.ctx.packs.ntok
  have hns : g.nsyms = nsyms := by rw [hg]; rfl
  obtain ⟨-, -, k3, k4, -⟩ := K.counts
  refine ⟨_, oB, ho, hoB, k3, k4, ?_⟩
  intro hSR hRR t tB ht htB V P PB hPt hPBt hact hne hz hin hmx hinit size u input queue n hsz
  subst hPt
  subst hPBt
  have hsv' : SymVals g.ntokens g.nsyms sv := by rw [hnt, hns]; exact hsv
  have TO := outputTables_ok K.A (by omega) hsv' ht
  have TBO := outputTablesB_ok K hsv' htB
  have T := tabSound K.A hsv' (by omega) TO
  have TB := bTabSound K hsv' (by omega) TBO
  have E := K.sameTab (k3.trans hSR) (k4.trans hRR) TBO TO
  have S : SameActs PB P := ⟨hact, fun r d st he => hne r d st (by rw [hact, he]; rfl), hz, hin, hmx⟩
  have hstart : PB.start size u input queue queue.length =
      ⟨P.start size u input, queue, queue.length, [], [], none, none⟩ := by
    unfold BDriver.start BDriver.plain Driver.start
    simp [hz, hin]
  have hrun := same_run T TB.plain E S (bound := max P.max (P.start size u input).size) (Nat.le_max_left ..) n
    (PB.start size u input queue queue.length) ⟨rfl, rfl, Nat.le_refl _, rfl⟩ (by
      rw [hstart]
      exact start_base P size u input _ (by simp only [Driver.start]; split <;> omega) (Nat.le_max_right ..))
  rw [hstart] at hrun
  constructor
  · intro c hc
    rw [hstart, hrun, hc]
    rfl
  · intro r c hc
    rw [hstart, hrun, hc]
    rfl

/-- The grammar `s: 'i' 'x' | 'i' error 'x' 'p';` (`$end` 0, error 1, 'i' 2, 'x' 3, 'p' 4, `$accept` 5, s 6). -/
def c86B (i : Nat) : Bucket := ⟨i, decide (i < 5), 0, .TOKEN⟩
def c86Rules : List SrcRule :=
  [⟨c86B 6, [c86B 2, c86B 3], UNDEFINED, .TOKEN⟩, ⟨c86B 6, [c86B 2, c86B 1, c86B 3, c86B 4], UNDEFINED, .TOKEN⟩]
def c86G : Gram := packGrammar false 5 7 (c86Rules.map SrcRule.p) (encPitem c86Rules)
def c86SP : SymPrec := ⟨List.replicate 7 0, List.replicate 7 .TOKEN⟩
def c86SV : List Int := [0, 256, 105, 120, 112, -1, 0]
/-- the tables without and with -B, and whether there are conflicts -/
def c86T : Option (Tables × BTables × Bool) :=
  (genWith 20 c86G c86SP false (-1) (-1)).bind fun o => (genWithB 20 c86G c86SP false (-1) (-1)).bind fun oB =>
    match outputTables 3 c86G c86SV o, outputTablesB c86G c86SV oB with
    | .ok t, .ok tB => some (t, tB, o.parser.SRtotal == 0 && o.parser.RRtotal == 0)
    | _, _ => none

/-- a driver for `t` whose actions are those of `act` -/
def c86P (t : Tables) (act : Bool → Nat → Int → List Int → BAct Int) : Driver Int :=
  { t := t, act := fun r d st => (act false r d st).toAct, zero := 0, init := 200, max := 10000 }

/-- the premises of C86 are met; both parsers accept `i x` and recover on `i p x p` -/
example : (c86T.map fun p => p.2.2) = some true ∧
    (c86T.bind fun p => outcome (c86P p.1 c84Act) 40 0 [(105, 1), (120, 2)]) =
      some (.accept, [11, 0], [.reduce 1, .shift 120, .shift 105]) ∧
    (c86T.bind fun p => bOutcome (c84P p.2.1 c84Act) 40 0 [(105, 1), (120, 2)] [] 0) =
      some ⟨.std .accept, [11, 0], [.reduce 1, .shift 120, .shift 105], [], 0⟩ ∧
    (c86T.bind fun p => (outcome (c86P p.1 c84Act) 40 0 [(105, 1), (112, 2), (120, 3), (112, 4)]).map (fun r => (r.1, r.2.2))) =
      (c86T.bind fun p => (bOutcome (c84P p.2.1 c84Act) 40 0 [(105, 1), (112, 2), (120, 3), (112, 4)] [] 0).bind
        (fun r => match r.halt with | .std h => some (h, r.log) | _ => none)) := by decide +kernel

/-- C86 is false for actions that execute `YYERROR`: without -B the right-hand side stays on the stack
(byacc/yaccpar.skel:236-237, byacc/btyaccpar.skel:785-788), with -B it is removed before recovery begins (byacc/btyaccpar.skel:678-687).  If
the first rule of the grammar above executes `YYERROR`, the input `i x x p` is accepted after recovery without -B and refused
with -B; and only without -B is the error counted. -/
theorem C86_yyerror_violated :
    let act : Bool → Nat → Int → List Int → BAct Int := fun _ r d _ => if r = 1 then .yyerror else .val d
    (c86T.bind fun p => (outcome (c86P p.1 act) 40 0 [(105, 1), (120, 2), (120, 3), (112, 4)]).map (fun r => (r.1, r.2.2))) =
      some (.accept, [.reduce 2, .shift 112, .shift 120, .errShift, .pop, .raised, .reduce 1, .shift 120, .shift 105]) ∧
    (c86T.bind fun p => (bOutcome (c84P p.2.1 act) 40 0 [(105, 1), (120, 2), (120, 3), (112, 4)] [] 0).map fun r => (r.halt, r.log)) =
      some (.std .abort, [.raised, .reduce 1, .shift 120, .shift 105]) := by decide +kernel

end Verif.Byacc
