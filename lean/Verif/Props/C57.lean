import Verif.Proofs.Forever
import Verif.Props.C20
import Verif.Props.C11
/-
C57 — errors raised by actions (`YYERROR`) during error recovery (byacc/yaccpar.skel,
btyaccpar.skel).
-/
set_option autoImplicit false
namespace Verif.Byacc
open Spec

variable {V : Type}

/-- C57, the part that holds: an action that executes `YYERROR` when recovery is over (fewer than
three of the error count left) starts the recovery again without a report; during recovery it
discards the lookahead, or fails at the end of the input.
Missing: nothing happens if the lookahead has not been read, see `C57_violated`. -/
theorem C57_raise_partial (P : Driver V) (c : Cfg V) (r : Nat) (hd : (P.t.len.getD r 0).toNat < c.stack.length)
    (ha : P.act r (if (P.t.len.getD r 0).toNat = 0 then P.zero else
      (c.stack.map Prod.snd).getD ((P.t.len.getD r 0).toNat - 1) P.zero) (c.stack.map Prod.snd) = .yyerror) :
    (c.errflag < 3 → P.reduce c r = .next { c with errflag := 3, recover := true, log := .raised :: .reduce r :: c.log }) ∧
    (∀ x, c.errflag = 3 → c.chr = some x → x ≠ 0 →
      P.reduce c r = .next { c with chr := none, log := .discard x :: .raised :: .reduce r :: c.log }) ∧
    (c.errflag = 3 → c.chr = some 0 → P.reduce c r = .done .abort { c with log := .raised :: .reduce r :: c.log }) := by
  have hr : P.reduce c r = ({ c with log := .raised :: .reduce r :: c.log } : Cfg V).inrecovery := by
    unfold Driver.reduce
    simp only
    rw [if_neg (by omega), ha]
  rw [hr]
  unfold Cfg.inrecovery
  refine ⟨?_, ?_, ?_⟩
  · intro h; simp [h]
  · intro x h hx h0; simp [h, hx, h0]
  · intro h hx; simp [h, hx]

/-- `s: error ;` with the action `{ YYERROR; }` (`$end` 0, error 1, 'x' 2, `$accept` 3, s 4) -/
def c57B (i : Nat) : Bucket := ⟨i, decide (i < 3), 0, .TOKEN⟩
def c57Rules : List SrcRule := [⟨c57B 4, [c57B 1], UNDEFINED, .TOKEN⟩, ⟨c57B 4, [c57B 2, c57B 2], UNDEFINED, .TOKEN⟩]
def c57G : Gram := packGrammar false 3 5 (c57Rules.map SrcRule.p) (encPitem c57Rules)
def c57SP : SymPrec := ⟨List.replicate 5 0, List.replicate 5 .TOKEN⟩
def c57SV : List Int := [0, 256, 120, -1, 0]
def c57P (t : Tables) : Driver Int := { calcP t with act := fun r d _ => if r = 1 then .yyerror else .val d }

/-- C57 is violated by `s: error { YYERROR; } | 'x' 'x'`: the state after `error` reduces by
default, without reading; on the input `y x x` (and on the empty one) the parser never ends: it
executes the action again and again and reads nothing more. -/
theorem C57_violated : UserRules 3 5 (c57Rules.map SrcRule.rule) ∧
    ∃ o t, generate c57G c57SP false (-1) (-1) = some o ∧ o.parser.SRtotal = 0 ∧ o.parser.RRtotal = 0 ∧
      outputTables 3 c57G c57SV o = .ok t ∧
      ∀ n, ∃ c, (c57P t).run n ((c57P t).start 0 0 [(121, 0), (120, 1), (120, 2)]) = .next c := by
  refine ⟨?_, ?_⟩
  · refine ⟨by decide, by decide, ?_⟩
    intro A α h
    simp [c57Rules, SrcRule.rule, c57B] at h
    rcases h with ⟨rfl, rfl⟩ | ⟨rfl, rfl⟩ <;> simp
  · have hev : (genWith 20 c57G c57SP false (-1) (-1)).bind (fun o =>
        match outputTables 3 c57G c57SV o with
        | .ok t => (match (c57P t).run 3 ((c57P t).start 0 0 [(121, 0), (120, 1), (120, 2)]) with
            | .next c => some (o.parser.SRtotal, o.parser.RRtotal, decide (((c57P t).step c).strip = .next c.strip))
            | _ => none)
        | _ => none) = some (0, 0, true) := by decide +kernel
    cases hg : genWith 20 c57G c57SP false (-1) (-1) with
    | none => rw [hg] at hev; simp at hev
    | some o =>
      rw [hg] at hev
      simp only [Option.bind_some] at hev
      split at hev
      · rename_i t ht
        split at hev
        · rename_i c hc
          simp only [Option.some.injEq, Prod.mk.injEq, decide_eq_true_eq] at hev
          exact ⟨o, t, generate_of_genWith hg (by decide), hev.1, hev.2.1, ht, never_ends hc hev.2.2⟩
        · cases hev
      · cases hev

/-- The same actions are harmless when the lookahead is needed: `l: | l e ';' | l error ';'` with
`YYERROR` for the rule with `error` resumes the recovery until the input ends. -/
example : (c20T.bind fun t => outcome { calcP t with act := fun r d _ => if r = 3 then .yyerror else .val d } 60 0
      [(257, 1), (257, 2), (59, 0), (257, 4), (59, 0)]) =
    some (.abort, [0, 0, 0], [.errShift, .pop, .pop, .raised, .reduce 3, .shift 59, .discard 257, .errShift, .pop, .pop, .raised,
      .reduce 3, .shift 59, .discard 257, .errShift, .pop, .report, .reduce 4, .shift 257, .reduce 1]) := by decide +kernel

end Verif.Byacc
