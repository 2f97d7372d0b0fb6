import Verif.Proofs.BtGen
import Verif.Props.C83
/-
C84 — the parser with backtracking is sound and stays within its arrays (byacc/btyaccpar.skel, option -B).
-/
set_option autoImplicit false
namespace Verif.Byacc
open Spec

/-- What the actions of the grammar do outside trials: compute a value from `$1`, ..., `$m` and the
default value, possibly after `YYVALID` or `YYVALID_NESTED`, or execute `YYERROR`.  In a trial, where only the
actions in brackets are executed, they may do anything. -/
def BPureActs {V : Type} (P : BDriver V) (fa : Nat → V → List V → V) : Prop :=
  ∀ r d st, P.act false r d st ∈ [.val (fa r d ((st.take (P.t.len.getD r 0).toNat).reverse)),
    .yyvalid (fa r d ((st.take (P.t.len.getD r 0).toNat).reverse)),
    .yyvalidNested (fa r d ((st.take (P.t.len.getD r 0).toNat).reverse)), .yyerror]

/-- C84: the parser generated from any grammar with -B, run on any input; `queue` and `lvp` are what an
earlier call left in the queue of tokens.  When it stops, and has neither reported a syntax error nor executed `YYERROR`
outside a trial, it has done one of these:

- accepted: then the tokens read (those left in the queue and those of the input up to the end marker) are a sentence, the
  reductions performed outside trials are, reversed, a rightmost derivation of it, each token is
  shifted once outside trials, the stack holds what it held at first and the value of the parse tree built
  by these reductions, and the stack is within its bounds;
- run out of stack, the stack being full at its largest size;
- been aborted by `YYABORT` in a trial;
- read outside the queue, which takes a `YYERROR` in a trial. -/
theorem C84_backtrack_sound (lp : Bool) (ntokens nsyms : Nat) (rs : List SrcRule)
    (h : UserRules ntokens nsyms (rs.map SrcRule.rule)) (h2 : 2 ≤ ntokens) (g : Gram)
    (hg : g = packGrammar lp ntokens nsyms (rs.map SrcRule.p) (encPitem rs))
    (sp : SymPrec) (lemon : Bool) (e1 e2 : Int) (sv : List Int) (hsv : SymVals ntokens nsyms sv) :
    ∃ o, generateB g sp lemon e1 e2 = some o ∧ ∀ t, outputTablesB g sv o = .ok t →
      ∀ (V : Type) (P : BDriver V) (fa : Nat → V → List V → V), P.t = t → BPureActs P fa → 2 ≤ P.init →
      ∀ (size : Nat) (u : V) (input queue : List (Int × V)) (lvp n : Nat) (r : BHalt) (c : BCfg V),
        (size = 0 ∨ 2 ≤ size) → lvp ≤ queue.length →
        P.run n (P.start size u input queue lvp) = .done r c → Ev.report ∉ c.log → Ev.raised ∉ c.log →
        let G := augCFG ntokens (rs.map SrcRule.rule)
        (r = .std .accept ∧ c.stack.length ≤ c.size ∧ ∃ (ps : List Nat) (w : List (Nat × V)) (q : Nat) (v : V),
          tokensOf (queue.drop lvp ++ input) = w.map (fun p => (sv.getD p.1 0, p.2)) ∧
          G.Sentence (ntokens + 1) (w.map Prod.fst) ∧
          reductions c.log = ps.reverse ∧
          shifts c.log = (w.map fun p => sv.getD p.1 0).reverse ∧
          G.Rightmost ps.reverse [ntokens + 1] (w.map Prod.fst) ∧
          c.stack = [(q, v), (0, u)] ∧
          Builds G (fun r vs => fa r (vs.headD P.zero) vs) ps [ntokens + 1] w [v]) ∨
        (r = .std .overflow ∧ c.stack.length = c.size ∧ P.max ≤ c.size) ∨
        (r = .std .abort ∧ c.stack.length ≤ c.size ∧ ∃ r d st, P.act true r d st = .yyabort) ∨
        (r = .badRead ∧ c.stack.length ≤ c.size ∧ ∃ r d st, P.act true r d st = .yyerror) := by
  obtain ⟨o, ho, hp, K⟩ := generateB_ok lp ntokens nsyms rs h g hg sp lemon e1 e2
  have hnt : g.ntokens = ntokens := K.A.ctx.packs.ntok
  have hns : g.nsyms = nsyms := by rw [hg]; rfl
  have hsv' : SymVals g.ntokens g.nsyms sv := by rw [hnt, hns]; exact hsv
  refine ⟨o, ho, ?_⟩
  intro t ht V P fa hPt hact hinit size u input queue lvp n r c hsz hl hrun hq1 hq2 G
  have T := bTabSound K hsv' (by omega) (outputTablesB_ok K hsv' ht)
  subst hPt
  have hA : ActsOK P fa (fun _ => True) := by
    refine ⟨fun r d st => ?_, fun _ _ _ => .inl fun _ => trivial⟩
    have := hact r d st
    simp only [List.mem_cons, List.not_mem_nil, or_false] at this
    rcases this with h | h | h | h
    · exact .inl h
    · exact .inr (.inl h)
    · exact .inr (.inr (.inl h))
    · exact .inr (.inr (.inr ⟨fun _ => trivial, h⟩))
  rcases (T.run_ok (eok_true P.t) hA size u input queue lvp hl hsz hinit trivial n).2 r c hrun with ⟨-, h⟩ | ⟨h0, -, h1, ps, w, q, v, hb, h3, h4, h5, h6⟩ | h | h | h
  · exact absurd ⟨hq1, hq2⟩ h
  · refine .inl ⟨h0, h1, ps, w, q, v, h6, ⟨?_, Rightmost.derives hb.rightmost⟩, h4, h5, hb.rightmost, h3, hb⟩
    intro x hx
    obtain ⟨p, hp, rfl⟩ := List.mem_map.1 hx
    exact hb.toks p hp
  · exact .inr (.inl h)
  · exact .inr (.inr (.inl h))
  · exact .inr (.inr (.inr h))

/-- Example `s: a 'x' 'p' | b 'x' 'q'; a: 'i'; b: 'i';`, which needs two tokens of lookahead
(`$end` 0, error 1, 'i' 2, 'x' 3, 'p' 4, 'q' 5, `$accept` 6, s 7, a 8, b 9). -/
def c84B (i : Nat) : Bucket := ⟨i, decide (i < 6), 0, .TOKEN⟩
def c84Rules : List SrcRule :=
  [⟨c84B 7, [c84B 8, c84B 3, c84B 4], UNDEFINED, .TOKEN⟩, ⟨c84B 7, [c84B 9, c84B 3, c84B 5], UNDEFINED, .TOKEN⟩,
   ⟨c84B 8, [c84B 2], UNDEFINED, .TOKEN⟩, ⟨c84B 9, [c84B 2], UNDEFINED, .TOKEN⟩]
def c84G : Gram := packGrammar false 6 10 (c84Rules.map SrcRule.p) (encPitem c84Rules)
def c84SP : SymPrec := ⟨List.replicate 10 0, List.replicate 10 .TOKEN⟩
def c84SV : List Int := [0, 256, 105, 120, 112, 113, -1, 0, 1, 2]
def c84T : Option BTables :=
  (genWithB 20 c84G c84SP false (-1) (-1)).bind fun o =>
    match outputTablesB c84G c84SV o with | .ok t => some t | _ => none

theorem c84_rules : UserRules 6 10 (c84Rules.map SrcRule.rule) := by
  refine ⟨by decide, by decide, ?_⟩
  intro A α h
  simp [c84Rules, SrcRule.rule, c84B] at h
  rcases h with ⟨rfl, rfl⟩ | ⟨rfl, rfl⟩ | ⟨rfl, rfl⟩ | ⟨rfl, rfl⟩ <;> simp

theorem c84_symVals : SymVals 6 10 c84SV :=
  ⟨by decide, by
    have : ∀ i < 6, ∀ j < 6, c84SV.getD i 0 = c84SV.getD j 0 → i = j := by decide
    exact fun i j hi hj e => this i hi j hj e, by decide, by
    have : ∀ A < 10, 6 ≤ A → c84SV.getD A 0 = (A : Int) - (6 : Nat) - 1 := by decide
    exact fun A h1 h2 => this A h2 h1⟩

/-- A parser with given tables and actions, and the stack sizes of the skeleton. -/
def c84P (t : BTables) (act : Bool → Nat → Int → List Int → BAct Int) : BDriver Int :=
  { t := t, act := act, zero := 0, init := 200, max := 10000 }

/-- the action `{ $$ = 10 * $1 + r }` of rule `r`, skipped in a trial -/
def c84Act : Bool → Nat → Int → List Int → BAct Int := fun trial r d _ => .val (if trial then d else 10 * d + r)

/-- How a parse ends: the outcome, the values on the stack, the log, and what is left in the queue. -/
structure BOut (V : Type) where
  halt : BHalt
  vals : List V
  log : List Ev
  queue : List (Int × V)
  lvp : Nat
deriving DecidableEq

/-- Run for `n` steps. -/
def bOutcome {V : Type} (P : BDriver V) (n : Nat) (u : V) (input queue : List (Int × V)) (lvp : Nat) : Option (BOut V) :=
  match P.run n (P.start 0 u input queue lvp) with
  | .done h c => some ⟨h, c.stack.map Prod.snd, c.log, c.queue, c.lvp⟩
  | .next _ => none

example (t : BTables) : BPureActs (c84P t c84Act) (fun r d _ => 10 * d + r) := by
  intro r d st
  simp [c84P, c84Act]

/-- `i x q` is accepted: the second alternative is tried after the first has failed. -/
example : (c84T.bind fun t => bOutcome (c84P t c84Act) 40 0 [(105, 1), (120, 2), (113, 3)] [] 0) =
    some ⟨.std .accept, [142, 0], [.reduce 2, .shift 113, .shift 120, .reduce 4, .shift 105],
      [(120, 2), (113, 3), (0, 3)], 3⟩ := by decide +kernel

/-- `i x p` is accepted by the first alternative, `i x x` is reported. -/
example : (c84T.bind fun t => (bOutcome (c84P t c84Act) 40 0 [(105, 1), (120, 2), (112, 3)] [] 0).map (fun r => (r.halt, r.vals, r.log))) =
      some (.std .accept, [131, 0], [.reduce 1, .shift 112, .shift 120, .reduce 3, .shift 105]) ∧
    (c84T.bind fun t => (bOutcome (c84P t c84Act) 40 0 [(105, 1), (120, 2), (120, 3)] [] 0).map (fun r => (r.halt, r.vals, r.log))) =
      some (.std .abort, [0], [.pop, .pop, .report, .shift 105]) := by decide +kernel

/-- C84, the exception for `YYERROR` is needed: if the bracketed actions of both alternatives execute `YYERROR` the
parser reads the token before the queue (`yylexp[-1]`, byacc/btyaccpar.skel:775). -/
theorem C84_read_violated : ∃ t, c84T = some t ∧
    (bOutcome (c84P t (fun trial r d _ => if trial ∧ 3 ≤ r then .yyerror else .val d)) 40 0 [(105, 1), (120, 2), (112, 3)] [] 0).map BOut.halt =
      some .badRead := by
  refine Option.isSome_iff_exists.1 (show c84T.isSome = true by decide +kernel) |>.imp fun t ht => ⟨ht, ?_⟩
  have : (c84T.bind fun t => (bOutcome (c84P t (fun trial r d _ => if trial ∧ 3 ≤ r then .yyerror else .val d)) 40 0
    [(105, 1), (120, 2), (112, 3)] [] 0).map BOut.halt) = some .badRead := by decide +kernel
  rw [ht] at this
  exact this

/-- C84, what an earlier call left in the queue counts: after a call on the sentence `i x q` that an action aborts,
the next call, again on `i x q`, reads the rest of the first sentence again and reports an error, although the
actions now only compute values. -/
theorem C84_stale_violated : ∃ t, c84T = some t ∧
    ∃ s q l, bOutcome (c84P t (fun trial r d _ => if trial = false ∧ r = 4 then .yyabort else .val d)) 40 0
      [(105, 1), (120, 2), (113, 3)] [] 0 = some ⟨.std .abort, s, [.reduce 4, .shift 105], q, l⟩ ∧
    (bOutcome (c84P t c84Act) 40 0 [(105, 1), (120, 2), (113, 3)] [] 0).map BOut.halt = some (.std .accept) ∧
    (bOutcome (c84P t c84Act) 40 0 [(105, 1), (120, 2), (113, 3)] q l).map (fun r => (r.halt, r.log)) =
      some (.std .abort, [.report]) := by
  refine Option.isSome_iff_exists.1 (show c84T.isSome = true by decide +kernel) |>.imp fun t ht => ⟨ht, ?_⟩
  refine ⟨[1, 0], [(120, 2), (113, 3), (0, 3)], 1, ?_⟩
  have : (c84T.map fun t => decide (
    bOutcome (c84P t (fun trial r d _ => if trial = false ∧ r = 4 then .yyabort else .val d)) 40 0
      [(105, 1), (120, 2), (113, 3)] [] 0 = some ⟨.std .abort, [1, 0], [.reduce 4, .shift 105], [(120, 2), (113, 3), (0, 3)], 1⟩ ∧
    (bOutcome (c84P t c84Act) 40 0 [(105, 1), (120, 2), (113, 3)] [] 0).map BOut.halt = some (.std .accept) ∧
    (bOutcome (c84P t c84Act) 40 0 [(105, 1), (120, 2), (113, 3)] [(120, 2), (113, 3), (0, 3)] 1).map (fun r => (r.halt, r.log)) =
      some (.std .abort, [.report]))) = some true := by decide +kernel
  rw [ht] at this
  simp only [Option.map_some, Option.some.injEq] at this
  exact of_decide_eq_true this

end Verif.Byacc
