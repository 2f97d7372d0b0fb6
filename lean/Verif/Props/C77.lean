import Verif.Proofs.LemonValues
import Verif.Props.C68
/-
C77: values of symbols in parsers made by lemon.
-/
set_option autoImplicit false
namespace Verif.Lemon
open Verif.Spec

variable {V : Type} {g : Gram} {fb : Nat → Option Nat} {compress : Bool} {T : Tables} {code : Nat → List V → V → V}

/-- C77, evaluation, as far as it holds.  The parser is given tokens with values and the end of input, accepts, and
reports neither a syntax error nor an overflow of its stack.  Then the value of the start symbol when
it accepts is that of a parse tree for the tokens given, in which the value of each symbol is
computed by the code of its rule from the values of the right-hand side, and the value of a leaf is that
given with its token.  The code run is that of the rules of the tree, children before parents and
from left to right, except that rules with one symbol on the right-hand side and without code may be
left out.  (The leaves of the tree are terminals or multi-terminals `Ys` that the tokens can be taken for.)

Missing: empty rules that do not set the value of their left-hand side (`CodeOK.empty`), for which it does not
hold, see `C77_empty_violated`; and right-hand sides of more than 128 symbols, see C43. -/
theorem C77_values_partial (u : Usable g) (hfb : FallbackOK g fb) (hlen : ∀ r ∈ g.rules, r.rhs.length ≤ 128) (h : Generates g fb compress T)
    (hcode : CodeOK g code) (d : V) (c : PConf) (fuel : Nat) (ts : List (Nat × V)) (hts : ∀ t ∈ ts, t.1 ≠ 0 ∧ t.1 < g.nterm) (v0 : V) (m : Mem V)
    (hm : m.top = 0) (p : PState) (m' : Mem V) (evs : List (VEv V)) (hp : parseValues T c code fuel (ts ++ [(0, v0)]) .init m = some (p, m', evs))
    (ha : ∃ x, .accept x ∈ evs) (hs : ∀ t x, .syntaxError t x ∉ evs) (ho : .overflow ∉ evs) :
    ∃ Ys ps x, .accept x ∈ evs ∧ Builds g.ext (ruleVal g code d) ps [g.start] (Ys.zip (ts.map Prod.snd)) [x] ∧
      List.Forall₂ (fun t Y => ∃ t', ReadAs fb g.wildcard t t' ∧ t' ∈ g.members Y) (ts.map Prod.fst) Ys ∧
      Skips g compress ps (reductions (evs.map VEv.erase)) := by
  obtain ⟨mm, F, A, cs, h⟩ := h
  obtain ⟨Ys, ps, x, h1, h2, h3, h4⟩ := tokens_values u h hfb hlen hcode d (c := c) (fuel := fuel) v0 ts .init p m m' [] [] [] [] evs hts
    (.norm (.bottom 0)) (by decide) (by rw [show m.vals = [] by rw [Mem.vals, hm]; rfl]; exact .nil) .nil hp hs ho ha
  refine ⟨Ys, ps, x, h4, by simpa using h2, ?_, by simpa using h3⟩
  refine h1.imp ?_
  rintro t Y ⟨t', k1, k2, k3⟩
  exact ⟨t', k1, (shiftSyms_members k2 k3).1⟩

/-- The values change nothing: without them the events are those of the model of C39 to C42 and C66 to C70. -/
theorem C77_erase (T : Tables) (c : PConf) (code : Nat → List V → V → V) (fuel : Nat) (ts : List (Nat × V)) (p : PState) (m : Mem V) :
    (parseValues T c code fuel ts p m).map (fun x => (x.1, x.2.2.map VEv.erase)) = parseTokens T c fuel (ts.map Prod.fst) p := by
  induction ts generalizing p m with
  | nil => rfl
  | cons t ts ih =>
    rw [parseValues, List.map_cons, parseTokens, parseValue]
    cases h : parseToken T c fuel p t.1 with
    | none => rfl
    | some x =>
      simp only [Option.map_some, Option.bind_some, Option.map_map]
      rw [← ih x.1 (vsteps T code t.2 x.2 m).1, Option.map_map]
      congr 1
      funext y
      simp only [Function.comp_apply, List.map_append, vsteps_erase]

theorem stackOf_eq (p : PState) (m : Mem V) : stackOf p m = p.symbols.zip m.vals := rfl

/-- C77, values follow their symbols.  The tables have been made from a grammar whose rules have at most 128 symbols on
their right-hand sides.  Whatever tokens the parser has been given (so that it is in state `p`), in a call
for a token with value `v`
* each symbol keeps the value it was put on the stack with, until the code of a rule gets it (in its
  place among those of the right-hand side), or it is destroyed with this value, or accepted;
* the values put on the stack for a rule are those left by its code;
* all other values that are put on the stack, destroyed or passed to `%syntax_error` are `v`. -/
theorem C77_follow (u : Usable g) (hrhs : ∀ r ∈ g.rules, r.rhs.length ≤ 128) (h : Generates g fb compress T) (c : PConf) (fuel : Nat)
    (code : Nat → List V → V → V) (p : PState) (m : Mem V) (hne : p.stack ≠ []) (hm : m.top + 1 = p.stack.length) (t : Nat) (v : V) (q : PState) (m' : Mem V)
    (evs : List (VEv V)) (hp : parseValue T c code fuel p m (t, v) = some (q, m', evs)) :
    T.ruleLhs = g.ruleList.map (fun r => g.index r.lhs) ∧ T.ruleNRhs = g.ruleList.map (fun r => r.rhs.length) ∧
    VUses (T.ruleLhs[·]?) (T.ruleNRhs[·]?) code (stackOf p m) evs (stackOf q m') ∧ (∀ e ∈ evs, ∀ w, e.given = some w → w = v) ∧
    q.stack ≠ [] ∧ m'.top + 1 = q.stack.length := by
  obtain ⟨mm, F, A, cs, h⟩ := h
  have hR := h.reported u
  refine ⟨hR.ruleLhs, hR.ruleNRhs, ?_⟩
  have hT : RuleLens T := by
    refine ⟨by rw [hR.ruleLhs, hR.ruleNRhs, List.length_map, List.length_map], ?_⟩
    rw [hR.ruleNRhs]
    intro n hn
    obtain ⟨r, hr, rfl⟩ := List.mem_map.mp hn
    refine hrhs r ?_
    exact (mem_ruleList u.rules_lt r).mp hr
  rw [parseValue] at hp
  obtain ⟨⟨q1, ev⟩, h1, h2⟩ := Option.map_eq_some_iff.mp hp
  simp only [Prod.mk.injEq] at h2
  obtain ⟨rfl, h2⟩ := h2
  have e1 : m' = (vsteps T code v ev m).1 := by rw [h2]
  have e2 : evs = (vsteps T code v ev m).2 := by rw [h2]
  subst e1 e2
  obtain ⟨k1, k2⟩ := uses_loop hT fuel false p q1 ev h1 hne
  have hl : ∀ p : PState, p.stack ≠ [] → p.symbols.length + 1 = p.stack.length := by
    intro p hp
    have := List.length_pos_of_ne_nil hp
    rw [PState.symbols, List.length_map, List.length_dropLast]
    omega
  obtain ⟨k3, k4⟩ := vuses_of_uses (v := v) (code := code) hT k1 m (by have := hl p hne; omega)
  exact ⟨k3, vsteps_given _ _, k2, by rw [k4]; exact hl q1 k2⟩

/-- `C77_follow` for all calls, and `ParseFinalize` after them: what is left on the stack is destroyed, each symbol with its value. -/
theorem C77_all (u : Usable g) (hrhs : ∀ r ∈ g.rules, r.rhs.length ≤ 128) (h : Generates g fb compress T) (c : PConf) (fuel : Nat)
    (code : Nat → List V → V → V) (ts : List (Nat × V)) (m : Mem V) (hm : m.top = 0) (d : V) (q : PState) (m' : Mem V) (evs : List (VEv V))
    (hp : parseValues T c code fuel ts .init m = some (q, m', evs)) :
    VUses (T.ruleLhs[·]?) (T.ruleNRhs[·]?) code [] evs (stackOf q m') ∧
    VUses (T.ruleLhs[·]?) (T.ruleNRhs[·]?) code (stackOf q m') (finalizeValues T code d q m') [] ∧
    finalizeValues T code d q m' = (stackOf q m').map fun x => .pop x.1 x.2 := by
  have key : ∀ (ts : List (Nat × V)) (p : PState) (m : Mem V) (evs : List (VEv V)), p.stack ≠ [] → m.top + 1 = p.stack.length →
      parseValues T c code fuel ts p m = some (q, m', evs) →
      VUses (T.ruleLhs[·]?) (T.ruleNRhs[·]?) code (stackOf p m) evs (stackOf q m') ∧ q.stack ≠ [] ∧ m'.top + 1 = q.stack.length := by
    intro ts
    induction ts with
    | nil =>
      intro p m evs hne hm hp
      simp only [parseValues, Option.some.injEq, Prod.mk.injEq] at hp
      obtain ⟨rfl, rfl, rfl⟩ := hp
      exact ⟨.done _, hne, hm⟩
    | cons t ts ih =>
      intro p m evs hne hm hp
      rw [parseValues] at hp
      obtain ⟨⟨p1, m1, e1⟩, h1, h2⟩ := Option.bind_eq_some_iff.mp hp
      obtain ⟨⟨q', mm2, e2⟩, h5, h6⟩ := Option.map_eq_some_iff.mp h2
      simp only [Prod.mk.injEq] at h6
      obtain ⟨rfl, rfl, rfl⟩ := h6
      obtain ⟨_, _, k1, _, k2, k3⟩ := C77_follow u hrhs h c fuel code p m hne hm t.1 t.2 p1 m1 e1 h1
      obtain ⟨k4, k5⟩ := ih p1 m1 e2 k2 k3 h5
      exact ⟨k1.append k4, k5⟩
  obtain ⟨h1, h2, h3⟩ := key ts .init m evs (by simp [PState.init]) (by rw [hm]; rfl) hp
  have hf : finalizeValues T code d q m' = (stackOf q m').map fun x => .pop x.1 x.2 := by
    have hl : m'.top = q.stack.dropLast.length := by rw [List.length_dropLast]; omega
    have hpops : ∀ (l : List (Nat × Nat)) (m : Mem V), m.top = l.length → (vsteps T code d (l.map fun e => Ev.pop e.2) m).2 =
        ((l.map Prod.snd).zip m.vals).map fun x => .pop x.1 x.2 := by
      intro l
      induction l with
      | nil => intro m _; rfl
      | cons e l ih =>
        intro m hm
        simp only [List.length_cons] at hm
        rw [vals_succ m (by omega)]
        simp only [List.map_cons, vsteps, List.zip_cons_cons]
        rw [ih _ (by simp [vstep, hm])]
        rfl
    have := hpops q.stack.dropLast m' hl
    unfold finalizeValues
    rw [show (popAll q.stack).2 = q.stack.dropLast.map fun e => Ev.pop e.2 by rw [popAll, List.dropLast_eq_take]]
    exact this
  refine ⟨?_, ?_, hf⟩
  · rw [show stackOf .init m = [] by simp [stackOf, PState.init]] at h1
    exact h1
  · rw [hf]
    generalize stackOf q m' = s
    induction s with
    | nil => exact .done _
    | cons x s ih => exact .pop x.1 x.2 ih

/-- C77, each token is used once, as far as it holds.  The grammar has no error symbol, and the stack does not overflow.
Then in each call the value given is put on the stack once, or it is destroyed once, or the parser
accepts; and only one of these. -/
theorem C77_once_partial (T : Tables) (c : PConf) (fuel : Nat) (code : Nat → List V → V → V) (hE : T.errsym = none) (p q : PState) (m m' : Mem V) (t : Nat)
    (v : V) (evs : List (VEv V)) (hp : parseValue T c code fuel p m (t, v) = some (q, m', evs)) (ho : .overflow ∉ evs) :
    (evs.filterMap VEv.takes = [v] ∧ ∀ x, .accept x ∉ evs) ∨ (evs.filterMap VEv.takes = [] ∧ ∃ x, .accept x ∈ evs) := by
  rw [parseValue] at hp
  obtain ⟨⟨q1, ev⟩, h1, h2⟩ := Option.map_eq_some_iff.mp hp
  simp only [Prod.mk.injEq] at h2
  obtain ⟨rfl, h2⟩ := h2
  have e2 : evs = (vsteps T code v ev m).2 := by rw [h2]
  have herase : evs.map VEv.erase = ev := by rw [e2, vsteps_erase]
  have hg : ∀ e ∈ evs, ∀ w, e.given = some w → w = v := by rw [e2]; exact vsteps_given _ _
  have ho' : .overflow ∉ ev := by
    intro hc
    rw [← herase] at hc
    obtain ⟨e, k1, k2⟩ := List.mem_map.mp hc
    cases e <;> simp only [VEv.erase, reduceCtorEq] at k2
    exact ho k1
  obtain ⟨⟨e, he, k1⟩, _⟩ := C68_tokens_partial T c fuel p q1 t (by rw [hE]; simp) ev h1 ho'
  rw [hE, ← herase, List.filter_map] at k1
  clear hp h2 e2 herase ho' ho h1
  obtain ⟨x, hx, hxe⟩ := List.map_eq_singleton_iff.mp k1
  have h3 : evs.filterMap VEv.takes = (evs.filter (Ev.consumes none ∘ VEv.erase)).filterMap VEv.takes := by
    clear hx k1 hg
    induction evs with
    | nil => rfl
    | cons y evs ih =>
      rw [List.filterMap_cons, List.filter_cons, ih]
      cases y <;> rfl
  have h4 : ∀ y, VEv.accept y ∈ evs → VEv.accept y = x := by
    intro y hy
    have : VEv.accept y ∈ evs.filter (Ev.consumes none ∘ VEv.erase) := List.mem_filter.mpr ⟨hy, rfl⟩
    rw [hx] at this
    exact List.mem_singleton.mp this
  have hmem : x ∈ evs := List.mem_of_mem_filter (p := Ev.consumes none ∘ VEv.erase) (by rw [hx]; exact List.mem_singleton_self _)
  rw [h3, hx]
  have hgx := hg x hmem
  rcases he with rfl | rfl | rfl
  · left
    cases x <;> simp only [VEv.erase, reduceCtorEq] at hxe
    refine ⟨by simp [VEv.takes, hgx _ rfl], fun y hy => by have := h4 y hy; cases this⟩
  · left
    cases x <;> simp only [VEv.erase, reduceCtorEq] at hxe
    refine ⟨by simp [VEv.takes, hgx _ rfl], fun y hy => by have := h4 y hy; cases this⟩
  · right
    cases x <;> simp only [VEv.erase, reduceCtorEq] at hxe
    exact ⟨rfl, _, hmem⟩

/-! ### an instance: an expression is computed -/

/-- the code of the expression grammar: `s ::= e. e ::= e PLUS t. …` adds and multiplies -/
def exCalc (r : Nat) (xs : List Nat) (old : Nat) : Nat :=
  match r, xs with
  | 1, [a, _, b] => a + b
  | 2, [a, _, b] => a * b
  | 0, [a] => a
  | 3, [a] => a
  | _, _ => old

/-- The hypotheses of `C77_values_partial` for `2 + 3 * 4`; the value is 14. -/
example : Usable exExpr ∧ (∀ r ∈ exExpr.rules, r.rhs.length ≤ 128) ∧ CodeOK exExpr exCalc ∧
    (makeTables true exExpr (fun _ => none) 20).bind (fun T => (parseValues T ⟨some 100, false, false, false⟩ exCalc 20
      ([(3, 2), (1, 0), (3, 3), (2, 0), (3, 4)] ++ [(0, 0)]) .init ⟨0, fun _ => 77⟩).map fun x => x.2.2) =
      some [.shift 3 2, .reduce 3 [2] 2, .shift 1 0, .shift 3 3, .reduce 3 [3] 3, .shift 2 0, .shift 3 4, .reduce 3 [4] 4,
        .reduce 2 [3, 0, 4] 12, .reduce 1 [2, 0, 12] 14, .reduce 0 [14] 14, .accept 14] := by
  refine ⟨usable_of (by decide +kernel), by decide +kernel, ⟨?_, ?_⟩, by decide +kernel⟩
  · intro r hr hc
    exfalso
    revert hc
    have : ∀ r < exExpr.rules.length, (exExpr.rule r).code ≠ false := by decide +kernel
    exact this r hr
  · intro r hr hc
    exfalso
    revert hc
    have : ∀ r < exExpr.rules.length, (exExpr.rule r).rhs ≠ [] := by decide +kernel
    exact this r hr

/-- The hypotheses of `C77_all`, `C77_follow` and `C77_once_partial` for the same grammar, an error at `+ +`, and a parser that is given up before
the end of input: `2 + + * 3`.  The second `+` and the `*` are destroyed, and the rest by `ParseFinalize`. -/
example : Usable exExpr ∧ (∀ r ∈ exExpr.rules, r.rhs.length ≤ 128) ∧ (∃ T, Generates exExpr (fun _ => none) true T ∧ T.errsym = none) ∧
    (makeTables true exExpr (fun _ => none) 20).bind (fun T => (parseValues T ⟨some 100, false, false, false⟩ exCalc 20
      [(3, 2), (1, 5), (1, 6), (2, 7), (3, 3)] .init ⟨0, fun _ => 77⟩).map fun x => (x.2.2, stackOf x.1 x.2.1, finalizeValues T exCalc 0 x.1 x.2.1)) =
      some ([.shift 3 2, .reduce 3 [2] 2, .shift 1 5, .syntaxError 1 6, .discard 1 6, .discard 2 7, .shift 3 3],
        [(3, 3), (1, 5), (5, 2)], [.pop 3 3, .pop 1 5, .pop 5 2]) := by
  have u : Usable exExpr := usable_of (by decide +kernel)
  have hm : ∃ T, makeTables true exExpr (fun _ => none) 20 = some T ∧ T.errsym = none := by
    have k : (makeTables true exExpr (fun _ => none) 20).map (fun T => T.errsym) = some none := by decide +kernel
    obtain ⟨T, h1, h2⟩ := Option.map_eq_some_iff.mp k
    exact ⟨T, h1, h2⟩
  obtain ⟨T, hT, hE⟩ := hm
  exact ⟨u, by decide +kernel, ⟨T, generates_of u hT, hE⟩, by decide +kernel⟩

/-! ### where it does not hold -/

/-- C77, use once, does not hold for grammars with an error symbol: the error symbol is put on the stack with the
value of the token at which the error is found.  With `s ::= X error Y Y Y Y` and the tokens `X Z Y Z` the
value 20 of the first `Z` is destroyed twice (as the value of `Z` and as that of `error`), though it was given once. -/
theorem C77_error_violated : Usable exErr ∧ ∃ T, Generates exErr (fun _ => none) true T ∧
    ∃ evs, (parseValues T ⟨none, false, false, false⟩ (fun _ _ old => old) 20 [(1, 10), (3, 20), (2, 30), (3, 40)] .init ⟨0, fun _ => (0 : Nat)⟩).map
      (fun x => x.2.2) = some evs ∧ .discard 3 20 ∈ evs ∧ .pop 5 20 ∈ evs := by
  have u : Usable exErr := usable_of (by decide +kernel)
  have hm : (makeTables true exErr (fun _ => none) 20).isSome = true := by decide +kernel
  obtain ⟨T, hT⟩ := Option.isSome_iff_exists.mp hm
  refine ⟨u, T, generates_of u hT, ?_⟩
  have k : (makeTables true exErr (fun _ => none) 20).bind (fun T => (parseValues T ⟨none, false, false, false⟩ (fun _ _ old => old) 20
      [(1, 10), (3, 20), (2, 30), (3, 40)] .init ⟨0, fun _ => (0 : Nat)⟩).map fun x => x.2.2) =
      some [.shift 1 10, .syntaxError 3 20, .shift 5 20, .discard 3 20, .shift 2 30, .pop 2 30, .pop 5 20, .shift 5 40, .discard 3 40] := by
    decide +kernel
  rw [hT, Option.bind_some] at k
  exact ⟨_, k, by decide, by decide⟩

/-- `s ::= a b D. a ::= A B. b ::= .`  The last rule has no code. `$ A B D` are 0…3, `s a b` are 4 5 6. -/
def exStale : Gram where
  nterm := 4
  mts := []
  nsym := 7
  rules := [⟨4, [5, 6, 3], none, true⟩, ⟨5, [1, 2], none, true⟩, ⟨6, [], none, false⟩]
  start := 4
  errsym := none
  wildcard := none
  prec := fun _ => -1
  assoc := fun _ => .UNK

/-- C77, evaluation, does not hold for empty rules that do not set the value of their left-hand side: it is what was
left in memory.  Here the value 20 of `B`, which the code of `a ::= A B` has used already, comes up again as
the value of `b`, which the code of `s ::= a b D` gets. -/
theorem C77_empty_violated : Usable exStale ∧ ∃ T, Generates exStale (fun _ => none) true T ∧
    (parseValues T ⟨none, false, false, false⟩ (fun r xs old => if r = 2 then old else xs.sum) 20 [(1, 10), (2, 20), (3, 30), (0, 0)] .init
      ⟨0, fun _ => (0 : Nat)⟩).map (fun x => x.2.2) =
      some [.shift 1 10, .shift 2 20, .reduce 1 [10, 20] 30, .reduce 2 [] 20, .shift 3 30, .reduce 0 [30, 20, 30] 80, .accept 80] := by
  have u : Usable exStale := usable_of (by decide +kernel)
  have hm : (makeTables true exStale (fun _ => none) 20).isSome = true := by decide +kernel
  obtain ⟨T, hT⟩ := Option.isSome_iff_exists.mp hm
  refine ⟨u, T, generates_of u hT, ?_⟩
  have k : (makeTables true exStale (fun _ => none) 20).bind (fun T => (parseValues T ⟨none, false, false, false⟩
      (fun r xs old => if r = 2 then old else xs.sum) 20 [(1, 10), (2, 20), (3, 30), (0, 0)] .init ⟨0, fun _ => (0 : Nat)⟩).map fun x => x.2.2) =
      some [.shift 1 10, .shift 2 20, .reduce 1 [10, 20] 30, .reduce 2 [] 20, .shift 3 30, .reduce 0 [30, 20, 30] 80, .accept 80] := by
    decide +kernel
  rwa [hT, Option.bind_some] at k

end Verif.Lemon
