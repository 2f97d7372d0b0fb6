import Verif.Proofs.LemonTypes
/-
C43: the integer types of the generated tables.
-/
set_option autoImplicit false
namespace Verif.Lemon

/-! ### values of the types -/

/-- C43, choice of a type.  All numbers of a range of `int`s can be stored in the type chosen for it. -/
theorem C43_type (lwr upr v : Int) (h1 : -2 ^ 31 ≤ lwr) (h2 : lwr ≤ v) (h3 : v ≤ upr) (h4 : upr < 2 ^ 31) :
    Fits (minimumSizeType lwr upr) v := by
  unfold minimumSizeType
  split_ifs with k1 k2 k3 k4 k5 <;> (try simp only [Bool.and_eq_true, decide_eq_true_eq] at *) <;> unfold Fits <;>
    simp only [if_true, if_false, Bool.false_eq_true] <;> omega

/-- The type is no wider than needed, except at the ends of the ranges of the signed types and of
`unsigned short`: these are not used to the end. -/
theorem C43_narrow (lwr upr : Int) (h : lwr ≤ upr) :
    ((minimumSizeType lwr upr).2 = 1 ∨ (minimumSizeType lwr upr).2 = 2 ∨ (minimumSizeType lwr upr).2 = 4) ∧
    ((minimumSizeType lwr upr).1 = true ↔ lwr < 0) ∧
    ((minimumSizeType lwr upr).2 ≠ 1 → ¬ (0 ≤ lwr ∧ upr ≤ 255) ∧ ¬ (-127 ≤ lwr ∧ upr ≤ 127)) ∧
    ((minimumSizeType lwr upr).2 = 4 → ¬ (0 ≤ lwr ∧ upr ≤ 65534) ∧ ¬ (-32767 ≤ lwr ∧ upr ≤ 32766)) := by
  unfold minimumSizeType
  split_ifs <;> simp only [Bool.and_eq_true, decide_eq_true_eq] at * <;> simp <;> omega

example : [(0, 255), (0, 256), (0, 65535), (-1, 127), (-1, 128), (-1, 32767)].map (fun x : Int × Int => minimumSizeType x.1 x.2) =
    [(false, 1), (false, 2), (false, 4), (true, 1), (true, 2), (true, 4)] := by decide

variable {g : Gram} {fb : Nat → Option Nat} {compress : Bool} {T : Tables}

/-- the sizes of the tables are in the range of `int` -/
structure Small (T : Tables) : Prop where
  nsymbol : T.nsymbol < 2 ^ 31
  action : T.minReduce + T.nrule < 2 ^ 31
  shift : -2 ^ 31 ≤ T.shiftMin ∧ T.nterm + T.action.length < 2 ^ 31
  reduce : -2 ^ 31 ≤ T.reduceMin - 1 ∧ T.reduceMax < 2 ^ 31

instance (T : Tables) : Decidable (Small T) :=
  decidable_of_iff (T.nsymbol < 2 ^ 31 ∧ T.minReduce + T.nrule < 2 ^ 31 ∧ (-2 ^ 31 ≤ T.shiftMin ∧ T.nterm + T.action.length < 2 ^ 31) ∧
    (-2 ^ 31 ≤ T.reduceMin - 1 ∧ T.reduceMax < 2 ^ 31)) ⟨fun h => ⟨h.1, h.2.1, h.2.2.1, h.2.2.2⟩, fun h => ⟨h.1, h.2, h.3, h.4⟩⟩

/-- C43, tables.  Each number in a table can be stored in the type of its elements.  (The lengths of
rules are the exception: see below.) -/
theorem C43_tables (u : Usable g) (hfb : FallbackOK g fb) (h : Generates g fb compress T) (hs : Small T) :
    (∀ a ∈ T.action, Fits T.actionType a) ∧ (∀ a ∈ T.dflt, Fits T.actionType a) ∧
    (∀ X ∈ T.lookahead, Fits T.codeType X) ∧ (∀ X ∈ T.fallback, Fits T.codeType X) ∧ (∀ X ∈ T.ruleLhs, Fits T.codeType X) ∧
    (∀ o ∈ T.shiftOfst, Fits T.shiftType o) ∧ (∀ o ∈ T.reduceOfst, Fits T.reduceType o) := by
  obtain ⟨m, F, A, cs, h⟩ := h
  have R := h.ranges u hfb
  have s1 := hs.nsymbol
  have s2 := hs.action
  have s3 := hs.shift
  have s4 := hs.reduce
  refine ⟨?_, ?_, ?_, ?_, ?_, ?_, ?_⟩
  · intro a ha; have := R.action a ha; exact C43_type _ _ _ (by omega) (by omega) (by omega) (by omega)
  · intro a ha; have := R.dflt a ha; exact C43_type _ _ _ (by omega) (by omega) (by omega) (by omega)
  · intro a ha; have := R.lookahead a ha; exact C43_type _ _ _ (by omega) (by omega) (by omega) (by omega)
  · intro a ha; have := R.fallback a ha; exact C43_type _ _ _ (by omega) (by omega) (by omega) (by omega)
  · intro a ha; have := R.ruleLhs a ha; exact C43_type _ _ _ (by omega) (by omega) (by omega) (by omega)
  · intro a ha; have := R.shift a ha; exact C43_type _ _ _ (by omega) (by omega) (by omega) (by omega)
  · intro a ha; have := R.reduce a ha; exact C43_type _ _ _ (by omega) (by omega) (by omega) (by omega)

/-- `C43_tables` for the expression grammar -/
example : (makeTables true exExpr (fun _ => none) 20).map (fun T => (decide (Small T), T.codeType, T.actionType, T.shiftType, T.reduceType)) =
    some (true, (false, 1), (false, 1), (false, 1), (true, 1)) := by decide +kernel

/-! ### values on the stack -/

/-- numbers on the stack are in the ranges -/
def StackIn (T : Tables) (st : List (Nat × Nat)) : Prop := ∀ e ∈ st, e.1 ≤ T.minReduce + T.nrule ∧ e.2 ≤ T.nsymbol

theorem findShift_range (R : Ranges T) {nd : Bool} {i : Nat} : ∀ (fuel t n : Nat), T.findShiftLoop nd i fuel t = some n → n ≤ T.minReduce + T.nrule := by
  intro fuel
  induction fuel with
  | zero => intro t n h; cases h
  | succ fuel ih =>
    intro t n h
    have ha : ∀ j n, T.action[j]? = some n → n ≤ T.minReduce + T.nrule := fun j n h => R.action n (List.mem_of_getElem? h)
    have hd : ∀ j n, T.dflt[j]? = some n → n ≤ T.minReduce + T.nrule := fun j n h => R.dflt n (List.mem_of_getElem? h)
    unfold Tables.findShiftLoop at h
    split at h
    · cases h
    · simp only at h
      split_ifs at h
      split at h
      · cases h
      · split_ifs at h
        · exact ha _ _ h
        · split at h
          · cases h
          · split_ifs at h
            exact ih _ _ h
          · split at h
            · exact hd _ _ h
            · split at h
              · cases h
              · split_ifs at h
                · exact ha _ _ h
                · exact hd _ _ h

theorem findReduce_range (R : Ranges T) {i X n : Nat} (h : T.findReduce i X = some n) : n ≤ T.minReduce + T.nrule := by
  have ha : ∀ j n, T.action[j]? = some n → n ≤ T.minReduce + T.nrule := fun j n h => R.action n (List.mem_of_getElem? h)
  have hd : ∀ j n, T.dflt[j]? = some n → n ≤ T.minReduce + T.nrule := fun j n h => R.dflt n (List.mem_of_getElem? h)
  unfold Tables.findReduce at h
  split at h
  · split at h
    · exact hd _ _ h
    · simp only at h
      split_ifs at h
      · exact hd _ _ h
      · exact ha _ _ h
  · split at h
    · cases h
    · simp only at h
      split_ifs at h
      exact ha _ _ h

theorem popAll_in {st : List (Nat × Nat)} (h : StackIn T st) : StackIn T (popAll st).1 :=
  fun e he => h e (List.mem_of_mem_drop he)

theorem yyShift_in {c : PConf} {act X : Nat} {p q : PState} {evs : List Ev} (h : yyShift T c act X p = some (q, evs)) (hp : StackIn T p.stack)
    (ha : act < T.minShiftReduce + T.nrule) (hX : X ≤ T.nsymbol) : StackIn T q.stack := by
  have hmr : T.minReduce = T.minShiftReduce + T.nrule + 3 := rfl
  unfold yyShift at h
  simp only at h
  obtain ⟨p1, h1, h2⟩ := Option.map_eq_some_iff.mp h
  obtain ⟨e1, _⟩ := track_spec h1
  rw [← e1] at hp
  split_ifs at h2 with h3 h4
  · simp only [stackOverflow, Prod.mk.injEq] at h2
    rw [← h2.1]
    exact popAll_in hp
  · simp only [Prod.mk.injEq] at h2
    rw [← h2.1]
    intro e he
    rcases List.mem_cons.mp he with rfl | he
    · exact ⟨by simp only; omega, hX⟩
    · exact hp e he
  · simp only [Prod.mk.injEq] at h2
    rw [← h2.1]
    intro e he
    rcases List.mem_cons.mp he with rfl | he
    · exact ⟨by simp only; omega, hX⟩
    · exact hp e he

theorem yyReduce_in (R : Ranges T) {r : Nat} {p q : PState} (h : yyReduce T r p = some q) (hp : StackIn T p.stack) : StackIn T q.stack := by
  unfold yyReduce at h
  split at h
  · cases h
  · rename_i A hA
    simp only at h
    split_ifs at h with h1
    split at h
    · cases h
    · split at h
      · cases h
      · rename_i act ha
        split_ifs at h
        cases h
        intro e he
        rcases List.mem_cons.mp he with rfl | he
        · exact ⟨findReduce_range R ha, R.ruleLhs _ (List.mem_of_getElem? hA)⟩
        · exact hp e (List.mem_of_mem_drop he)

theorem popToError_in {E : Nat} : ∀ (st : List (Nat × Nat)) (a : Nat) (st' : List (Nat × Nat)) (act : Nat) (pops : List Ev),
    popToError T E st a = some (st', act, pops) → 2 ≤ st'.length → act < T.minShiftReduce + T.nrule := by
  intro st
  induction st with
  | nil => intro a st' act pops h; cases h
  | cons e st ih =>
    intro a st' act pops h hl
    cases st with
    | nil =>
      simp only [popToError, Option.some.injEq, Prod.mk.injEq] at h
      obtain ⟨rfl, rfl, rfl⟩ := h
      simp at hl
    | cons e' st =>
      rw [popToError] at h
      · split at h
        · cases h
        · split_ifs at h with h1
          · simp only [Option.some.injEq, Prod.mk.injEq] at h
            obtain ⟨rfl, rfl, rfl⟩ := h
            exact h1
          · obtain ⟨⟨s1, a1, p1⟩, h2, h3⟩ := Option.map_eq_some_iff.mp h
            simp only [Prod.mk.injEq] at h3
            obtain ⟨rfl, rfl, rfl⟩ := h3
            exact ih _ _ _ _ h2 hl
      · simp

theorem onError_in (R : Ranges T) {c : PConf} {t : Nat} {eh b : Bool} {p q : PState} {evs : List Ev} (h : onError T c t eh p = some (q, evs, b))
    (hp : StackIn T p.stack) : StackIn T q.stack := by
  unfold onError at h
  split at h
  · rename_i E hE
    simp only at h
    split at h
    · cases h
    · generalize (if p.errcnt < 0 then [Ev.syntaxError t] else []) = ev0 at h
      split_ifs at h with h1
      · cases h; exact hp
      · split at h
        · cases h
        · rename_i st act pops hpe
          obtain ⟨k1, _⟩ := popToError_spec _ _ _ _ _ hpe
          have hst : StackIn T st := fun e he => hp e (k1.subset he)
          split_ifs at h with h5
          · cases h
            exact popAll_in hst
          · simp only [Bool.or_eq_true, decide_eq_true_eq, not_or] at h5
            obtain ⟨⟨q1, e1⟩, h6, h7⟩ := Option.map_eq_some_iff.mp h
            simp only [Prod.mk.injEq] at h7
            obtain ⟨rfl, rfl, rfl⟩ := h7
            have := yyShift_in (p := { p with stack := st }) h6 hst (popToError_in _ _ _ _ _ hpe (by omega)) (R.errsym _ hE)
            exact this
  · split_ifs at h
    all_goals (cases h; first | exact hp | exact popAll_in hp)

theorem round_in (R : Ranges T) {c : PConf} {t fuel : Nat} {eh : Bool} {p : PState} {x : Round} (h : parseRound T c t fuel eh p = some x)
    (ht : t < T.nterm) (hp : StackIn T p.stack) : StackIn T x.state.stack := by
  have hn := R.nterm
  unfold parseRound at h
  split at h
  · cases h
  · split at h
    · cases h
    · simp only at h
      split_ifs at h with h1 h2 h3 h4 h5 h6
      · obtain ⟨p1, k1, k2⟩ := Option.bind_eq_some_iff.mp h
        obtain ⟨e1, _⟩ := track_spec k1
        rw [← e1] at hp
        split_ifs at k2
        · cases k2
          exact popAll_in hp
        · obtain ⟨q, k3, k4⟩ := Option.map_eq_some_iff.mp k2
          rw [← k4]
          exact yyReduce_in R k3 hp
      · obtain ⟨q, k3, k4⟩ := Option.map_eq_some_iff.mp h
        rw [← k4]
        exact yyReduce_in R k3 hp
      · obtain ⟨⟨q, evs⟩, k3, k4⟩ := Option.map_eq_some_iff.mp h
        rw [← k4]
        have := yyShift_in k3 hp h4 (by omega)
        exact this
      · split at h
        · rename_i a b hst
          cases h
          intro e he
          exact hp e (by rw [hst]; simp only [Round.state, List.mem_singleton] at he; simp [he])
        · cases h
      · obtain ⟨⟨q, evs, b⟩, k3, k4⟩ := Option.map_eq_some_iff.mp h
        have := onError_in R k3 hp
        rw [← k4]
        cases b <;> exact this

theorem loop_in (R : Ranges T) {c : PConf} {t : Nat} (ht : t < T.nterm) : ∀ (fuel : Nat) (eh : Bool) (p q : PState) (evs : List Ev),
    parseLoop T c t fuel eh p = some (q, evs) → StackIn T p.stack → StackIn T q.stack := by
  intro fuel
  induction fuel with
  | zero => intro eh p q evs h; cases h
  | succ fuel ih =>
    intro eh p q evs h hp
    rw [parseLoop] at h
    split at h
    · cases h
    · rename_i p1 e1 hr
      cases h
      exact round_in R hr ht hp
    · rename_i eh1 p1 e1 hr
      obtain ⟨⟨q', e2⟩, h1, h2⟩ := Option.map_eq_some_iff.mp h
      simp only [Prod.mk.injEq] at h2
      obtain ⟨rfl, rfl⟩ := h2
      exact ih eh1 p1 q' e2 h1 (round_in R hr ht hp)

theorem tokens_in (R : Ranges T) {c : PConf} {fuel : Nat} : ∀ (ts : List Nat) (p q : PState) (evs : List Ev), (∀ t ∈ ts, t < T.nterm) →
    parseTokens T c fuel ts p = some (q, evs) → StackIn T p.stack → StackIn T q.stack := by
  intro ts
  induction ts with
  | nil => intro p q evs _ h hp; cases h; exact hp
  | cons t ts ih =>
    intro p q evs ht h hp
    rw [parseTokens] at h
    obtain ⟨⟨p1, e1⟩, h1, h2⟩ := Option.bind_eq_some_iff.mp h
    obtain ⟨⟨q', e2⟩, h3, h4⟩ := Option.map_eq_some_iff.mp h2
    simp only [Prod.mk.injEq] at h4
    obtain ⟨rfl, rfl⟩ := h4
    exact ih p1 q' e2 (fun t h => ht t (List.mem_cons_of_mem _ h)) h3 (loop_in R (ht t List.mem_cons_self) fuel false p p1 e1 h1 hp)

/-- C43, stack.  The states and symbols on the parser's stack can be stored in the types used there. -/
theorem C43_stack (u : Usable g) (hfb : FallbackOK g fb) (h : Generates g fb compress T) (hs : Small T) (c : PConf) (fuel : Nat)
    (ts : List Nat) (ht : ∀ t ∈ ts, t < g.nterm) (p : PState) (evs : List Ev) (hp : parseTokens T c fuel ts .init = some (p, evs)) :
    ∀ e ∈ p.stack, Fits T.actionType e.1 ∧ Fits T.codeType e.2 := by
  obtain ⟨m, F, A, cs, h⟩ := h
  have R := h.ranges u hfb
  have s1 := hs.nsymbol
  have s2 := hs.action
  have := tokens_in R ts .init p evs (by rw [(h.reported u).nterm]; exact ht) hp (by
    intro e he
    simp only [PState.init, List.mem_singleton] at he
    subst he
    exact ⟨Nat.zero_le _, Nat.zero_le _⟩)
  intro e he
  have := this e he
  exact ⟨C43_type _ _ _ (by omega) (by omega) (by omega) (by omega), C43_type _ _ _ (by omega) (by omega) (by omega) (by omega)⟩

/-! ### lengths of rules -/

/-- the number of entries popped when a rule is reduced is the length of the rule, if that is at most
128; the rules that lemon reads have up to 1000 symbols (lemon.c:48 and 2511-2516) -/
theorem C43_lengths_partial (u : Usable g) (h : Generates g fb compress T) (k : Nat) (r : Rule) (hk : g.ruleList[k]? = some r) :
    (Fits (true, 1) (-(r.rhs.length : Int)) ↔ r.rhs.length ≤ 128) ∧ (r.rhs.length ≤ 128 → T.nrhs k = -(r.rhs.length : Int)) := by
  obtain ⟨m, F, A, cs, h⟩ := h
  have R := h.reported u
  refine ⟨?_, ?_⟩
  · unfold Fits; simp only [if_true]; omega
  · intro hl
    unfold Tables.nrhs schar
    rw [R.ruleNRhs, List.getD_eq_getElem?_getD, List.getElem?_map, hk]
    simp only [Option.map_some, Option.getD_some]
    omega

/-- C43 does not hold for lengths: for no grammar with a rule of more than 128 symbols does the table
have its length.  If there are fewer than 256 symbols, the parser cannot reduce by the rule in any
state: `yy_reduce` looks at an entry above the top of the stack.  If there are 256 symbols, the parser
takes the rule for an empty one and pops nothing. -/
theorem C43_violated (u : Usable g) (h : Generates g fb compress T) (k : Nat) (r : Rule) (hk : g.ruleList[k]? = some r)
    (hl : 128 < r.rhs.length) :
    T.nrhs k ≠ -(r.rhs.length : Int) ∧
    (r.rhs.length < 256 → ∀ p, yyReduce T k p = none) ∧
    (r.rhs.length = 256 → ∀ p q, yyReduce T k p = some q → ∃ e, q.stack = e :: p.stack) := by
  obtain ⟨m, F, A, cs, h⟩ := h
  have R := h.reported u
  have hn : T.nrhs k = schar (-(r.rhs.length : Int)) := by
    unfold Tables.nrhs
    rw [R.ruleNRhs, List.getD_eq_getElem?_getD, List.getElem?_map, hk]
    rfl
  refine ⟨?_, ?_, ?_⟩
  · rw [hn]; unfold schar; omega
  · intro h2 p
    unfold yyReduce
    split
    · rfl
    · rw [hn]
      unfold schar
      rw [if_pos (by omega)]
  · intro h2 p q hq
    obtain ⟨A, act, _, _, _, rfl⟩ := yyReduce_cases hq
    refine ⟨(act, A), ?_⟩
    have : (-T.nrhs k).toNat = 0 := by
      rw [hn, h2]; decide
    simp only [this, List.drop_zero]

/-- `S ::= x … x` with `n` symbols `x`.  `$ x` are 0 1, `S` is 2. -/
def exLong (n : Nat) : Gram where
  nterm := 2
  mts := []
  nsym := 3
  rules := [⟨2, List.replicate n 1, none, false⟩]
  start := 2
  errsym := none
  wildcard := none
  prec := fun _ => -1
  assoc := fun _ => .UNK

/-- The grammars `exLong n` are such that `C43_violated` and `C43_lengths_partial` speak of them.  (Run with
`#eval`, the parser made for `exLong 128` accepts `x … x`, those for `exLong 129` and `exLong 256`
crash; evaluating that in the kernel takes too much memory.) -/
example : Usable (exLong 129) ∧ (exLong 129).ruleList.map (fun r => r.rhs.length) = [129] ∧
    Usable (exLong 256) ∧ (exLong 256).ruleList.map (fun r => r.rhs.length) = [256] :=
  ⟨usable_of (by decide +kernel), by decide +kernel, usable_of (by decide +kernel), by decide +kernel⟩
example : (makeTables true (exLong 5) (fun _ => none) 20).map (fun T => (T.nrhs 0, (parseTokens T ⟨none, false, false, false⟩ 5
    [1, 1, 1, 1, 1, 0] .init).map fun x => x.2)) = some (-5, some [.shift 1, .shift 1, .shift 1, .shift 1, .shift 1, .reduce 0, .accept]) := by
  decide +kernel

end Verif.Lemon
