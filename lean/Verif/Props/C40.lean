import Verif.Proofs.LemonComplete
import Verif.Props.C39
/-
C40: a parser made by lemon accepts every sentence if there are no conflicts.
-/
set_option autoImplicit false
namespace Verif.Lemon
open Verif.Spec

variable {g : Gram} {fb : Nat → Option Nat} {compress : Bool} {m : Mach} {F : List TSet} {A : Acts} {cs : List CState} {T : Tables}

/-- C40.  Let there be at most one action for each token in each state.  Given the tokens of a
sentence and the end of input, the parser shifts the tokens, reduces, and accepts as the last thing
it does; it reports no error and no overflow of its stack.  This holds if the stack is deep enough,
and after a number of rounds large enough.

Missing: with compressed tables, grammars with fallbacks or a wildcard, and those with a state
without a row in `yy_shift_ofst` (see `C40_violated` and `C37_violated`); rules for the error symbol,
rules of more than 128 symbols (see `C43_violated`); and the assertion on the peak of the stack if
`YYTRACKMAXSTACKDEPTH` is defined (see `C42_violated`). -/
theorem C40_accepts_partial (u : Usable g) (hfb : FallbackOK g fb) (herr : ∀ r ∈ g.rules, g.errsym ≠ some r.lhs)
    (hlen : ∀ r ∈ g.rules, r.rhs.length ≤ 128) (h : Generated g fb compress m F A cs T)
    (hcok : compress = true → (∀ t, fb t = none) ∧ g.wildcard = none ∧ T.shiftOfst.length = T.nx) (hn : NoConflicts g m F) (ts : List Nat)
    (hts : g.cfg.Sentence g.start ts) :
    ∃ N, ∀ (c : PConf) (fuel : Nat), c.track = false ∨ c.ndebug = true → (∀ d, c.depth = some d → N ≤ d) → N ≤ fuel →
      ∃ q es, parseTokens T c fuel (ts ++ [0]) .init = some (q, es ++ [.accept]) ∧ (∀ e ∈ es, (∃ t, e = .shift t) ∨ ∃ r, e = .reduce r) ∧
        shifted es = ts := by
  have hy : Yields g.cfg [g.start] ts := yields_iff.mpr hts
  obtain ⟨ws, h1, h2⟩ := yields_ext u.wf hy
  obtain ⟨rs, vs, hb⟩ := h1.builds (V := Unit) (fun _ _ => ()) (ws.map fun X => (X, ())) (by simp [List.map_map, Function.comp_def])
  generalize hβ : [g.start] = β at hb
  generalize hw : (ws.map fun X => (X, ())) = w at hb
  cases hb with
  | nil => cases hβ
  | @tok _ _ _ _ t _ ht =>
    obtain ⟨_, e⟩ := List.append_inj' (s₁ := []) hβ rfl
    simp only [List.cons.injEq, and_true] at e
    have ht' : t < g.nlow := ht
    have := u.start.1
    omega
  | @rule rs1 rs2 β w1 w2 vs1 us r A' α hr k1 k2 =>
    obtain ⟨e1, e2⟩ := List.append_inj' (s₁ := []) hβ rfl
    simp only [List.cons.injEq, and_true] at e2
    subst e1 e2
    have hw1 : w1 = [] := by
      generalize hnil : ([] : List Nat) = l at k1
      cases k1 with
      | nil => rfl
      | tok => simp at hnil
      | rule => simp at hnil
    subst hw1
    obtain ⟨hrl, e3, e4⟩ := ext_rule.mp hr
    have hI : (lemonInit g).rules r := ⟨hrl, e3⟩
    have l1 := k2.licensed (I := lemonInit g) (γ := []) (z := [0]) (β' := []) (v := []) (d := 0) (t := 0) (.init hI) hr (by simp)
      (.tok (by show 0 < g.nlow; have := u.wf.nterm; unfold Gram.nlow; omega))
    have l2 : Lic g.ext (lemonInit g) [r] ([] ++ α, [0]) ([] ++ [g.start], [0]) := by
      refine .reduce (z := [0]) ?_ hr (.tok (by show 0 < g.nlow; have := u.wf.nterm; unfold Gram.nlow; omega)) (.refl _)
      have := Ctx.advance (Ctx.init (G := g.ext) hI) hr α [] (by simp)
      simpa [lemonInit] using this
    obtain ⟨N, hN⟩ := simulate u h hfb hcok herr hlen hn (l1.trans l2) rfl
    refine ⟨N, ?_⟩
    intro c fuel hc hd hf
    have hfst : w2.map Prod.fst = ws := by
      rw [List.nil_append] at hw
      rw [← hw]
      simp [List.map_map, Function.comp_def]
    have hall : List.Forall₂ (fun t Y => t < g.nterm ∧ t ∈ g.members Y) (ts ++ [0]) (w2.map Prod.fst ++ [0]) := by
      rw [hfst]
      refine List.rel_append ?_ (.cons ⟨u.wf.nterm, ?_⟩ .nil)
      · have htok := hts.1
        clear hN l1 l2 hw hfst h1 hy hts
        induction h2 with
        | nil => exact .nil
        | cons h _ ih =>
          exact .cons ⟨htok _ List.mem_cons_self, h⟩ (ih fun t ht => htok t (List.mem_cons_of_mem _ ht))
      · unfold Gram.members
        rw [if_pos u.wf.nterm]
        exact List.mem_singleton_self _
    cases ts with
    | nil =>
      obtain ⟨q, es, j1, j2, j3⟩ := hN c fuel fuel false .init 0 [] hc hd hf hf (.bottom 0) hall
      exact ⟨q, es, j1, j2, j3⟩
    | cons t ts =>
      rw [List.cons_append] at hall
      obtain ⟨q, es, j1, j2, j3⟩ := hN c fuel fuel false .init t (ts ++ [0]) hc hd hf hf (.bottom 0) hall
      refine ⟨q, es, j1, j2, ?_⟩
      rw [j3, ← List.cons_append, List.dropLast_concat]

theorem sum_zero : ∀ l : List Nat, l.sum = 0 → ∀ x ∈ l, x = 0 := by
  intro l
  induction l with
  | nil => intro _ x hx; cases hx
  | cons a l ih =>
    intro h x hx
    rw [List.sum_cons] at h
    rcases List.mem_cons.mp hx with rfl | hx
    · omega
    · exact ih (by omega) x hx

/-- If no precedences are declared and lemon reports no conflicts then there are none. -/
theorem noConflicts_of_count (u : Usable g) (h : Prepared g compress m F A cs) (hp : ∀ X, g.prec X < 0) (hc : A.count.err = 0) :
    NoConflicts g m F := by
  obtain ⟨_, k, h1, h2, _⟩ := C33_resolution g u.wf u.start u.items _ m F h.analysed h.small A h.actions
  rw [hc] at h2
  intro s hs t ht cs' hcs'
  have hi : t < g.nsymbol := by
    have := u.wf.nsym
    unfold Gram.nlow at this
    unfold Gram.nsymbol
    omega
  have hsym : g.sym t = t := by unfold Gram.sym; rw [if_pos ht]
  have hk : (k s t).err = 0 := by
    unfold sumOver at h2
    have h3 := sum_zero _ h2.symm
    have h4 := h3 _ (List.mem_map.mpr ⟨s, List.mem_range.mpr hs, rfl⟩)
    have h5 := sum_zero _ h4
    have h6 := h5 _ (List.mem_map.mpr ⟨t, List.mem_range.mpr hi, rfl⟩)
    rwa [hsym] at h6
  have hstart : ¬ (s = 0 ∧ t = g.start) := by
    have := u.start.1
    unfold Gram.nlow at this
    omega
  have := h1 s hs t hi
  rw [hsym] at this
  rcases this with ⟨h3, _, _⟩ | ⟨c, cs, o, h3, h4, h5⟩
  · have := congrArg List.length (competitors_kind hcs' h3)
    simp at this
    simp [this]
  · have hl := congrArg List.length (competitors_kind hcs' h3)
    simp only [List.length_map, List.length_cons] at hl
    have hrp : rulePrecs g (precsyms g) = fun _ => none := by
      funext r
      unfold rulePrecs
      cases precsyms g r with
      | none => rfl
      | some X => simp [Gram.precOf, hp X]
    rw [hrp] at h4
    obtain ⟨qs, rs, e1, _⟩ := h3
    rw [if_neg hstart, List.append_nil] at e1
    obtain ⟨k', e2, e3⟩ := settle_ignored (p := g.precOf t) (a := g.assoc t) cs c (by
        rw [e1, List.pairwise_append]
        refine ⟨?_, ?_, ?_⟩
        · rw [List.pairwise_map]; exact List.pairwise_of_forall fun a b => by simp [Cand.rank]
        · rw [List.pairwise_map]; exact List.pairwise_of_forall fun a b => by simp [Cand.rank]
        · intro a ha b hb
          obtain ⟨q, _, rfl⟩ := List.mem_map.mp ha
          obtain ⟨r, _, rfl⟩ := List.mem_map.mp hb
          simp [Cand.rank])
      (by
        rw [e1]
        intro x hx
        rcases List.mem_append.mp hx with hx | hx <;> obtain ⟨q, _, rfl⟩ := List.mem_map.mp hx <;> simp)
    rw [h4] at e2
    simp only [Option.some.injEq, Prod.mk.injEq] at e2
    obtain ⟨rfl, rfl⟩ := e2
    omega

/-- C40 for grammars without precedences for which lemon reports no conflicts.  For what is missing see
`C40_accepts_partial`. -/
theorem C40_reported_partial (u : Usable g) (hfb : FallbackOK g fb) (herr : ∀ r ∈ g.rules, g.errsym ≠ some r.lhs)
    (hlen : ∀ r ∈ g.rules, r.rhs.length ≤ 128) (h : Generated g fb compress m F A cs T)
    (hcok : compress = true → (∀ t, fb t = none) ∧ g.wildcard = none ∧ T.shiftOfst.length = T.nx) (hp : ∀ X, g.prec X < 0)
    (hn : A.count.err = 0) (ts : List Nat) (hts : g.cfg.Sentence g.start ts) :
    ∃ N, ∀ (c : PConf) (fuel : Nat), c.track = false ∨ c.ndebug = true → (∀ d, c.depth = some d → N ≤ d) → N ≤ fuel →
      ∃ q es, parseTokens T c fuel (ts ++ [0]) .init = some (q, es ++ [.accept]) ∧ (∀ e ∈ es, (∃ t, e = .shift t) ∨ ∃ r, e = .reduce r) ∧
        shifted es = ts :=
  C40_accepts_partial u hfb herr hlen h hcok (noConflicts_of_count u h.toPrepared hp hn) ts hts

/-- C39 and C40 together: without conflicts, fallbacks and wildcard, the parser (with a stack that
grows as needed) accepts exactly the sentences, in the sense that it comes to an end, accepts, and
reports no error.  For what is missing see `C40_accepts_partial`. -/
theorem C40_language_partial (u : Usable g) (herr : ∀ r ∈ g.rules, g.errsym ≠ some r.lhs) (hlen : ∀ r ∈ g.rules, r.rhs.length ≤ 128)
    (h : Generated g (fun _ => none) compress m F A cs T) (hw : g.wildcard = none) (hrow : compress = true → T.shiftOfst.length = T.nx)
    (hn : NoConflicts g m F) (c : PConf) (hd : c.depth = none) (ht : c.track = false) (ts : List Nat) (hts : ∀ t ∈ ts, t ≠ 0 ∧ t < g.nterm) :
    g.cfg.Sentence g.start ts ↔ ∃ fuel q evs, parseTokens T c fuel (ts ++ [0]) .init = some (q, evs) ∧ .accept ∈ evs ∧
      (∀ t, .syntaxError t ∉ evs) ∧ .overflow ∉ evs := by
  constructor
  · intro hs
    obtain ⟨N, hN⟩ := C40_accepts_partial u (fb := fun _ => none) (by intro t t' h; cases h) herr hlen h
      (fun hc => ⟨fun _ => rfl, hw, hrow hc⟩) hn ts hs
    obtain ⟨q, es, h1, h2, _⟩ := hN c N (.inl ht) (by rw [hd]; intro d h; cases h) (Nat.le_refl _)
    refine ⟨N, q, _, h1, by simp, ?_, ?_⟩
    · intro t hm
      rcases List.mem_append.mp hm with hm | hm
      · rcases h2 _ hm with ⟨_, h⟩ | ⟨_, h⟩ <;> cases h
      · simp at hm
    · intro hm
      rcases List.mem_append.mp hm with hm | hm
      · rcases h2 _ hm with ⟨_, h⟩ | ⟨_, h⟩ <;> cases h
      · simp at hm
  · rintro ⟨fuel, q, evs, h1, h2, h3, h4⟩
    exact C39_plain_partial u hw (fun r hr => Nat.lt_of_le_of_lt (hlen r hr) (by decide)) ⟨m, F, A, cs, h⟩ c fuel ts hts q evs h1 h2 h3 h4

theorem Analysed.unique {m' : Mach} {F' : List TSet} (h : Analysed g m F) (h' : Analysed g m' F') : m = m' ∧ F = F' := by
  obtain ⟨fs, h1, h2, h3⟩ := h
  obtain ⟨fs', h1', h2', h3'⟩ := h'
  rw [h1] at h1'; cases h1'
  rw [h2] at h2'; cases h2'
  rw [h3] at h3'; cases h3'
  exact ⟨rfl, rfl⟩

/-- the number of conflicts, computed with bounded numbers of rounds -/
def conflicts (g : Gram) (n : Nat) : Option Nat :=
  (analyse g n).bind fun x => (findActions g (precsyms g) x.1 x.2).map fun A => A.count.err

theorem count_of {n k : Nat} (u : Usable g) (h : Prepared g compress m F A cs) (hc : conflicts g n = some k) : A.count.err = k := by
  unfold conflicts at hc
  obtain ⟨⟨m', F'⟩, h1, h2⟩ := Option.bind_eq_some_iff.mp hc
  obtain ⟨A', h3, h4⟩ := Option.map_eq_some_iff.mp h2
  obtain ⟨rfl, rfl⟩ := h.analysed.unique (analysed_of_analyse u.wf u.items h1)
  have h5 := h.actions
  simp only at h3
  rw [h3] at h5
  cases h5
  exact h4

/-- The hypotheses of `C40_reported_partial` for the grammar `exMix` (see C39), without fallbacks and with
compression … -/
example : ∃ m F A cs T, Usable exMix ∧ (∀ r ∈ exMix.rules, exMix.errsym ≠ some r.lhs) ∧ (∀ r ∈ exMix.rules, r.rhs.length ≤ 128) ∧
    Generated exMix (fun _ => none) true m F A cs T ∧ exMix.wildcard = none ∧ T.shiftOfst.length = T.nx ∧ (∀ X, exMix.prec X < 0) ∧ A.count.err = 0 := by
  have u : Usable exMix := usable_of (by decide +kernel)
  have hrow : (makeTables true exMix (fun _ => none) 20).map (fun T => decide (T.shiftOfst.length = T.nx)) = some true := by decide +kernel
  obtain ⟨T, h1, h2⟩ := Option.map_eq_some_iff.mp hrow
  obtain ⟨m, F, A, cs, h3⟩ := generates_of u h1
  exact ⟨m, F, A, cs, T, u, by decide, by decide, h3, rfl, by simpa using h2, fun _ => (by decide : (-1 : Int) < 0), count_of u h3.toPrepared (n := 20) (by decide +kernel)⟩

/-- … and with fallbacks and without compression. -/
example : ∃ m F A cs T, Usable exMix ∧ FallbackOK exMix exMixFb ∧ Generated exMix exMixFb false m F A cs T ∧ A.count.err = 0 := by
  have u : Usable exMix := usable_of (by decide +kernel)
  have hs : (makeTables false exMix exMixFb 20).isSome = true := by decide +kernel
  obtain ⟨T, h1⟩ := Option.isSome_iff_exists.mp hs
  obtain ⟨m, F, A, cs, h3⟩ := generates_of u h1
  refine ⟨m, F, A, cs, T, u, ?_, h3, count_of u h3.toPrepared (n := 20) (by decide +kernel)⟩
  intro t t' h
  unfold exMixFb at h
  split_ifs at h
  cases h
  subst_vars
  decide

/-- `ID PLUS ID` is a sentence of `exMix`, so it is accepted. -/
example : exMix.cfg.Sentence exMix.start [3, 1, 3] := by
  refine ⟨by decide, ?_⟩
  refine .tail (.tail (.tail (.tail (.tail (.single (.mk [] [] (A := 6) (α := [7]) ?_)) (.mk [] [] (A := 7) (α := [7, 5, 8]) ?_))
    (.mk [] [5, 8] (A := 7) (α := [8]) ?_)) (.mk [] [5, 8] (A := 8) (α := [3]) ?_)) (.mk [3] [8] (A := 5) (α := [1]) ?_))
    (.mk [3, 1] [] (A := 8) (α := [3]) ?_)
  all_goals decide

/-- `s ::= X F Y. s ::= a K. a ::= X.` with `%fallback F K.`  `$ X F K Y` are 0…4, `s a` are 5 6. -/
def exFbHide : Gram where
  nterm := 5
  mts := []
  nsym := 7
  rules := [⟨5, [1, 2, 4], none, true⟩, ⟨5, [6, 3], none, true⟩, ⟨6, [1], none, true⟩]
  start := 5
  errsym := none
  wildcard := none
  prec := fun _ => -1
  assoc := fun _ => .UNK

/-- the fallback of `K` is `F` -/
def exFbHideFb (t : Nat) : Option Nat := if t = 3 then some 2 else none

/-- `s ::= a T. s ::= b W Y. a ::= X. b ::= X.` with `%wildcard W.`  `$ T X W Y` are 0…4, `s a b` are 5 6 7. -/
def exWild : Gram where
  nterm := 5
  mts := []
  nsym := 8
  rules := [⟨5, [6, 1], none, true⟩, ⟨5, [7, 3, 4], none, true⟩, ⟨6, [2], none, true⟩, ⟨7, [2], none, true⟩]
  start := 5
  errsym := none
  wildcard := some 3
  prec := fun _ => -1
  assoc := fun _ => .UNK

/-- C40 does not hold in general.  For two grammars without conflicts the parser with compressed
tables reports a syntax error on a sentence: on `X K` of `exFbHide`, since after `X` the reduction on
`K` has become the default, which counts less than the shift of the fallback of `K`; and on `X T` of
`exWild`, since after `X` the reduction on `T` has become the default, which counts less than the
reduction on the wildcard.  Without compression both are accepted. -/
theorem C40_violated :
    (Usable exFbHide ∧ FallbackOK exFbHide exFbHideFb ∧ exFbHide.cfg.Sentence exFbHide.start [1, 3] ∧ conflicts exFbHide 20 = some 0 ∧
      ∃ T T', Generates exFbHide exFbHideFb true T ∧ Generates exFbHide exFbHideFb false T' ∧ ∀ c : PConf, c.depth = none → c.track = false →
        (∃ q evs, parseTokens T c 20 [1, 3, 0] .init = some (q, evs) ∧ .syntaxError 0 ∈ evs ∧ .accept ∉ evs) ∧
        ∃ q evs, parseTokens T' c 20 [1, 3, 0] .init = some (q, evs) ∧ .accept ∈ evs ∧ ∀ t < 5, .syntaxError t ∉ evs) ∧
    (Usable exWild ∧ exWild.cfg.Sentence exWild.start [2, 1] ∧ conflicts exWild 20 = some 0 ∧
      ∃ T T', Generates exWild (fun _ => none) true T ∧ Generates exWild (fun _ => none) false T' ∧ ∀ c : PConf, c.depth = none → c.track = false →
        (∃ q evs, parseTokens T c 20 [2, 1, 0] .init = some (q, evs) ∧ .syntaxError 0 ∈ evs ∧ .accept ∉ evs) ∧
        ∃ q evs, parseTokens T' c 20 [2, 1, 0] .init = some (q, evs) ∧ .accept ∈ evs ∧ ∀ t < 5, .syntaxError t ∉ evs) := by
  have key : ∀ (g : Gram) (fb : Nat → Option Nat) (ts : List Nat), Usable g →
      (∀ nr nd : Bool, (makeTables true g fb 20).bind (fun T => (parseTokens T ⟨none, nr, false, nd⟩ 20 ts .init).map fun x =>
        decide (Ev.syntaxError 0 ∈ x.2 ∧ Ev.accept ∉ x.2)) = some true) →
      (∀ nr nd : Bool, (makeTables false g fb 20).bind (fun T => (parseTokens T ⟨none, nr, false, nd⟩ 20 ts .init).map fun x =>
        decide (Ev.accept ∈ x.2 ∧ ∀ t < 5, Ev.syntaxError t ∉ x.2)) = some true) →
      ∃ T T', Generates g fb true T ∧ Generates g fb false T' ∧ ∀ c : PConf, c.depth = none → c.track = false →
        (∃ q evs, parseTokens T c 20 ts .init = some (q, evs) ∧ .syntaxError 0 ∈ evs ∧ .accept ∉ evs) ∧
        ∃ q evs, parseTokens T' c 20 ts .init = some (q, evs) ∧ .accept ∈ evs ∧ ∀ t < 5, .syntaxError t ∉ evs := by
    intro g fb ts u h1 h2
    obtain ⟨T, e1, _⟩ := Option.bind_eq_some_iff.mp (h1 true true)
    obtain ⟨T', e2, _⟩ := Option.bind_eq_some_iff.mp (h2 true true)
    refine ⟨T, T', generates_of u e1, generates_of u e2, ?_⟩
    rintro ⟨d, nr, tr, nd⟩ hd ht
    simp only at hd ht
    subst hd ht
    have k1 := h1 nr nd
    have k2 := h2 nr nd
    rw [e1] at k1
    rw [e2] at k2
    obtain ⟨⟨q, evs⟩, j1, j2⟩ := Option.map_eq_some_iff.mp k1
    obtain ⟨⟨q', evs'⟩, j3, j4⟩ := Option.map_eq_some_iff.mp k2
    exact ⟨⟨q, evs, j1, of_decide_eq_true j2⟩, ⟨q', evs', j3, of_decide_eq_true j4⟩⟩
  refine ⟨⟨usable_of (by decide +kernel), ?_, ⟨by decide, ?_⟩, by decide +kernel, ?_⟩, usable_of (by decide +kernel), ⟨by decide, ?_⟩, by decide +kernel, ?_⟩
  · intro t t' h
    unfold exFbHideFb at h
    split_ifs at h
    cases h
    subst_vars
    decide
  · exact .tail (.single (.mk [] [] (A := 5) (α := [6, 3]) (by decide))) (.mk [] [3] (A := 6) (α := [1]) (by decide))
  · exact key _ _ _ (usable_of (by decide +kernel)) (by decide +kernel) (by decide +kernel)
  · exact .tail (.single (.mk [] [] (A := 5) (α := [6, 1]) (by decide))) (.mk [] [1] (A := 6) (α := [2]) (by decide))
  · exact key _ _ _ (usable_of (by decide +kernel)) (by decide +kernel) (by decide +kernel)

end Verif.Lemon
