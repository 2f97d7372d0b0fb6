import Verif.Proofs.LemonRepair
import Verif.Props.C69
/-
C70: error recovery with the error symbol in parsers made by lemon.
-/
set_option autoImplicit false
namespace Verif.Lemon
open Verif.Spec

variable {g : Gram} {fb : Nat → Option Nat} {compress : Bool} {m : Mach} {F : List TSet} {A : Acts} {cs : List CState} {T : Tables}

/-! ### entries for nonterminals -/

/-- C36, converse for nonterminals.  If an entry for nonterminal `X` is found in the row of a state, then
the state has an action on some nonterminal, and the entry is that of a state whose row has the same
offset.  What is missing, that it is the entry of the state itself, does not hold (`C70_violated` comes from that);
after a reduction only entries that exist are looked for, but not when the error symbol is to be
shifted. -/
theorem C36_goto_partial (u : Usable g) (h : Generated g fb compress m F A cs T) (s : Nat) (hs : s < cs.length)
    (hx : (resortStates g cs).idxOf s < T.nx) (X : Nat) (hX : g.nlow ≤ X) (hX' : X < g.nsym) (n : Nat)
    (hn : T.gotoEntry ((resortStates g cs).idxOf s) (g.index X) = some n) :
    (∃ Y, g.nlow ≤ Y ∧ Y < g.nsym ∧ (cs.getD s ⟨[], none⟩).on Y ≠ []) ∧
    ∃ s' e, s' < cs.length ∧ (resortStates g cs).idxOf s' < T.nx ∧
      T.reduceOfst[(resortStates g cs).idxOf s']? = T.reduceOfst[(resortStates g cs).idxOf s]? ∧
      ((cs.getD s' ⟨[], none⟩).on X).getLast? = some e ∧ n = actNum g cs.length (resortStates g cs) X e := by
  have R := h.reported u
  have hp := h.toPrepared
  have hlen := (hp.states u).1
  unfold Tables.gotoEntry at hn
  split at hn
  · cases hn
  · rename_i o ho
    split_ifs at hn with h1
    rw [R.nxs] at hx
    obtain ⟨h2, i', h3, h4, h5⟩ := R.origin _ hx X hX hX' o n ho h1.1 h1.2 hn
    refine ⟨?_, ?_⟩
    · rw [show stateAt cs (resortStates g cs) ((resortStates g cs).idxOf s) = cs.getD s ⟨[], none⟩ by unfold stateAt; rw [(order_idx hs).1]] at h2
      unfold nNtAct at h2
      obtain ⟨a, ha⟩ := List.length_pos_iff_exists_mem.mp h2
      rw [List.mem_filter] at ha
      simp only [Bool.and_eq_true, decide_eq_true_eq] at ha
      have hok := hp.actsOK u (s := s) (by omega)
      have hpl := hok.plain u.wf ha.1
      have hlt := index_lt_nterm hpl
      refine ⟨a.sp, ?_, ?_, List.ne_nil_of_mem (mem_onSym.mpr ⟨a, ha.1, ha.2.1.1, rfl, rfl⟩)⟩
      · rcases hpl with hpl | hpl
        · omega
        · exact hpl
      · have hlow : g.nlow ≤ a.sp := by
          rcases hpl with hpl | hpl
          · omega
          · exact hpl
        exact plain_of_index' hlow ha.2.2
    · have hi' : i' < cs.length := by
        have := nxstate_le cs (resortStates g cs)
        rw [order_length] at this
        omega
      obtain ⟨s', _, k2, k3, k4⟩ := order_get (g := g) (cs := cs) (i := i') hi'
      unfold lastNum stateAt at h5
      rw [k2] at h5
      obtain ⟨e, e1, e2⟩ := Option.map_eq_some_iff.mp h5
      rw [← k4] at h3 h4
      exact ⟨s', e, k3, by rw [R.nxs]; exact h3, by rw [h4, ho], e1, e2.symm⟩

/-- The hypothesis `ErrExact` of the theorems below can be read off the tables: it is met if no row with an
entry for the error symbol has the offset of another row. -/
theorem errExact_of (u : Usable g) (h : Generated g fb compress m F A cs T) (hst : g.errsym ≠ some g.start)
    (ho : ∀ E, g.errsym = some E → ∀ i i' o, T.reduceOfst[i]? = some o → T.reduceOfst[i']? = some o → i ≠ i' → T.gotoEntry i (g.index E) = none) :
    ErrExact g m cs T := by
  intro E hE s hs hx hne
  obtain ⟨n, hn⟩ := Option.ne_none_iff_exists'.mp hne
  have hb := u.err E hE
  obtain ⟨_, s', e, h1, h2, h3, h4, _⟩ := C36_goto_partial u h s hs hx E hb.1 hb.2 n hn
  have hss : s' = s := by
    have : (resortStates g cs).idxOf s' = (resortStates g cs).idxOf s := by
      by_contra hc
      unfold Tables.gotoEntry at hn
      cases hr : T.reduceOfst[(resortStates g cs).idxOf s]? with
      | none => rw [hr] at hn; cases hn
      | some o =>
        rw [hr] at h3
        exact hne (ho E hE _ _ o hr h3 fun hc' => hc hc'.symm)
    have k1 := (order_idx (g := g) h1).1
    rw [this, (order_idx hs).1] at k1
    exact k1.symm
  subst hss
  have hp := h.toPrepared
  have hs' : s' < m.sts.length := by rw [← (hp.states u).1]; exact h1
  have hon : A.on s' E ≠ [] := by
    intro hc
    rw [((hp.states u).2 s' hs').comp.none E hb.2 hc] at h4
    cases h4
  obtain ⟨e', he'⟩ := List.exists_mem_of_ne_nil _ hon
  rcases on_sound u.wf u.start u.items h.analysed h.small h.actions hs' he' with ⟨q, Y, _, k1, k2⟩ | ⟨r, _, k⟩ | ⟨_, k⟩
  · rw [← (shiftSyms_nt u.wf hb.1).mp k2] at k1
    exact ⟨q, k1⟩
  · have := k.2.1
    have hnl : g.nterm ≤ g.nlow := by unfold Gram.nlow; omega
    omega
  · rw [k.2] at hE
    exact absurd hE hst

/-! ### C70 -/

/-- C70, repaired input.  The tables have been made for a grammar with an error symbol, and have an entry for
it only in rows of states that can shift it (`ErrExact`).  The parser is given any tokens.  Take any point
at which it accepts.  Then the symbol on its stack was made of a string `w` of tokens given (in order, some are
missing) and of error symbols, and `w` can be derived from the start symbol, with the error symbol taken as a
token (and up to reading tokens as their fallbacks or as the wildcard).

What is missing is that `ErrExact` holds, see `C70_violated`; and rules with 256 and more symbols (C43). -/
theorem C70_repair_partial (u : Usable g) (hlen : ∀ r ∈ g.rules, r.rhs.length < 256) (hfb : FallbackOK g fb)
    (h : Generated g fb compress m F A cs T) (hx : ErrExact g m cs T) (c : PConf) (fuel : Nat) (ts : List Nat) (hts : ∀ t ∈ ts, t < g.nterm)
    (p : PState) (evs : List Ev) (hp : parseTokens T c fuel ts .init = some (p, evs)) (a b : List Ev) (hacc : evs = a ++ .accept :: b) :
    ∃ w ys, kept T a = [w] ∧ g.cfg.Derives [g.start] ys ∧ List.Forall₂ (Stands g fb) w ys ∧
      (w.filter (decide <| · < g.nterm)).Sublist ts := by
  obtain ⟨_, h2⟩ := keeps_tokens u h hfb hlen hx ts .init p [] evs hts ⟨[], .norm (.bottom 0), .nil⟩ hp
  obtain ⟨w, w1, ys, w2, w3⟩ := h2 a b hacc
  refine ⟨w, ys, w1, w2, w3, ?_⟩
  have hE : ∀ X, T.errsym = some X → g.nterm ≤ X := by
    intro X hX
    rw [(h.reported u).errsym] at hX
    obtain ⟨E, hE, rfl⟩ := Option.map_eq_some_iff.mp hX
    have hb := u.err E hE
    have hlt := index_lt_nterm (g := g) (X := E) (.inr hb.1)
    have hnl : g.nterm ≤ g.nlow := by unfold Gram.nlow; omega
    omega
  have h3 := pushed_tokens (n := g.nterm) hE ts .init p evs hp
  have h4 := keepFrom_sublist (T := T) a []
  rw [w1] at h4
  simp only [List.reverse_nil, List.flatten_nil, List.nil_append, List.reverse_cons, List.flatten_cons, List.append_nil] at h4
  refine (h4.filter _).trans (List.Sublist.trans ?_ h3)
  rw [hacc, pushed_append, List.filter_append]
  exact List.sublist_append_left _ _

/-- the state of an entry on the stack can shift the error symbol -/
def ShiftsError (g : Gram) (m : Mach) (cs : List CState) (e : Nat × Nat) : Prop :=
  ∃ E s q, g.errsym = some E ∧ s < cs.length ∧ (s, E, q) ∈ m.shifts ∧ (resortStates g cs).idxOf s = e.1

/-- C70, the place of recovery.  Under the same conditions: if in any state `p` the parser can get to it finds
an error at token `t` (not the end of input), and has not just shifted the error symbol, then
* either there is an entry on the stack, other than that at the bottom, whose state can shift the error
  symbol; then the symbols above the topmost such entry are destroyed, and the error symbol is
  shifted (or the stack overflows);
* or there is no such entry; then all symbols and the token are destroyed, and the parser fails. -/
theorem C70_nearest_partial (u : Usable g) (hlen : ∀ r ∈ g.rules, r.rhs.length < 256) (hfb : FallbackOK g fb)
    (h : Generated g fb compress m F A cs T) (hx : ErrExact g m cs T) (c : PConf) (t : Nat) (p : PState) (hv : Visits T c g.nterm t false p)
    (E : Nat) (hE : g.errsym = some E) (h0 : t ≠ 0) (top : Nat × Nat) (htop : p.stack.head? = some top) (hne : top.2 ≠ g.index E) (fuel : Nat)
    (hf : T.findShift c.ndebug fuel t top.1 = some T.errAction) (x : Round) (hr : parseRound T c t fuel false p = some x) :
    ∃ syn j, (syn = [] ∨ syn = [.syntaxError t]) ∧ j < p.stack.length ∧ (∀ i e, i < j → p.stack[i]? = some e → ¬ ShiftsError g m cs e) ∧
      ((∃ e rest, j + 1 < p.stack.length ∧ p.stack[j]? = some e ∧ ShiftsError g m cs e ∧
          x.evs = syn ++ (p.stack.take j).map (fun e => Ev.pop e.2) ++ rest ∧ (rest = [.shift (g.index E)] ∨ .overflow ∈ rest)) ∨
        (j + 1 = p.stack.length ∧ x.evs = syn ++ (p.stack.take j).map (fun e => Ev.pop e.2) ++ [.discard t, .failed])) := by
  have hpr := h.toPrepared
  obtain ⟨ht, k, γ, hc, _⟩ := keeps_visits u h hfb hlen hx hv
  obtain ⟨c1, c2, c3, c4, c5, c6, c7⟩ := consts u h
  -- the stack is a path
  obtain ⟨s, hs⟩ : ∃ s, Sim g m cs (nxstate cs (resortStates g cs)) p.stack s γ := by
    generalize hst : p.stack = st at hc
    cases hc with
    | norm hs => exact ⟨_, hs⟩
    | pend X hs _ _ =>
      rw [hst] at htop
      cases htop
      unfold Tables.findShift at hf
      rw [if_pos (by omega)] at hf
      have := Option.some.inj hf
      omega
    | acc X _ hs =>
      rw [hst] at htop
      cases htop
      unfold Tables.findShift at hf
      rw [if_pos (by omega)] at hf
      have := Option.some.inj hf
      omega
  have hTE : T.errsym = some (g.index E) := by rw [(h.reported u).errsym, hE]; rfl
  -- entries
  have hent : ∀ j e, j + 1 < p.stack.length → p.stack[j]? = some e → ∀ n, T.findReduce e.1 (g.index E) = some n →
      (ShiftsError g m cs e ↔ n < T.minShiftReduce + T.nrule) := by
    intro j e hj he n hn
    have hl := hs.length
    have hj' : (γ.drop (γ.length - j)).length = j := by rw [List.length_drop]; omega
    obtain ⟨s', h1⟩ := hs.split (γ.take (γ.length - j)) (γ.drop (γ.length - j)) (List.take_append_drop _ _).symm
    rw [hj'] at h1
    obtain ⟨⟨X0, hX0⟩, h2, h3⟩ := h1.head u hpr
    rw [List.head?_drop, he] at hX0
    cases hX0
    have hs0 : s' ≠ 0 := by
      have hld : 2 ≤ (p.stack.drop j).length := by rw [List.length_drop]; omega
      generalize p.stack.drop j = st at h1 hld
      generalize γ.take (γ.length - j) = δ at h1
      cases h1 with
      | bottom => simp at hld
      | push _ _ ht => exact trans_ne_zero u h ht
    rw [← (findErr_sound u h hx hE h1 hn).2 hs0]
    constructor
    · rintro ⟨E', s1, q, e1, e2, e3, e4⟩
      rw [hE] at e1
      cases e1
      have k1 := (order_idx (g := g) e2).1
      have k2 := (order_idx (g := g) (cs := cs) (s := s') (by rw [(hpr.states u).1]; exact h2)).1
      have e4' : (resortStates g cs).idxOf s1 = (resortStates g cs).idxOf s' := e4
      rw [e4', k2] at k1
      subst k1
      exact ⟨q, e3⟩
    · rintro ⟨q, hq⟩
      exact ⟨E, s', q, hE, by rw [(hpr.states u).1]; exact h2, hq, rfl⟩
  unfold parseRound at hr
  rw [htop] at hr
  simp only [hf] at hr
  rw [if_neg (by omega), if_neg (by omega), if_neg (by omega)] at hr
  simp only [if_true] at hr
  obtain ⟨⟨q, evs, b⟩, hon, rfl⟩ := Option.map_eq_some_iff.mp hr
  have hev : (if b = true then Round.next true q evs else Round.stop q evs).evs = evs := by split_ifs <;> rfl
  simp only
  rw [hev]
  have hsyn : (if p.errcnt < 0 then [Ev.syntaxError t] else []) = [] ∨ (if p.errcnt < 0 then [Ev.syntaxError t] else []) = [Ev.syntaxError t] := by
    split_ifs
    · exact .inr rfl
    · exact .inl rfl
  cases onError_onErr hon with
  | none hE' => rw [hTE] at hE'; cases hE'
  | plain hE' => rw [hTE] at hE'; cases hE'
  | last hE' => rw [hTE] at hE'; cases hE'
  | drop hE' htop' hd =>
    rw [hTE] at hE'
    cases hE'
    rw [htop] at htop'
    cases htop'
    rcases hd with hd | hd
    · exact absurd hd hne
    · cases hd
  | @fail E' top' st act pops hE' htop' hd hp hf' =>
    rw [hTE] at hE'
    cases hE'
    obtain ⟨j, k1, k2, k3, k4, k5⟩ := popToError_drop _ _ _ _ _ hp
    have hj : j + 1 = p.stack.length := by
      rcases hf' with hf' | hf'
      · rw [k2, List.length_drop] at hf'
        omega
      · exact absurd hf' h0
    refine ⟨_, j, hsyn, k1, ?_, .inr ⟨hj, ?_⟩⟩
    · intro i e hi he
      obtain ⟨n, n1, n2⟩ := k4 i e hi he
      rw [hent i e (by omega) he n n1]
      omega
    · have hst : (popAll st).2 = [] := by
        unfold popAll
        rw [k2, List.length_drop, show p.stack.length - j - 1 = 0 by omega]
        rfl
      rw [hst, k3]
      rfl
  | @shift E' top' st act pops q' evs' hE' htop' hd hp hf' hsh =>
    rw [hTE] at hE'
    cases hE'
    obtain ⟨j, k1, k2, k3, k4, k5⟩ := popToError_drop _ _ _ _ _ hp
    have hj : j + 1 < p.stack.length := by
      have := hf'.1
      rw [k2, List.length_drop] at this
      omega
    refine ⟨_, j, hsyn, k1, ?_, .inl ?_⟩
    · intro i e hi he
      obtain ⟨n, n1, n2⟩ := k4 i e hi he
      rw [hent i e (by omega) he n n1]
      omega
    · rcases k5 with k5 | ⟨e, e1, e2, e3⟩
      · omega
      · rw [k2, List.head?_drop] at e1
        refine ⟨e, evs', hj, e1, (hent j e hj e1 act e2).mpr e3, by rw [k3], ?_⟩
        obtain ⟨p1, _, ⟨_, h2⟩ | ⟨_, h2, _⟩⟩ := yyShift_cases hsh
        · simp only [stackOverflow, Prod.mk.injEq] at h2
          rw [h2.2]
          simp
        · exact .inl h2

/-- `S ::= L.  L ::= L T SEMI.  L ::= T SEMI.  T ::= ID NUM.  T ::= error.`  `$ SEMI ID NUM` are 0…3,
`S L T error` are 4…7. -/
def exList : Gram where
  nterm := 4
  mts := []
  nsym := 8
  rules := [⟨4, [5], none, true⟩, ⟨5, [5, 6, 1], none, true⟩, ⟨5, [6, 1], none, true⟩, ⟨6, [2, 3], none, true⟩, ⟨6, [7], none, true⟩]
  start := 4
  errsym := some 7
  wildcard := none
  prec := fun _ => -1
  assoc := fun _ => .UNK

theorem exList_usable : Usable exList := usable_of (by decide +kernel)

/-- The hypotheses of `C70_repair_partial` are met by this grammar of lists.  In the input `ID NUM ; ID ID ; ID NUM ;`
the second statement is wrong; what is accepted is `ID NUM ; error ; ID NUM ;`. -/
example : Usable exList ∧ (∀ r ∈ exList.rules, r.rhs.length < 256) ∧
    (∃ m F A cs T, Generated exList (fun _ => none) true m F A cs T ∧ ErrExact exList m cs T) ∧
    (makeTables true exList (fun _ => none) 20).bind (fun T => (parseTokens T ⟨none, false, false, false⟩ 20 [2, 3, 1, 2, 2, 1, 2, 3, 1, 0] .init).map
      fun x => (x.2.getLast?, kept T x.2.dropLast)) = some (some .accept, [[2, 3, 1, 7, 1, 2, 3, 1]]) := by
  refine ⟨exList_usable, by decide, ?_, by decide +kernel⟩
  have hm : (makeTables true exList (fun _ => none) 20).isSome = true := by decide +kernel
  obtain ⟨T, hT⟩ := Option.isSome_iff_exists.mp hm
  obtain ⟨m, F, A, cs, h⟩ := generates_of exList_usable hT
  refine ⟨m, F, A, cs, T, h, errExact_of exList_usable h (by decide) ?_⟩
  have k : (makeTables true exList (fun _ => none) 20).map Tables.reduceOfst = some [-4, 1] := by decide +kernel
  rw [hT] at k
  simp only [Option.map_some, Option.some.injEq] at k
  intro E _ i i' o h1 h2 hne
  exfalso
  rw [k] at h1 h2
  match i, i' with
  | 0, 0 => exact hne rfl
  | 0, 1 => simp at h1 h2; omega
  | 1, 0 => simp at h1 h2; omega
  | 1, 1 => exact hne rfl
  | _ + 2, _ => simp at h1
  | _, _ + 2 => simp at h2

/-- The same run, for `C70_nearest_partial`: the error is found when the stack is `ID L` (and the bottom); the state
after `L` can shift the error symbol, the one after `L ID` cannot. -/
example : (makeTables true exList (fun _ => none) 20).bind (fun T => (parseTokens T ⟨none, false, false, false⟩ 20 [2, 3, 1, 2] .init).bind fun x =>
      (parseRound T ⟨none, false, false, false⟩ 2 20 false x.1).map fun r => (x.1.symbols, r.evs)) =
    some ([2, 5], [.syntaxError 2, .pop 2, .shift 7]) := by decide +kernel

/-- C70 does not hold for the bottom of the stack.  In the input `ID ID ;` of the same grammar the first statement is
wrong.  `error ;` can be derived, and its prefixes `error` and `error ;` by the first state; but the parser
fails. -/
theorem C70_bottom_violated : Usable exList ∧ exList.cfg.Derives [exList.start] [7, 1] ∧ ∃ T, Generates exList (fun _ => none) true T ∧
    ∀ c : PConf, c.depth = none → c.track = false → ∃ p, parseTokens T c 20 [2, 2] .init = some (p, [.shift 2, .syntaxError 2, .pop 2, .discard 2, .failed]) := by
  refine ⟨exList_usable, ?_, ?_⟩
  · exact .tail (.tail (.tail .refl (.mk [] [] (A := 4) (α := [5]) (by decide))) (.mk [] [] (A := 5) (α := [6, 1]) (by decide)))
      (.mk [] [1] (A := 6) (α := [7]) (by decide))
  · have hm : (makeTables true exList (fun _ => none) 20).isSome = true := by decide +kernel
    obtain ⟨T, hT⟩ := Option.isSome_iff_exists.mp hm
    refine ⟨T, generates_of exList_usable hT, ?_⟩
    rintro ⟨d, nr, tr, nd⟩ h1 h2
    simp only at h1 h2
    subst h1 h2
    have k : ∀ nr nd : Bool, (makeTables true exList (fun _ => none) 20).bind (fun T =>
        (parseTokens T ⟨none, nr, false, nd⟩ 20 [2, 2] .init).map Prod.snd) =
        some [.shift 2, .syntaxError 2, .pop 2, .discard 2, .failed] := by
      decide +kernel
    have k := k nr nd
    rw [hT, Option.bind_some] at k
    obtain ⟨⟨p, e⟩, k1, rfl⟩ := Option.map_eq_some_iff.mp k
    exact ⟨p, k1⟩

/-- `S ::= B C.  T ::= B U.  U ::= C A.  V ::= C error.  W ::= C C B.  Z ::= V.  S ::= T Z.  Z ::= V A.
Z ::= A error W.  S ::= W C U.`  `$ A B C` are 0…3, `S T U V W Z error` are 4…10. -/
def exShared : Gram where
  nterm := 4
  mts := []
  nsym := 11
  rules := [⟨4, [2, 3], none, true⟩, ⟨5, [2, 6], none, true⟩, ⟨6, [3, 1], none, true⟩, ⟨7, [3, 10], none, true⟩, ⟨8, [3, 3, 2], none, true⟩,
    ⟨9, [7], none, true⟩, ⟨4, [5, 9], none, true⟩, ⟨9, [7, 1], none, true⟩, ⟨9, [1, 10, 8], none, true⟩, ⟨4, [8, 3, 6], none, true⟩]
  start := 4
  errsym := some 10
  wildcard := none
  prec := fun _ => -1
  assoc := fun _ => .UNK

theorem exShared_usable : Usable exShared := usable_of (by decide +kernel)

/-- all strings derived from the start symbol of `exShared` -/
def exSharedForms : List (List Nat) :=
  [[4], [2, 3]] ++ ([[5], [2, 6], [2, 3, 1]].flatMap fun a => [[9], [7], [3, 10], [7, 1], [3, 10, 1], [1, 10, 8], [1, 10, 3, 3, 2]].map fun b => a ++ b) ++
    [[8], [3, 3, 2]].flatMap fun a => [[6], [3, 1]].map fun b => a ++ [3] ++ b

theorem exShared_derives {w : List Nat} (h : exShared.cfg.Derives [exShared.start] w) : w ∈ exSharedForms := by
  have key : ∀ v ∈ exSharedForms, ∀ i < v.length, ∀ r ∈ exShared.cfg.rules, v[i]? = some r.1 → v.take i ++ r.2 ++ v.drop (i + 1) ∈ exSharedForms := by
    decide +kernel
  induction h with
  | refl => decide
  | tail _ hs ih =>
    cases hs with
    | @mk u A α v hr =>
      have := key _ ih u.length (by simp) _ hr (by simp)
      simpa using this

theorem parseRound_pending {c : PConf} {p : PState} {top : Nat × Nat} (h : p.stack.head? = some top) (h1 : T.nx ≤ top.1) (h2 : T.minReduce ≤ top.1)
    (t fuel : Nat) (eh : Bool) : parseRound T c t fuel eh p = parseRound T c 0 0 eh p := by
  unfold parseRound Tables.findShift
  simp [h, h1, h2]

set_option synthInstance.maxSize 1024 in
set_option synthInstance.maxHeartbeats 200000 in
/-- C70 does not hold in general, and C36 not for nonterminals without an action.  `exShared` has no conflicts.
Given `B A`, the parser made for it finds a wrong token, and shifts the error symbol after `B`; but no string that can be derived from the
start symbol begins with `B error`.  It goes on with `C C B`, all shifted, and then fails for any token on an
assertion. -/
theorem C70_violated : Usable exShared ∧ (∀ z, ¬ exShared.cfg.Derives [exShared.start] (2 :: 10 :: z)) ∧ ∃ T, Generates exShared (fun _ => none) true T ∧
    ∀ c : PConf, c.depth = none → c.track = false → ∃ p p', parseTokens T c 40 [2, 1] .init = some (p, [.shift 2, .syntaxError 1, .shift 10, .discard 1]) ∧
      parseTokens T c 40 [2, 1, 3, 3, 2] .init = some (p', [.shift 2, .syntaxError 1, .shift 10, .discard 1, .shift 3, .shift 3, .shift 2]) ∧
      ∀ t fuel, parseToken T c fuel p' t = none := by
  refine ⟨exShared_usable, ?_, ?_⟩
  · intro z hz
    have h1 := exShared_derives hz
    have h2 : ∀ w ∈ exSharedForms, w.take 2 ≠ [2, 10] := by decide +kernel
    exact h2 _ h1 rfl
  · have hm : (makeTables true exShared (fun _ => none) 40).isSome = true := by decide +kernel
    obtain ⟨T, hT⟩ := Option.isSome_iff_exists.mp hm
    refine ⟨T, generates_of exShared_usable hT, ?_⟩
    rintro ⟨d, nr, tr, nd⟩ h1 h2
    simp only at h1 h2
    subst h1 h2
    have k : ∀ nr nd : Bool, (makeTables true exShared (fun _ => none) 40).bind (fun T =>
        (parseTokens T ⟨none, nr, false, nd⟩ 40 [2, 1] .init).map Prod.snd) =
        some [.shift 2, .syntaxError 1, .shift 10, .discard 1] := by
      decide +kernel
    have k' : ∀ nr nd : Bool, (makeTables true exShared (fun _ => none) 40).bind (fun T =>
        (parseTokens T ⟨none, nr, false, nd⟩ 40 [2, 1, 3, 3, 2] .init).bind fun x =>
          match parseRound T ⟨none, nr, false, nd⟩ 0 0 false x.1 with
          | some (.next eh p _) => some (x.2, x.1.stack.head?, T.nx, T.minReduce, p.stack.head?, (parseRound T ⟨none, nr, false, nd⟩ 0 0 eh p).isNone)
          | _ => none) =
        some ([.shift 2, .syntaxError 1, .shift 10, .discard 1, .shift 3, .shift 3, .shift 2], some (38, 2), 15, 34, some (42, 8), true) := by
      decide +kernel
    have k := k nr nd
    have k' := k' nr nd
    rw [hT, Option.bind_some] at k k'
    obtain ⟨⟨p, e⟩, k1, rfl⟩ := Option.map_eq_some_iff.mp k
    obtain ⟨⟨p', e'⟩, k2, k3⟩ := Option.bind_eq_some_iff.mp k'
    simp only at k3
    split at k3
    · rename_i eh q evs hq
      simp only [Option.some.injEq, Prod.mk.injEq] at k3
      obtain ⟨rfl, k4, k5, k6, k7, k8⟩ := k3
      refine ⟨p, p', k1, k2, ?_⟩
      intro t fuel
      unfold parseToken
      cases fuel with
      | zero => rfl
      | succ fuel =>
        rw [parseLoop, parseRound_pending k4 (by omega) (by omega), hq]
        cases fuel with
        | zero => rfl
        | succ fuel =>
          simp only
          rw [parseLoop, parseRound_pending k7 (by omega) (by omega), Option.isNone_iff_eq_none.mp k8]
          rfl
    · cases k3

end Verif.Lemon
