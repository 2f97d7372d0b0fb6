import Verif.Props.C10
import Verif.Proofs.Count
/-
C11 — reported conflict totals count exactly the unresolved competitors; C12 — `%expect`
(byacc/mkpar.c).
-/
set_option autoImplicit false
namespace Verif.Byacc
open Spec

/-- Sum of `f 0 .. f (n-1)`. -/
def sumTo (n : Nat) (f : Nat → Nat) : Nat := ((List.range n).map f).sum

theorem sumTo_congr {n : Nat} {f f' : Nat → Nat} (h : ∀ i, i < n → f i = f' i) : sumTo n f = sumTo n f' := by
  unfold sumTo
  congr 1
  apply List.map_congr_left
  intro i hi
  exact h i (List.mem_range.mp hi)

theorem sumTo_add (n : Nat) (f f' : Nat → Nat) : sumTo n f + sumTo n f' = sumTo n (fun i => f i + f' i) := by
  induction n with
  | zero => rfl
  | succ n ih =>
    simp only [sumTo, List.range_succ, List.map_append, List.sum_append, List.map_cons, List.map_nil,
      List.sum_cons, List.sum_nil, Nat.add_zero] at *
    omega

theorem foldl_add_eq {α : Type} (f : α → Nat) (l : List α) (n : Nat) :
    l.foldl (fun n c => n + f c) n = n + (l.map f).sum := by
  induction l generalizing n with
  | nil => simp
  | cons x l ih => rw [List.foldl_cons, ih, List.map_cons, List.sum_cons]; omega

/-- The unmarked actions of state `q` competing for token `X`. -/
def competing (o : Generated) (q X : Nat) : List Action := competitors (unmarked (o.parser.rows.getD q [])) X

/-- State `q` is the accepting one and `X` is end of input. -/
def accepting (o : Generated) (q X : Nat) : Bool := q == o.parser.final && X == 0

theorem competing_eq {g : Gram} {G : CFG} {sp : SymPrec} {lemon : Bool} {e1 e2 : Int} {o : Generated}
    (K : GenOK g G sp lemon e1 e2 o) {q : Nat} (hq : q < o.aut.nstates) (X : Nat) :
    competing o q X = competitors (o.acts g sp q) X := by
  unfold competing
  rw [List.getD_eq_getElem?_getD, K.rows q hq]
  simp only [Option.getD_some]
  rw [show unmarked _ = _ from (K.row q hq).same]

/-- C11: the conflict counts of every state and the reported totals are the numbers of competing
actions that are shift/reduce (reduce/reduce) conflicts; their sum is the number of actions
marked as discarded without precedence decision (mark 1); so both are 0 exactly when there is no
such action. -/
theorem C11_totals (lp : Bool) (ntokens nsyms : Nat) (rs : List SrcRule)
    (h : UserRules ntokens nsyms (rs.map SrcRule.rule)) (g : Gram)
    (hg : g = packGrammar lp ntokens nsyms (rs.map SrcRule.p) (encPitem rs))
    (sp : SymPrec) (lemon : Bool) (srExpect rrExpect : Int) :
    ∃ o, generate g sp lemon srExpect rrExpect = some o ∧
      o.parser.SRconflicts = (List.range o.aut.states.length).map (fun q =>
        sumTo ntokens (fun X => srCount (accepting o q X) (competing o q X))) ∧
      o.parser.RRconflicts = (List.range o.aut.states.length).map (fun q =>
        sumTo ntokens (fun X => rrCount (lemon && !accepting o q X) (accepting o q X) (competing o q X))) ∧
      o.parser.SRtotal = o.parser.SRconflicts.sum ∧ o.parser.RRtotal = o.parser.RRconflicts.sum ∧
      o.parser.SRtotal + o.parser.RRtotal = (o.parser.rows.map (fun row => row.countP (fun x => x.suppressed == 1))).sum ∧
      (o.parser.SRtotal = 0 ∧ o.parser.RRtotal = 0 ↔ ∀ row ∈ o.parser.rows, ∀ x ∈ row, x.suppressed ≠ 1) := by
  obtain ⟨o, ho, K⟩ := generate_ok lp ntokens nsyms rs h g hg sp lemon srExpect rrExpect
  have hnt : g.ntokens = ntokens := K.ctx.packs.ntok
  refine ⟨o, ho, ?_⟩
  have hcr : ∀ f : CR → Nat, (((List.range o.aut.nstates).map (fun i => crRow lemon (i == o.parser.final)
      (((List.range o.aut.nstates).map (parseActions g sp o.aut o.look)).getD i []))).map f) =
      (List.range o.aut.nstates).map (fun q => f (crRow lemon (q == o.parser.final) (o.acts g sp q))) := by
    intro f
    rw [List.map_map]
    apply List.map_congr_left
    intro q hq
    have hq' := List.mem_range.mp hq
    simp [List.getD_eq_getElem?_getD, List.getElem?_map, List.getElem?_range hq', Generated.acts]
  have h1 : o.parser.SRconflicts = (List.range o.aut.states.length).map (fun q =>
        sumTo ntokens (fun X => srCount (accepting o q X) (competing o q X))) := by
    have e : o.parser.SRconflicts = (List.range o.aut.nstates).map (fun q => CR.sr (crRow lemon (q == o.parser.final) (o.acts g sp q))) := by
      rw [← hcr CR.sr, K.parser]; rfl
    rw [e]
    apply List.map_congr_left
    intro q hq
    have hq' : q < o.aut.nstates := List.mem_range.mp hq
    rw [(K.row q hq').sr, hnt]
    exact sumTo_congr (fun X _ => by rw [competing_eq K hq' X]; rfl)
  have h2 : o.parser.RRconflicts = (List.range o.aut.states.length).map (fun q =>
        sumTo ntokens (fun X => rrCount (lemon && !accepting o q X) (accepting o q X) (competing o q X))) := by
    have e : o.parser.RRconflicts = (List.range o.aut.nstates).map (fun q => CR.rr (crRow lemon (q == o.parser.final) (o.acts g sp q))) := by
      rw [← hcr CR.rr, K.parser]; rfl
    rw [e]
    apply List.map_congr_left
    intro q hq
    have hq' : q < o.aut.nstates := List.mem_range.mp hq
    rw [(K.row q hq').rr, hnt]
    exact sumTo_congr (fun X _ => by rw [competing_eq K hq' X]; rfl)
  have h3 : o.parser.SRtotal = o.parser.SRconflicts.sum := by
    rw [K.parser]
    simp only [makeParser]
    rw [foldl_add_eq]
    simp
  have h4 : o.parser.RRtotal = o.parser.RRconflicts.sum := by
    rw [K.parser]
    simp only [makeParser]
    rw [foldl_add_eq]
    simp
  have hrows : o.parser.rows = (List.range o.aut.nstates).map (fun q => (crRow lemon (q == o.parser.final) (o.acts g sp q)).visited) := by
    apply List.ext_getElem?
    intro q
    by_cases hq : q < o.aut.nstates
    · rw [K.rows q hq, List.getElem?_map, List.getElem?_range hq]; rfl
    · rw [List.getElem?_eq_none (by rw [K.rows_len]; omega), List.getElem?_eq_none (by simp; omega)]
  have h5 : o.parser.SRtotal + o.parser.RRtotal = (o.parser.rows.map (fun row => row.countP (fun x => x.suppressed == 1))).sum := by
    rw [h3, h4, h1, h2]
    refine (sumTo_add _ _ _).trans ?_
    rw [hrows, List.map_map]
    refine sumTo_congr ?_
    intro q hq
    have hq' : q < o.aut.nstates := hq
    have R := K.row q hq'
    rw [sumTo_add]
    simp only [Function.comp_def]
    rw [countP_competitors _ ntokens]
    · refine sumTo_congr ?_
      intro X hX
      rw [(R.group X).marks, competing_eq K hq' X]; rfl
    · intro x hx
      have : x.supp 0 ∈ o.acts g sp q := by rw [← R.same]; exact List.mem_map.mpr ⟨x, hx, rfl⟩
      rcases (K.mem q hq' _).mp this with ⟨X, t, h1, -, e⟩ | ⟨r, t, -, -, h1, e⟩
      · have : x.symbol = X := congrArg Action.symbol e
        rw [this]; exact h1
      · have : x.symbol = t := congrArg Action.symbol e
        rw [this]; exact h1
  refine ⟨h1, h2, h3, h4, h5, ?_⟩
  rw [← Nat.add_eq_zero_iff, h5, List.sum_eq_zero_iff_forall_eq_nat]
  simp [List.countP_eq_zero]

/-- C11: if no token and no rule has a precedence, every state counts, for every token with
competing actions, one conflict less than there are actions. -/
theorem C11_no_precedence (lp : Bool) (ntokens nsyms : Nat) (rs : List SrcRule)
    (h : UserRules ntokens nsyms (rs.map SrcRule.rule)) (g : Gram)
    (hg : g = packGrammar lp ntokens nsyms (rs.map SrcRule.p) (encPitem rs))
    (sp : SymPrec) (lemon : Bool) (srExpect rrExpect : Int)
    (hsp : ∀ p ∈ sp.prec, p = 0) (hrp : ∀ p ∈ g.rprec, p = 0) :
    ∃ o, generate g sp lemon srExpect rrExpect = some o ∧
      o.parser.SRtotal + o.parser.RRtotal =
        sumTo o.aut.states.length (fun q => sumTo ntokens (fun X => (competing o q X).length - 1)) ∧
      (o.parser.SRtotal + o.parser.RRtotal = 0 ↔ ∀ row ∈ o.parser.rows, ∀ x ∈ row, x.suppressed = 0) := by
  have getD0 : ∀ (l : List Int) (i : Nat), (∀ p ∈ l, p = 0) → l.getD i 0 = 0 := by
    intro l i hl
    rw [List.getD_eq_getElem?_getD]
    cases hi : l[i]? with
    | none => rfl
    | some p => exact hl p (List.mem_of_getElem? hi)
  obtain ⟨o, ho, h1, h2, h3, h4, h5, h6⟩ := C11_totals lp ntokens nsyms rs h g hg sp lemon srExpect rrExpect
  obtain ⟨o', ho', K⟩ := generate_ok lp ntokens nsyms rs h g hg sp lemon srExpect rrExpect
  rw [ho] at ho'
  simp only [Option.some.injEq] at ho'
  subst ho'
  have hp0 : ∀ q, q < o.aut.nstates → ∀ x ∈ o.acts g sp q, x.prec = 0 := by
    intro q hq x hx
    rcases (K.mem q hq _).mp hx with ⟨X, t, -, -, rfl⟩ | ⟨r, t, -, -, -, rfl⟩
    · exact getD0 _ _ hsp
    · exact getD0 _ _ hrp
  refine ⟨o, ho, ?_, ?_⟩
  · rw [h3, h4, h1, h2]
    refine (sumTo_add _ _ _).trans ?_
    refine sumTo_congr ?_
    intro q hq
    have hq' : q < o.aut.nstates := hq
    rw [sumTo_add]
    refine sumTo_congr ?_
    intro X hX
    rw [competing_eq K hq' X]
    refine no_prec_count ((K.sorted q hq').filter _) (X := X) ?_ ?_
    · intro x hx; simpa using (List.mem_filter.mp hx).2
    · intro x hx
      exact Int.le_of_eq (hp0 q hq' x (List.mem_filter.mp hx).1)
  · rw [Nat.add_eq_zero_iff, h6]
    constructor
    · intro hm row hrow x hx
      obtain ⟨q, hq⟩ := List.mem_iff_getElem?.mp hrow
      have hq' : q < o.aut.nstates := by rw [← K.rows_len]; exact (List.getElem?_eq_some_iff.mp hq).1
      have hrow' := K.rows q hq'
      rw [hq] at hrow'
      simp only [Option.some.injEq] at hrow'
      have R := (K.row q hq').group x.symbol
      have hxV : x ∈ competitors row x.symbol := by simp [competitors, hx]
      rw [← hrow'] at R
      obtain ⟨i, hi⟩ := List.mem_iff_getElem?.mp hxV
      have hLi : (competitors (o.acts g sp q) x.symbol)[i]? = some (x.supp 0) := by
        rw [← R.same, List.getElem?_map, hi]; rfl
      have hcf := R.conf i x hi
      have hn := hm row hrow x hx
      rw [Ne, hcf] at hn
      obtain ⟨hil, hie⟩ := List.getElem?_eq_some_iff.mp hLi
      have hsplit : (competitors (o.acts g sp q) x.symbol).take i ++ [x.supp 0] =
          (competitors (o.acts g sp q) x.symbol).take (i+1) := by
        rw [List.take_add_one, hLi]; rfl
      have hsorted : (competitors (o.acts g sp q) x.symbol).Pairwise ActLt := (K.sorted q hq').filter _
      have hsymb : ∀ z ∈ competitors (o.acts g sp q) x.symbol, z.symbol = x.symbol := by
        intro z hz; simpa using (List.mem_filter.mp hz).2
      have hprec : ∀ z ∈ competitors (o.acts g sp q) x.symbol, z.prec ≤ 0 :=
        fun z hz => Int.le_of_eq (hp0 q hq' z (List.mem_filter.mp hz).1)
      have hempty : (competitors (o.acts g sp q) x.symbol).take i = [] := by
        by_contra hne
        refine hn (no_prec_conf hne ?_ (X := x.symbol) ?_ ?_)
        · rw [hsplit]; exact hsorted.sublist (List.take_sublist _ _)
        · rw [hsplit]; intro z hz; exact hsymb z (List.mem_of_mem_take hz)
        · rw [hsplit]; intro z hz; exact hprec z (List.mem_of_mem_take hz)
      have hi0 : i = 0 := by
        rcases Nat.eq_zero_or_pos i with h0 | h0
        · exact h0
        · have := congrArg List.length hempty
          rw [List.length_take] at this
          simp only [List.length_nil] at this
          omega
      subst hi0
      -- every later competitor would be marked 1
      have hone : competitors (o.acts g sp q) x.symbol = [x.supp 0] := by
        cases hL : competitors (o.acts g sp q) x.symbol with
        | nil => rw [hL] at hil; simp at hil
        | cons z l =>
          cases l with
          | nil =>
            rw [hL] at hLi
            simp only [List.getElem?_cons_zero, Option.some.injEq] at hLi
            rw [hLi]
          | cons w l =>
            exfalso
            have hlen : 1 < (competitors row x.symbol).length := by
              have := congrArg List.length R.same
              rw [hL] at this
              simp only [List.length_map, List.length_cons] at this
              omega
            have hc1 := R.conf 1 _ (List.getElem?_eq_getElem hlen)
            have hmem1 := (List.mem_filter.mp (List.getElem_mem hlen)).1
            have hw : ((competitors row x.symbol)[1]).supp 0 = w := by
              have : (competitors (o.acts g sp q) x.symbol)[1]? = some (((competitors row x.symbol)[1]).supp 0) := by
                rw [← R.same, List.getElem?_map, List.getElem?_eq_getElem hlen]; rfl
              rw [hL] at this
              simp only [List.getElem?_cons_succ, List.getElem?_cons_zero, Option.some.injEq] at this
              exact this.symm
            have hn1 := hm row hrow _ hmem1
            rw [Ne, hc1, hw] at hn1
            apply hn1
            have e : (competitors (o.acts g sp q) x.symbol).take 1 ++ [w] = (competitors (o.acts g sp q) x.symbol).take 2 := by
              rw [hL]; rfl
            refine no_prec_conf ?_ ?_ (X := x.symbol) ?_ ?_
            · rw [hL]; simp
            · rw [e]; exact hsorted.sublist (List.take_sublist _ _)
            · rw [e]; intro z hz; exact hsymb z (List.mem_of_mem_take hz)
            · rw [e]; intro z hz; exact hprec z (List.mem_of_mem_take hz)
      have hk := (R.kept x hxV)
      rw [hk, hone]
      have hx0 : (x.supp 0).prec = 0 := hp0 q hq' _ (List.mem_filter.mp (by rw [hone]; simp : x.supp 0 ∈ competitors (o.acts g sp q) x.symbol)).1
      cases hc : x.code with
      | SHIFT =>
        refine .inl ⟨hc, ?_⟩
        intro r hr hrc
        simp only [List.mem_singleton] at hr
        subst hr
        have : x.code = .REDUCE := hrc
        rw [hc] at this; cases this
      | REDUCE =>
        have hcand : ∀ z, Cands [x.supp 0] z ↔ z = x.supp 0 := by
          intro z
          constructor
          · rintro ⟨hz, -⟩; simpa using hz
          · rintro rfl
            refine ⟨by simp, hc, ?_⟩
            intro s hs hsc
            simp only [List.mem_singleton] at hs
            subst hs
            have : x.code = .SHIFT := hsc
            rw [hc] at this; cases this
        refine .inr ⟨hc, (hcand _).mpr rfl, fun _ => ⟨(hcand _).mpr rfl, ?_⟩, fun _ => ?_⟩
        · intro y hy; rw [(hcand y).mp hy]
        · intro y hy; rw [(hcand y).mp hy]; exact .inr ⟨rfl, Nat.le_refl _⟩
    · intro hm row hrow x hx
      rw [hm row hrow x hx]; decide

/-- Example: the ambiguous grammar `e: e '+' e | e '*' e | N` without precedences has 4
shift/reduce conflicts. -/
def c11Rules : List SrcRule :=
  [⟨c09B 6 0 .TOKEN, [c09B 6 0 .TOKEN, c09B 2 0 .TOKEN, c09B 6 0 .TOKEN], UNDEFINED, .TOKEN⟩,
   ⟨c09B 6 0 .TOKEN, [c09B 6 0 .TOKEN, c09B 3 0 .TOKEN, c09B 6 0 .TOKEN], UNDEFINED, .TOKEN⟩,
   ⟨c09B 6 0 .TOKEN, [c09B 4 0 .TOKEN], UNDEFINED, .TOKEN⟩]
def c11G : Gram := packGrammar false 5 7 (c11Rules.map SrcRule.p) (encPitem c11Rules)
def c11SP : SymPrec := ⟨List.replicate 7 0, List.replicate 7 .TOKEN⟩

example : (∀ p ∈ c11SP.prec, p = 0) ∧ (∀ p ∈ c11G.rprec, p = 0) ∧
    (genWith 20 c11G c11SP false (-1) (-1)).map (fun o => (o.parser.SRtotal, o.parser.RRtotal)) = some (4, 0) ∧
    (genWith 20 c09G c09SP false (-1) (-1)).map (fun o => (o.parser.SRtotal, o.parser.RRtotal)) = some (0, 0) := by
  decide +kernel

/-! ## C12 -/

/-- C12, the part that holds: if there is any conflict at all, the exit status reports failure
exactly when a declared number of conflicts (`%expect`, `%expect-rr`; negative: not declared)
differs from the actual one.
Missing: the case without conflicts, where the property is false (`C12_violated`). -/
theorem C12_expect_partial (lp : Bool) (ntokens nsyms : Nat) (rs : List SrcRule)
    (h : UserRules ntokens nsyms (rs.map SrcRule.rule)) (g : Gram)
    (hg : g = packGrammar lp ntokens nsyms (rs.map SrcRule.p) (encPitem rs))
    (sp : SymPrec) (lemon : Bool) (srExpect rrExpect : Int) :
    ∃ o, generate g sp lemon srExpect rrExpect = some o ∧
      (0 < o.parser.SRtotal + o.parser.RRtotal →
        (o.parser.failed = true ↔
          (0 ≤ srExpect ∧ (o.parser.SRtotal : Int) ≠ srExpect) ∨ (0 ≤ rrExpect ∧ (o.parser.RRtotal : Int) ≠ rrExpect))) ∧
      (o.parser.failed = true →
          (0 ≤ srExpect ∧ (o.parser.SRtotal : Int) ≠ srExpect) ∨ (0 ≤ rrExpect ∧ (o.parser.RRtotal : Int) ≠ rrExpect)) := by
  obtain ⟨o, ho, K⟩ := generate_ok lp ntokens nsyms rs h g hg sp lemon srExpect rrExpect
  have hf : o.parser.failed = if o.parser.SRtotal + o.parser.RRtotal > 0 then
      expectFails srExpect rrExpect o.parser.SRtotal o.parser.RRtotal else false := by
    rw [K.parser]; rfl
  have he : expectFails srExpect rrExpect o.parser.SRtotal o.parser.RRtotal = true ↔
      (0 ≤ srExpect ∧ (o.parser.SRtotal : Int) ≠ srExpect) ∨ (0 ≤ rrExpect ∧ (o.parser.RRtotal : Int) ≠ rrExpect) := by
    simp [expectFails]
  refine ⟨o, ho, ?_, ?_⟩
  · intro h0
    rw [hf, if_pos h0, he]
  · rw [hf]
    split
    · exact he.mp
    · intro h; cases h

/-- `generate` from a bounded run of the state construction. -/
theorem generate_of_genWith {n : Nat} {g : Gram} {sp : SymPrec} {lemon : Bool} {e1 e2 : Int} {o : Generated}
    (h : genWith n g sp lemon e1 e2 = some o) (hn : n ≤ 2 ^ g.nitems + 2) : generate g sp lemon e1 e2 = some o := by
  unfold genWith at h
  unfold generate
  cases ha : genLoop g (setFirstDerives g) n (initialLR0 g) with
  | none => rw [ha] at h; simp at h
  | some a =>
    have : generateStates g = some a := genLoop_mono hn ha
    rw [this]
    rw [ha] at h
    exact h

theorem some_of_map {α β : Type} {x : Option α} {f : α → β} {b : β} (h : x.map f = some b) :
    ∃ a, x = some a ∧ f a = b := by
  cases x with
  | none => simp at h
  | some a => exact ⟨a, rfl, by simpa using h⟩

/-- C12 is violated: the conflict-free grammar `e: e '<' e | N` with `%nonassoc '<'` and
`%expect 3` is accepted silently. -/
theorem C12_violated : UserRules 4 6 (c10Rules.map SrcRule.rule) ∧
    ∃ o, generate c10G c10SP false 3 (-1) = some o ∧
      o.parser.SRtotal = 0 ∧ o.parser.RRtotal = 0 ∧ o.parser.failed = false := by
  refine ⟨c10_user, ?_⟩
  have h : (genWith 20 c10G c10SP false 3 (-1)).map (fun o => (o.parser.SRtotal, o.parser.RRtotal, o.parser.failed)) =
      some (0, 0, false) := by decide +kernel
  obtain ⟨o, h1, h2⟩ := some_of_map h
  simp only [Prod.mk.injEq] at h2
  exact ⟨o, generate_of_genWith h1 (by decide), h2.1, h2.2.1, h2.2.2⟩

example : (genWith 20 c11G c11SP false 3 (-1)).map (fun o => o.parser.failed) = some true ∧
    (genWith 20 c11G c11SP false 4 (-1)).map (fun o => o.parser.failed) = some false := by decide +kernel

end Verif.Byacc
