import Verif.Proofs.ByaccMeaningRules
/-
Auxiliary facts: what the reader makes of a file.
-/
set_option autoImplicit false
namespace Verif.Byacc.Rd
open Spec.YText

/-- the rest of the right-hand side -/
def headRhs : List RTok → List El
  | [] => []
  | .sym x :: ts => .sym x :: headRhs ts
  | .action b ps :: ts => .action b ps :: headRhs ts
  | .prec x :: ts => .prec x :: headRhs ts
  | .bar :: _ => []
  | .lhs _ :: _ => []

/-- the other right-hand sides -/
def tailAlts (l : Sym) : List RTok → List Alt
  | [] => []
  | .sym _ :: ts => tailAlts l ts
  | .action _ _ :: ts => tailAlts l ts
  | .prec _ :: ts => tailAlts l ts
  | .bar :: ts => ⟨l, headRhs ts⟩ :: tailAlts l ts
  | .lhs y :: ts => ⟨y, headRhs ts⟩ :: tailAlts y ts

theorem altsFrom_eq (l : Sym) (a : List El) (toks : List RTok) : altsFrom l a toks = ⟨l, a ++ headRhs toks⟩ :: tailAlts l toks := by
  induction toks generalizing l a with
  | nil => simp [altsFrom, headRhs, tailAlts]
  | cons x ts ih => cases x <;> simp [altsFrom, headRhs, tailAlts, ih]

/-- the reader's arrays for the rules -/
def rdRun (pos : Sym → Nat) (s : RdSt) : List RTok → RdSt
  | [] => s
  | .sym x :: ts => rdRun pos (addSymbol s (pos x)) ts
  | .lhs x :: ts => rdRun pos (startRule (endRule s) (.user (pos x))) ts
  | .bar :: ts => rdRun pos (startRule (endRule s) (s.plhs.headD (.user 0))) ts
  | .action _ _ :: ts => rdRun pos (copyAction s) ts
  | .prec x :: ts => rdRun pos (markPrecAt s (pos x)) ts

/-- the symbols named in rules can be written -/
def Named (toks : List RTok) : Prop := ∀ x, .sym x ∈ toks ∨ .lhs x ∈ toks ∨ .prec x ∈ toks → ∃ t u, SymAt x t u

theorem Named.tail {x : RTok} {toks : List RTok} (h : Named (x :: toks)) : Named toks := by
  intro y hy
  refine h y ?_
  rcases hy with hy | hy | hy
  · exact .inl (by simp [hy])
  · exact .inr (.inl (by simp [hy]))
  · exact .inr (.inr (by simp [hy]))

def Use.inRule : Use → Prop
  | .token .. | .typed .. => False
  | _ => True

theorem ruleUses_inRule (l : Sym) (pend : Bool) (k : Nat) (toks : List RTok) : ∀ u ∈ ruleUses l pend k toks, Use.inRule u := by
  induction toks generalizing l pend k with
  | nil => intro u hu; cases hu
  | cons x ts ih =>
    intro u hu
    cases x with
    | sym x =>
      rw [ruleUses] at hu
      split at hu
      · simp only [List.mem_cons] at hu
        rcases hu with rfl | rfl | hu
        · trivial
        · trivial
        · exact ih _ _ _ u hu
      · simp only [List.mem_cons] at hu
        rcases hu with rfl | hu
        · trivial
        · exact ih _ _ _ u hu
    | lhs y =>
      simp only [ruleUses, List.mem_cons] at hu
      rcases hu with rfl | hu
      · trivial
      · exact ih _ _ _ u hu
    | bar => exact ih _ _ _ u hu
    | action b ps =>
      rw [ruleUses] at hu
      split at hu
      · simp only [List.mem_cons] at hu
        rcases hu with rfl | hu
        · trivial
        · exact ih _ _ _ u hu
      · exact ih _ _ _ u hu
    | prec y =>
      simp only [ruleUses, List.mem_cons] at hu
      rcases hu with rfl | hu
      · trivial
      · exact ih _ _ _ u hu

theorem declaredTag_append (us vs : List Use) (h : ∀ u ∈ vs, Use.inRule u) (m : List Nat) : declaredTag (us ++ vs) m = declaredTag us m := by
  induction vs generalizing us with
  | nil => rw [List.append_nil]
  | cons v vs ih =>
    have e : us ++ v :: vs = us ++ [v] ++ vs := by simp
    rw [e, ih _ fun u hu => h u (by simp [hu])]
    unfold declaredTag
    rw [getLast_filterMap_snoc]
    have := h v (by simp)
    cases v with
    | token => exact this.elim
    | typed => exact this.elim
    | plain | lhs | hidden => simp

theorem isToken_mono (us vs : List Use) (n : List Nat) (h : IsToken us n) : IsToken (us ++ vs) n := by
  rcases h with h | ⟨u, h1, h2⟩
  · exact .inl h
  · exact .inr ⟨u, by simp [h1], h2⟩

theorem isToken_append (us vs : List Use) (h : ∀ u ∈ vs, Use.inRule u) (n : List Nat) (hn : ∀ z, n ≠ litName z) (ht : IsToken (us ++ vs) n) :
    IsToken us n := by
  rcases ht with ht | ⟨u, h1, h2, h3⟩
  · exact .inl ht
  · rcases List.mem_append.1 h1 with h1 | h1
    · exact .inr ⟨u, h1, h2, h3⟩
    · exfalso
      rcases h3 with ⟨x, a, level, tag, code, rfl⟩ | ⟨z, hz⟩
      · exact h _ h1
      · exact hn z (lit_key _ _ _ hz).1

def tagsD (D : List Nat → Option (List Nat)) (l : Sym) (a : List El) : List (Option (List Nat)) :=
  a.filterMap fun e => match e with
    | .sym x => some (D x.key)
    | .action _ _ => some (D l.key)
    | .prec _ => none

structure RInv (D : List Nat → Option (List Nat)) (us : List Use) (l : Sym) (a : List El) (n k : Nat) (pend : Bool) (s : FSt) : Prop where
  core : ∃ N T, RCore D us l k N T s ∧ N + pend.toNat = n + actionsIn a + 1 ∧ T ++ (if pend then [D l.key] else []) = tagsD D l a
  last : s.rd.lastAct = pend
  inner : innerActions a + pend.toNat = actionsIn a
  lName : ∀ z, l.key ≠ litName z
  aOk : ∀ x, El.sym x ∈ a → ∀ j, x.key ≠ hiddenKey j

theorem elTags_eq (D : List Nat → Option (List Nat)) (V : List Use) (hD : ∀ m, declaredTag V m = D m) (l : Sym) (a : List El)
    (h : ∀ x, El.sym x ∈ a → ∀ j, x.key ≠ hiddenKey j) : elTags V l a = tagsD D l a := by
  unfold elTags tagsD
  refine List.filterMap_congr ?_
  intro e he
  cases e with
  | sym x => simp only; rw [tagOf_plain V _ (h x he), hD]
  | action b ps => simp only; rw [hD]
  | prec x => rfl

theorem actionsIn_snoc (a : List El) (e : El) : actionsIn (a ++ [e]) = actionsIn a + (match e with | .action _ _ => 1 | _ => 0) := by
  unfold actionsIn
  rw [List.filter_append, List.length_append]
  cases e <;> simp

theorem innerActions_sym (a : List El) (x : Sym) : innerActions (a ++ [.sym x]) = actionsIn a := by
  unfold innerActions elFilter
  rw [List.filter_append, List.reverse_append]
  simp [actionsIn_snoc]

theorem innerActions_action (a : List El) (b : Bool) (ps : List Part) : innerActions (a ++ [.action b ps]) = actionsIn a := by
  unfold innerActions elFilter
  rw [List.filter_append, List.reverse_append]
  simp [actionsIn_snoc]

theorem innerActions_prec (a : List El) (x : Sym) : innerActions (a ++ [.prec x]) = innerActions a := by
  unfold innerActions elFilter
  rw [List.filter_append, List.reverse_append]
  simp [actionsIn_snoc]

/-- the state after rules -/
noncomputable def finalS (V : List Use) (s : FSt) (toks : List RTok) (tags : Bool) (acts : List (Nat × List Nat)) : FSt :=
  { d := { s.d with syms := table V, haveTags := tags }
    rd := rdRun (fun x => (names V).idxOf x.key) s.rd toks
    gens := gensOf V (rdRun (fun x => (names V).idxOf x.key) s.rd toks).gensym
    acts := s.acts ++ acts }

theorem runToks_cons (s s2 : FSt) (x : RTok) (xs : List RTok) : RunToks s (x :: xs) s2 ↔ ∃ s1, RunTok s x s1 ∧ RunToks s1 xs s2 := by
  constructor
  · intro h
    cases h with
    | cons _ s1 _ _ _ h1 h2 => exact ⟨s1, h1, h2⟩
  · rintro ⟨s1, h1, h2⟩
    exact .cons s s1 s2 x xs h1 h2

theorem runToks_meaning (D : List Nat → Option (List Nat)) (V : List Use) (hD : ∀ m, declaredTag V m = D m) (toks : List RTok) :
    ∀ (us : List Use) (l : Sym) (a : List El) (n k : Nat) (pend : Bool) (s s1 : FSt), RInv D us l a n k pend s → Named toks →
      V = us ++ ruleUses l pend k toks →
      (RunToks s toks s1 ↔ (∀ x, .lhs x ∈ toks → ¬ IsToken V x.key) ∧ ∃ acts1 acts2 t1 t2,
        ActsIn V l n s.d.haveTags a (headRhs toks) acts1 t1 ∧ ActsOf V (n + innerActions (a ++ headRhs toks) + 1) t1 (tailAlts l toks) acts2 t2 ∧
        s1 = finalS V s toks t2 (acts1 ++ acts2)) := by
  induction toks with
  | nil =>
    intro us l a n k pend s s1 hI _ hV
    obtain ⟨N, T, hc, -, -⟩ := hI.core
    have hV' : V = us := by rw [hV, ruleUses, List.append_nil]
    have hf : finalS V s [] s.d.haveTags ([] ++ []) = s := by
      unfold finalS
      simp only [rdRun, List.append_nil]
      rw [hc.gs, hV', ← hc.syms, ← hc.gens]
    constructor
    · intro h
      cases h
      refine ⟨fun x hx => (by cases hx), [], [], s.d.haveTags, s.d.haveTags, .done _ _, .nil _ _, hf.symm⟩
    · rintro ⟨-, acts1, acts2, t1, t2, h1, h2, rfl⟩
      cases h1
      cases h2
      rw [hf]
      exact .nil s
  | cons x ts ih =>
    intro us l a n k pend s s2 hI hN hV
    obtain ⟨N, T, hc, hcnt, htags⟩ := hI.core
    rw [runToks_cons]
    cases x with
    | sym x =>
      have hx := hN x (.inl (by simp))
      obtain ⟨tx, ux, hx'⟩ := hx
      have hc1 := hc.plain x ⟨tx, ux, hx'⟩ hI.lName
      have hxm : x.key ∈ names (us ++ [.plain x]) := key_mem us (.plain x)
      have hxk := symAt_notHidden hx'
      have hu : useSym s.d.syms x = ((names (us ++ [.plain x])).idxOf x.key, table (us ++ [.plain x])) := by rw [hc.syms]; exact useSym_table us x
      have key : ∃ us' k' s1, (∀ s', RunTok s (.sym x) s' ↔ s' = s1) ∧ RInv D us' l (a ++ [.sym x]) n k' false s1 ∧ V = us' ++ ruleUses l false k' ts ∧
          s1.d.haveTags = s.d.haveTags ∧ ∀ t acts, finalS V s1 ts t acts = finalS V s (.sym x :: ts) t acts := by
        cases hp : pend with
        | true =>
          subst hp
          have hc2 := hc1.insert
          have hidx : (names (us ++ [.plain x])).idxOf x.key = (names (us ++ [.plain x] ++ [.hidden (k + 1) l])).idxOf x.key := (idxOf_stable _ _ _ hxm).symm
          have hxm2 : x.key ∈ names (us ++ [.plain x] ++ [.hidden (k + 1) l]) := (names_prefix _ _).subset hxm
          have hc3 := hc2.push x hxm2 hxk false
          have hVs : V = us ++ [.plain x] ++ [.hidden (k + 1) l] ++ ruleUses l false (k + 1) ts := by rw [hV, ruleUses]; simp
          refine ⟨us ++ [.plain x] ++ [.hidden (k + 1) l], k + 1, _, ?_, ⟨⟨N + 1, T ++ [D l.key] ++ [D x.key], hc3, ?_, ?_⟩, ?_, ?_, hI.lName, ?_⟩, hVs, ?_, ?_⟩
          · intro s'
            constructor
            · intro h
              cases h with
              | sym _ i syms s1 h1 h2 =>
                rw [hu] at h1
                cases h1
                rw [if_pos hI.last] at h2
                subst h2
                unfold addSymbol
                simp only [Bool.false_eq_true, if_false]
                rw [hidx]
            · rintro rfl
              have := RunTok.sym s x _ _ _ hu rfl
              rw [if_pos hI.last] at this
              unfold addSymbol at this
              simp only [Bool.false_eq_true, if_false] at this
              rw [hidx] at this
              exact this
          · simp only [Bool.toNat_true, Bool.toNat_false] at hcnt ⊢
            rw [actionsIn_snoc]; simp only; omega
          · simp only [if_true] at htags
            simp only [Bool.false_eq_true, if_false, List.append_nil]
            rw [htags]; unfold tagsD; rw [List.filterMap_append]; rfl
          · rfl
          · rw [innerActions_sym, actionsIn_snoc]; rfl
          · intro y hy
            simp only [List.mem_append, List.mem_singleton] at hy
            rcases hy with hy | hy
            · exact hI.aOk y hy
            · cases hy; exact hxk
          · rfl
          · intro t acts
            unfold finalS
            have e : addSymbol s.rd ((names V).idxOf x.key) =
                { (insertEmptyRule s.rd) with lastAct := false, pitem := some (.user ((names (us ++ [.plain x] ++ [.hidden (k + 1) l])).idxOf x.key)) :: (insertEmptyRule s.rd).pitem } := by
              unfold addSymbol
              rw [if_pos hI.last, hVs, idxOf_stable _ _ _ hxm2]
            simp only [rdRun]
            rw [e]
            rfl
        | false =>
          subst hp
          have hc3 := hc1.push x hxm hxk false
          have hVs : V = us ++ [.plain x] ++ ruleUses l false k ts := by rw [hV, ruleUses]; simp
          refine ⟨us ++ [.plain x], k, _, ?_, ⟨⟨N, T ++ [D x.key], hc3, ?_, ?_⟩, ?_, ?_, hI.lName, ?_⟩, hVs, ?_, ?_⟩
          · intro s'
            constructor
            · intro h
              cases h with
              | sym _ i syms s1 h1 h2 =>
                rw [hu] at h1
                cases h1
                rw [if_neg (by rw [hI.last]; simp)] at h2
                subst h2
                unfold addSymbol
                simp only [Bool.false_eq_true, if_false]
            · rintro rfl
              have := RunTok.sym s x _ _ _ hu rfl
              rw [if_neg (by rw [hI.last]; simp)] at this
              unfold addSymbol at this
              simp only [Bool.false_eq_true, if_false] at this
              exact this
          · simp only [Bool.toNat_false] at hcnt ⊢
            rw [actionsIn_snoc]; simp only; omega
          · simp only [Bool.false_eq_true, if_false, List.append_nil] at htags ⊢
            rw [htags]; unfold tagsD; rw [List.filterMap_append]; rfl
          · rfl
          · rw [innerActions_sym, actionsIn_snoc]; rfl
          · intro y hy
            simp only [List.mem_append, List.mem_singleton] at hy
            rcases hy with hy | hy
            · exact hI.aOk y hy
            · cases hy; exact hxk
          · rfl
          · intro t acts
            unfold finalS
            have e : addSymbol s.rd ((names V).idxOf x.key) =
                { s.rd with lastAct := false, pitem := some (.user ((names (us ++ [.plain x])).idxOf x.key)) :: s.rd.pitem } := by
              unfold addSymbol
              rw [if_neg (by rw [hI.last]; simp), hVs, idxOf_stable _ _ _ hxm]
            simp only [rdRun]
            rw [e]
      obtain ⟨us', k', s1, h1, h2, h3, h4, h5⟩ := key
      have h6 := ih us' l (a ++ [.sym x]) n k' false s1 s2 h2 hN.tail h3
      rw [h4] at h6
      have : (∃ s1', RunTok s (.sym x) s1' ∧ RunToks s1' ts s2) ↔ RunToks s1 ts s2 := by
        constructor
        · rintro ⟨s', h7, h8⟩; rw [h1] at h7; subst h7; exact h8
        · intro h; exact ⟨s1, (h1 s1).2 rfl, h⟩
      rw [this, h6]
      simp only [List.mem_cons, reduceCtorEq, false_or, headRhs, tailAlts]
      refine and_congr Iff.rfl ?_
      constructor
      · rintro ⟨acts1, acts2, t1, t2, h7, h8, h9⟩
        refine ⟨acts1, acts2, t1, t2, .sym _ _ _ _ _ _ h7, ?_, ?_⟩
        · rw [List.append_assoc] at h8; exact h8
        · rw [h9, h5]
      · rintro ⟨acts1, acts2, t1, t2, h7, h8, h9⟩
        cases h7 with
        | sym _ _ _ _ _ _ h7 =>
          refine ⟨acts1, acts2, t1, t2, h7, ?_, ?_⟩
          · rw [List.append_assoc]; exact h8
          · rw [h9, h5]
    | lhs x =>
      obtain ⟨tx, ux, hx'⟩ := hN x (.inr (.inl (by simp)))
      have hu : useSym s.d.syms x = ((names (us ++ [.plain x])).idxOf x.key, table (us ++ [.plain x])) := by rw [hc.syms]; exact useSym_table us x
      have hVs : V = us ++ [.lhs x] ++ ruleUses x false k ts := by rw [hV, ruleUses]; simp
      have hxm : x.key ∈ names (us ++ [.plain x]) := key_mem us (.plain x)
      have hxm' : x.key ∈ names (us ++ [.lhs x]) := key_mem us (.lhs x)
      have hlit : (Use.lhs x).lit? x.key = (Use.plain x).lit? x.key := by cases x <;> rfl
      have hT0 : IsToken (us ++ [.lhs x]) x.key ↔ IsToken (us ++ [.plain x]) x.key := by
        rw [isToken_snoc, isToken_snoc]
        unfold Use.tok
        rw [hlit]
        simp [Use.key]
      have hT : IsToken V x.key ↔ IsToken (us ++ [.plain x]) x.key := by
        rw [← hT0, hVs]
        constructor
        · intro h
          cases x with
          | name m => exact isToken_append _ _ (ruleUses_inRule _ _ _ _) _ (name_notLit hx') h
          | lit z => exact .inr ⟨.lhs (.lit z), by simp, rfl, .inr ⟨z, by simp [Use.lit?]⟩⟩
        · exact isToken_mono _ _ _
      have hcls : ((table (us ++ [.plain x]))[(names (us ++ [.plain x])).idxOf x.key]?).map BSym.cls == some .TERM ↔ IsToken V x.key := by
        rw [table_get _ _ hxm, Option.map_some, beq_iff_eq, Option.some.injEq, cls_term, hT]
      by_cases ht : IsToken V x.key
      · refine iff_of_false ?_ ?_
        · rintro ⟨s1, h1, -⟩
          cases h1 with
          | lhs _ i syms _ h1 h2 =>
            rw [hu] at h1
            cases h1
            unfold runStartRule at h2
            split at h2
            · cases h2
            · rename_i h3; exact h3 (hcls.2 ht)
        · rintro ⟨h, -⟩
          exact h x (by simp) ht
      · have hnt : ¬ IsToken (us ++ [.plain x]) x.key := fun h => ht (hT.2 h)
        have hc1 := hc.start x ⟨tx, ux, hx'⟩ hnt
        have h1 : ∀ s', RunTok s (.lhs x) s' ↔ s' = { s with
            d := { s.d with syms := table (us ++ [.lhs x]) }
            rd := startRule (endRule s.rd) (.user ((names (us ++ [.plain x])).idxOf x.key)) } := by
          have e : runStartRule { s with d := { s.d with syms := table (us ++ [.plain x]) }, rd := endRule s.rd } (.user ((names (us ++ [.plain x])).idxOf x.key)) =
              some { s with
                d := { s.d with syms := table (us ++ [.lhs x]) }
                rd := startRule (endRule s.rd) (.user ((names (us ++ [.plain x])).idxOf x.key)) } := by
            unfold runStartRule
            split
            · rename_i h3; exact absurd (hcls.1 h3) ht
            simp only [posOf]
            rw [lhs_table us x hnt]
          intro s'
          constructor
          · intro h
            cases h with
            | lhs _ i syms _ h1 h2 =>
              rw [hu] at h1
              cases h1
              rw [e] at h2
              exact (Option.some.inj h2).symm
          · rintro rfl
            exact .lhs s x _ _ _ hu e
        have hI' : RInv D (us ++ [.lhs x]) x [] (n + innerActions a + 1) k false { s with
            d := { s.d with syms := table (us ++ [.lhs x]) }
            rd := startRule (endRule s.rd) (.user ((names (us ++ [.plain x])).idxOf x.key)) } := by
          refine ⟨⟨N + 1, [], hc1, ?_, rfl⟩, rfl, rfl, ?_, fun y hy => by cases hy⟩
          · have := hI.inner
            have e : actionsIn [] = 0 := rfl
            rw [e]
            simp only [Bool.toNat_false]
            omega
          · intro z hz
            cases x with
            | name m => exact name_notLit hx' z hz
            | lit w => exact hnt (.inr ⟨.plain (.lit w), by simp, rfl, .inr ⟨w, by simp [Use.lit?]⟩⟩)
        have h6 := ih _ x [] _ k false _ s2 hI' hN.tail hVs
        have hfin : ∀ t acts, finalS V { s with
            d := { s.d with syms := table (us ++ [.lhs x]) }
            rd := startRule (endRule s.rd) (.user ((names (us ++ [.plain x])).idxOf x.key)) } ts t acts = finalS V s (.lhs x :: ts) t acts := by
          intro t acts
          unfold finalS
          simp only [rdRun]
          rw [show (names V).idxOf x.key = (names (us ++ [.plain x])).idxOf x.key by
            rw [hVs, idxOf_stable _ _ _ hxm', names_same us (.lhs x) (.plain x) rfl]]
        have : (∃ s1', RunTok s (.lhs x) s1' ∧ RunToks s1' ts s2) ↔ RunToks { s with
            d := { s.d with syms := table (us ++ [.lhs x]) }
            rd := startRule (endRule s.rd) (.user ((names (us ++ [.plain x])).idxOf x.key)) } ts s2 := by
          constructor
          · rintro ⟨s', h7, h8⟩; rw [h1] at h7; subst h7; exact h8
          · intro h; exact ⟨_, (h1 _).2 rfl, h⟩
        rw [this, h6]
        constructor
        · rintro ⟨h7, acts1, acts2, t1, t2, h8, h9, h10⟩
          refine ⟨?_, [], acts1 ++ acts2, s.d.haveTags, t2, .done _ _, ?_, ?_⟩
          · intro y hy
            simp only [List.mem_cons, RTok.lhs.injEq] at hy
            rcases hy with rfl | hy
            · exact ht
            · exact h7 y hy
          · simp only [headRhs, List.append_nil, tailAlts]
            exact .cons _ _ _ _ ⟨x, headRhs ts⟩ _ _ _ h8 h9
          · rw [h10, hfin]; rfl
        · rintro ⟨h7, acts1, acts2, t1, t2, h8, h9, h10⟩
          simp only [headRhs] at h8
          cases h8
          simp only [headRhs, List.append_nil, tailAlts] at h9
          cases h9 with
          | cons _ _ t' _ _ _ acts more h11 h12 =>
            refine ⟨fun y hy => h7 y (by simp [hy]), acts, more, t', t2, h11, h12, ?_⟩
            rw [h10, hfin]; rfl
    | bar =>
      have hVs : V = us ++ ruleUses l false k ts := by rw [hV, ruleUses]
      have hlm := isLhs_mem hc.isLhs
      have hhd : s.rd.plhs.headD (.user 0) = .user ((names us).idxOf l.key) := by
        have := hc.lhs
        cases hp : s.rd.plhs with
        | nil => rw [hp] at this; cases this
        | cons p ps => rw [hp] at this; cases this; rfl
      have hc1 := hc.again
      have e : runStartRule { s with rd := endRule s.rd } (s.rd.plhs.headD (.user 0)) =
          some { s with rd := startRule (endRule s.rd) (.user ((names us).idxOf l.key)) } := by
        have hcls : ¬ ((s.d.syms[(names us).idxOf l.key]?).map BSym.cls == some .TERM) = true := by
          rw [hc.syms, table_get us _ hlm, Option.map_some, beq_iff_eq, Option.some.injEq, cls_term]
          exact hc.notTok
        unfold runStartRule
        rw [hhd]
        split
        · rename_i h3; exact absurd h3 hcls
        simp only [posOf]
        rw [hc.syms, bar_table us _ hc.isLhs hc.notTok hlm, ← hc.syms]
      have h1 : ∀ s', RunTok s .bar s' ↔ s' = { s with rd := startRule (endRule s.rd) (.user ((names us).idxOf l.key)) } := by
        intro s'
        constructor
        · intro h
          cases h with
          | bar _ h2 => rw [e] at h2; exact (Option.some.inj h2).symm
        · rintro rfl; exact .bar s _ e
      have hI' : RInv D us l [] (n + innerActions a + 1) k false { s with rd := startRule (endRule s.rd) (.user ((names us).idxOf l.key)) } := by
        refine ⟨⟨N + 1, [], hc1, ?_, rfl⟩, rfl, rfl, hI.lName, fun y hy => by cases hy⟩
        have := hI.inner
        have e : actionsIn [] = 0 := rfl
        rw [e]
        simp only [Bool.toNat_false]
        omega
      have h6 := ih _ l [] _ k false _ s2 hI' hN.tail hVs
      have hfin : ∀ t acts, finalS V { s with rd := startRule (endRule s.rd) (.user ((names us).idxOf l.key)) } ts t acts = finalS V s (.bar :: ts) t acts := by
        intro t acts
        unfold finalS
        simp only [rdRun]
        rw [hhd]
      have : (∃ s1', RunTok s .bar s1' ∧ RunToks s1' ts s2) ↔ RunToks { s with rd := startRule (endRule s.rd) (.user ((names us).idxOf l.key)) } ts s2 := by
        constructor
        · rintro ⟨s', h7, h8⟩; rw [h1] at h7; subst h7; exact h8
        · intro h; exact ⟨_, (h1 _).2 rfl, h⟩
      rw [this, h6]
      simp only [List.mem_cons, reduceCtorEq, false_or]
      refine and_congr Iff.rfl ?_
      constructor
      · rintro ⟨acts1, acts2, t1, t2, h8, h9, h10⟩
        refine ⟨[], acts1 ++ acts2, s.d.haveTags, t2, .done _ _, ?_, ?_⟩
        · simp only [headRhs, List.append_nil, tailAlts]
          exact .cons _ _ _ _ ⟨l, headRhs ts⟩ _ _ _ h8 h9
        · rw [h10, hfin]; rfl
      · rintro ⟨acts1, acts2, t1, t2, h8, h9, h10⟩
        simp only [headRhs] at h8
        cases h8
        simp only [headRhs, List.append_nil, tailAlts] at h9
        cases h9 with
        | cons _ _ t' _ _ _ acts more h11 h12 =>
          refine ⟨acts, more, t', t2, h11, h12, ?_⟩
          rw [h10, hfin]; rfl
    | action b ps =>
      have key : ∃ us' k', RCore D us' l k' (n + actionsIn a + 1) (tagsD D l a) (if s.rd.lastAct then insertEmptyF s else s) ∧
          V = us' ++ ruleUses l true k' ts := by
        cases hp : pend with
        | true =>
          subst hp
          rw [if_pos hI.last]
          refine ⟨us ++ [.hidden (k + 1) l], k + 1, ?_, ?_⟩
          · have := hc.insert
            simp only [if_true] at htags
            rw [htags] at this
            have e : N + 1 = n + actionsIn a + 1 := by simpa using hcnt
            rw [e] at this
            exact this
          · rw [hV, ruleUses]; simp
        | false =>
          subst hp
          rw [if_neg (by rw [hI.last]; simp)]
          refine ⟨us, k, ?_, ?_⟩
          · simp only [Bool.false_eq_true, if_false, List.append_nil] at htags
            have e : N = n + actionsIn a + 1 := by simpa using hcnt
            rw [← e, ← htags]
            exact hc
          · rw [hV, ruleUses]; simp
      have hd : (if s.rd.lastAct then insertEmptyF s else s).d.haveTags = s.d.haveTags := by split <;> rfl
      have hd' : ∀ A B, ({ (if s.rd.lastAct then insertEmptyF s else s).d with syms := A, haveTags := B } : DSt) = { s.d with syms := A, haveTags := B } := by
        intro A B; split <;> rfl
      have ha' : (if s.rd.lastAct then insertEmptyF s else s).acts = s.acts := by split <;> rfl
      have hr : copyAction s.rd = { (if s.rd.lastAct then insertEmptyF s else s).rd with lastAct := true } := by
        unfold copyAction; split <;> rfl
      obtain ⟨us', k', hc1, hVs⟩ := key
      generalize hs' : (if s.rd.lastAct then insertEmptyF s else s) = s' at hc1 hd hd' ha' hr
      have h1 : ∀ sz, RunTok s (.action b ps) sz ↔ ∃ o h, PartsOut ⟨declaredTag V l.key, elTags V l a⟩ s.d.haveTags ps o h ∧
          sz = { s' with d := { s'.d with haveTags := h }, rd := { s'.rd with lastAct := true },
                         acts := s'.acts ++ [(n + actionsIn a + 1, (if b then [9] else []) ++ o)] } := by
        intro sz
        have hctx : (ctxOf s').types = ⟨declaredTag V l.key, elTags V l a⟩ := by
          rw [hc1.ctx, elTags_eq D V hD l a hI.aOk, hD]; rfl
        rw [← hctx, ← hd, ← hc1.cnt]
        constructor
        · intro h
          cases h with
          | action s1 _ _ o h h1 h2 =>
            rw [hs'] at h1
            subst h1
            refine ⟨o, h, h2, ?_⟩
            unfold copyAction
            simp only [Bool.false_eq_true, if_false]
        · rintro ⟨o, h, h2, rfl⟩
          have := RunTok.action s s' b ps o h hs'.symm h2
          unfold copyAction at this
          simp only [Bool.false_eq_true, if_false] at this
          exact this
      have hI' : ∀ h o, RInv D us' l (a ++ [.action b ps]) n k' true
          { s' with d := { s'.d with haveTags := h }, rd := { s'.rd with lastAct := true },
                         acts := s'.acts ++ [(n + actionsIn a + 1, (if b then [9] else []) ++ o)] } := by
        intro h o
        refine ⟨⟨n + actionsIn a + 1, tagsD D l a, ?_, ?_, ?_⟩, rfl, ?_, hI.lName, ?_⟩
        · exact ⟨hc1.syms, hc1.tag, hc1.lhs, hc1.isLhs, hc1.notTok, hc1.lOk, hc1.cnt, hc1.gs, hc1.gens, hc1.gmem, hc1.gmax, hc1.rhs⟩
        · rw [actionsIn_snoc]; rfl
        · unfold tagsD; rw [List.filterMap_append]; rfl
        · rw [innerActions_action, actionsIn_snoc]; rfl
        · intro y hy
          simp only [List.mem_append, List.mem_singleton, reduceCtorEq, or_false] at hy
          exact hI.aOk y hy
      have hfin : ∀ t acts h o, finalS V { s' with
                         d := { s'.d with haveTags := h }
                         rd := { s'.rd with lastAct := true }
                         acts := s'.acts ++ [(n + actionsIn a + 1, (if b then [9] else []) ++ o)] } ts t acts =
          finalS V s (.action b ps :: ts) t ((n + actionsIn a + 1, (if b then [9] else []) ++ o) :: acts) := by
        intro t acts h o
        unfold finalS
        simp only [rdRun]
        rw [hr, ha', hd']
        simp
      have hlhs : (∀ x, RTok.lhs x ∈ RTok.action b ps :: ts → ¬ IsToken V x.key) ↔ ∀ x, RTok.lhs x ∈ ts → ¬ IsToken V x.key := by simp
      rw [hlhs]
      constructor
      · rintro ⟨sz, h2, h3⟩
        obtain ⟨o, h, h4, rfl⟩ := (h1 sz).1 h2
        obtain ⟨h5, acts1, acts2, t1, t2, h6, h7, h8⟩ := (ih us' l _ n k' true _ s2 (hI' h o) hN.tail hVs).1 h3
        refine ⟨h5, _, acts2, t1, t2, .action _ _ _ _ _ _ _ _ _ h4 h6, ?_, ?_⟩
        · simp only [headRhs, tailAlts]; rw [List.append_assoc] at h7; exact h7
        · rw [h8, hfin]; rfl
      · rintro ⟨h5, acts1, acts2, t1, t2, h6, h7, h8⟩
        simp only [headRhs] at h6
        cases h6 with
        | action _ h _ _ _ o _ _ acts h4 h6 =>
          refine ⟨_, (h1 _).2 ⟨o, h, h4, rfl⟩, (ih us' l _ n k' true _ s2 (hI' h o) hN.tail hVs).2 ⟨h5, acts, acts2, t1, t2, h6, ?_, ?_⟩⟩
          · simp only [headRhs, tailAlts] at h7; rw [List.append_assoc]; exact h7
          · rw [h8, hfin]; rfl
    | prec x =>
      obtain ⟨tx, ux, hx'⟩ := hN x (.inr (.inr (by simp)))
      have hu : useSym s.d.syms x = ((names (us ++ [.plain x])).idxOf x.key, table (us ++ [.plain x])) := by rw [hc.syms]; exact useSym_table us x
      have hVs : V = us ++ [.plain x] ++ ruleUses l pend k ts := by rw [hV, ruleUses]; simp
      have hxm : x.key ∈ names (us ++ [.plain x]) := key_mem us (.plain x)
      have hc1 := hc.plain x ⟨tx, ux, hx'⟩ hI.lName
      have hmp : ∀ i, (markPrecAt s.rd i).plhs = s.rd.plhs ∧ (markPrecAt s.rd i).pitem = s.rd.pitem ∧ (markPrecAt s.rd i).gensym = s.rd.gensym ∧
          (markPrecAt s.rd i).lastAct = s.rd.lastAct := by
        intro i; unfold markPrecAt; split <;> exact ⟨rfl, rfl, rfl, rfl⟩
      have h1 : ∀ s', RunTok s (.prec x) s' ↔ s' = { s with d := { s.d with syms := table (us ++ [.plain x]) }, rd := (markPrecAt s.rd ((names (us ++ [.plain x])).idxOf x.key)) } := by
        intro s'
        constructor
        · intro h
          cases h with
          | prec _ i syms h1 => rw [hu] at h1; cases h1; rfl
        · rintro rfl; exact .prec s x _ _ hu
      have hI' : RInv D (us ++ [.plain x]) l (a ++ [.prec x]) n k pend
          { s with d := { s.d with syms := table (us ++ [.plain x]) }, rd := (markPrecAt s.rd ((names (us ++ [.plain x])).idxOf x.key)) } := by
        obtain ⟨e1, e2, e3, e4⟩ := hmp ((names (us ++ [.plain x])).idxOf x.key)
        refine ⟨⟨N, T, ⟨hc1.syms, hc1.tag, ?_, hc1.isLhs, hc1.notTok, hc1.lOk, ?_, ?_, hc1.gens, hc1.gmem, hc1.gmax, ?_⟩, ?_, ?_⟩, ?_, ?_, hI.lName, ?_⟩
        · simp only; rw [e1]; exact hc1.lhs
        · simp only; rw [e1]; exact hc1.cnt
        · simp only; rw [e3]; exact hc1.gs
        · simp only; rw [e2]; exact hc1.rhs
        · rw [actionsIn_snoc]; exact hcnt
        · rw [htags]; unfold tagsD; rw [List.filterMap_append]; simp
        · simp only; rw [e4]; exact hI.last
        · rw [innerActions_prec, actionsIn_snoc]; exact hI.inner
        · intro y hy
          simp only [List.mem_append, List.mem_singleton, reduceCtorEq, or_false] at hy
          exact hI.aOk y hy
      have hfin : ∀ t acts, finalS V { s with d := { s.d with syms := table (us ++ [.plain x]) }, rd := (markPrecAt s.rd ((names (us ++ [.plain x])).idxOf x.key)) } ts t acts =
          finalS V s (.prec x :: ts) t acts := by
        intro t acts
        unfold finalS
        simp only [rdRun]
        rw [show (names V).idxOf x.key = (names (us ++ [.plain x])).idxOf x.key by rw [hVs, idxOf_stable _ _ _ hxm]]
      have h6 := ih _ l (a ++ [.prec x]) n k pend _ s2 hI' hN.tail hVs
      have : (∃ s1', RunTok s (.prec x) s1' ∧ RunToks s1' ts s2) ↔
          RunToks { s with d := { s.d with syms := table (us ++ [.plain x]) }, rd := (markPrecAt s.rd ((names (us ++ [.plain x])).idxOf x.key)) } ts s2 := by
        constructor
        · rintro ⟨s', h7, h8⟩; rw [h1] at h7; subst h7; exact h8
        · intro h; exact ⟨_, (h1 _).2 rfl, h⟩
      rw [this, h6]
      simp only [List.mem_cons, reduceCtorEq, false_or, headRhs, tailAlts]
      refine and_congr Iff.rfl ?_
      constructor
      · rintro ⟨acts1, acts2, t1, t2, h7, h8, h9⟩
        refine ⟨acts1, acts2, t1, t2, .prec _ _ _ _ _ _ h7, ?_, ?_⟩
        · rw [List.append_assoc] at h8; exact h8
        · rw [h9, hfin]
      · rintro ⟨acts1, acts2, t1, t2, h7, h8, h9⟩
        cases h7 with
        | prec _ _ _ _ _ _ h7 =>
          refine ⟨acts1, acts2, t1, t2, h7, ?_, ?_⟩
          · rw [List.append_assoc]; exact h8
          · rw [h9, hfin]

end Verif.Byacc.Rd
