import Verif.Proofs.ByaccRun
/-
Helper definitions and lemmas: what the reader does, in terms of the parts of the file.  Rules.
-/
set_option autoImplicit false
namespace Verif.Byacc.Rd
open Spec.YText

/-! The declarations as a whole -/

def runDecls : DSt → List Decl → Option DSt
  | s, [] => some s
  | s, d :: ds => (runDecl s d).bind fun s => runDecls s ds

theorem kwAt_percent {k : Kw} {t u : List Nat} (h : KwAt k t u) : ∃ c r, Percent c ∧ t = c :: r := by
  obtain ⟨p, w, h1, h2, -⟩ := h; exact ⟨p, _, h1, h2⟩

theorem kwAt_length {k : Kw} {t u : List Nat} (h : KwAt k t u) : u.length < t.length := by
  obtain ⟨p, w, -, rfl, -⟩ := h; simp; omega

theorem kwAt_unique {k k' : Kw} {t u u' : List Nat} (h : KwAt k t u) (h' : KwAt k' t u') : k = k' ∧ u = u' := by
  have hp := kwAt_percent h
  rw [← keyword_iff _ _ _ hp] at h h'
  rw [h] at h'
  have := Except.ok.inj h'
  exact Prod.mk.inj this

theorem percent_notEnd {t : List Nat} (h : ∃ c r, Percent c ∧ t = c :: r) : ¬ AtEnd t := by
  obtain ⟨c, r, h1, rfl⟩ := h
  rintro (h | ⟨_, h⟩)
  · cases h
  · cases h; unfold Percent at h1; omega

theorem expectAt_length {n : Nat} {t u : List Nat} (h : ExpectAt n t u) : u.length < t.length := by
  obtain ⟨c, sp, r, rfl, -, -, h, -⟩ := h
  have := numberAt_length h
  simp; omega

theorem textAt_length {o t u : List Nat} (h : TextAt o t u) : u.length ≤ t.length := by
  induction h with
  | done _ _ h => obtain ⟨p, -, rfl⟩ := h; simp; omega
  | piece _ _ _ _ _ _ h _ ih => have := h.length; omega

theorem unionAt_length {d : Int} {t u : List Nat} (h : UnionAt d t u) : u.length ≤ t.length := by
  induction h with
  | last => simp
  | opening => simp; omega
  | closing => simp; omega
  | piece _ _ _ _ _ _ h _ ih => have := h.length; omega

theorem itemsAt_length {xs : List (Sym × Option Nat)} {t u : List Nat} (h : ItemsAt xs t u) : u.length ≤ t.length := by
  induction h with
  | nil _ _ h => exact skips_length h
  | sym _ _ _ _ _ _ _ h1 h2 h3 _ _ ih =>
    have := skips_length h1; have := symAt_length h2; have := skips_length h3; omega
  | num _ _ _ _ _ _ _ _ _ h1 h2 h3 h4 _ _ ih =>
    have := skips_length h1; have := symAt_length h2; have := skips_length h3; have := numberAt_length h4; omega

theorem namesAt_length {xs : List Sym} {t u : List Nat} (h : NamesAt xs t u) : u.length ≤ t.length := by
  induction h with
  | nil _ _ h => exact skips_length h
  | cons _ _ _ _ _ _ _ h1 h2 h3 _ _ ih =>
    have := skips_length h1; have := symAt_length h2; have := skips_length h3; omega

theorem bodyAt_length {k : Kw} {d : Decl} {t u : List Nat} (h : BodyAt k d t u) : u.length ≤ t.length := by
  cases h with
  | tokens _ _ _ _ _ _ _ h =>
    obtain ⟨t1, h1, -, ⟨-, -, h2⟩ | ⟨g, t2, -, h2, h3⟩⟩ := h
    · have := skips_length h1; have := itemsAt_length h2; omega
    · have := skips_length h1; have := tagAt_length h2; have := itemsAt_length h3; omega
  | types _ _ _ _ h =>
    obtain ⟨t1, h1, -, ⟨-, -, h2⟩ | ⟨g, t2, -, h2, h3⟩⟩ := h
    · have := skips_length h1; have := namesAt_length h2; omega
    · have := skips_length h1; have := tagAt_length h2; have := namesAt_length h3; omega
  | start _ _ _ _ h1 h2 => have := skips_length h1; have := symAt_length h2; omega
  | expect _ _ _ h => exact (expectAt_length h).le
  | expectRR _ _ _ h => exact (expectAt_length h).le
  | text _ _ _ _ h1 h2 =>
    have := textAt_length h2
    rcases h1 with rfl | ⟨rfl, -⟩
    · simp; omega
    · exact this
  | union _ _ h => exact unionAt_length h
  | ident _ _ h =>
    obtain ⟨s, r, h1, -, -, rfl | ⟨rfl, -⟩⟩ := h
    · have := skips_length h1; simp at this; omega
    · have := skips_length h1; simp at this; omega
  | flag => exact Nat.le_refl _

theorem percent_peek (t : List Nat) : (peek t == some 37) = true ↔ ∃ c u, Percent c ∧ t = c :: u := by
  rw [beq_iff_eq, peek_percent]

/-- `%%` is not a declaration -/
theorem mark_noBody {d : Decl} {v u : List Nat} : ¬ BodyAt .MARK d v u := by
  intro h
  cases h with
  | tokens _ _ _ _ _ _ h => simp [declares] at h
  | flag _ _ h => exact absurd h (by decide)

theorem declLoop_iff (k : Nat) (s : DSt) (t : List Nat) (s' : DSt) (z : List Nat) (hk : t.length < k) :
    declLoop k s t = .ok (s', z) ↔ ∃ ds, DeclsAt ds t z ∧ runDecls s ds = some s' := by
  induction k generalizing s t with
  | zero => omega
  | succ k ih =>
    rw [declLoop, bind_ok]
    constructor
    · rintro ⟨u, h1, h2⟩
      obtain ⟨h3, h4⟩ := (nextTok_iff _ _).1 h1
      split at h2
      · rename_i hp
        have hp := (percent_peek u).1 hp
        rw [bind_ok] at h2
        obtain ⟨⟨kw, v⟩, h5, h6⟩ := h2
        rw [keyword_iff _ _ _ hp] at h5
        simp only at h6
        split at h6
        · rename_i hm
          cases h6
          subst hm
          exact ⟨[], .done _ _ _ h3 h5, rfl⟩
        · rw [bind_ok] at h6
          obtain ⟨⟨s1, w⟩, h7, h8⟩ := h6
          obtain ⟨d, h9, h10⟩ := (declare_iff _ _ _ _ _ _).1 h7
          have l1 := skips_length h3
          have l2 := kwAt_length h5
          have l3 := bodyAt_length h9
          obtain ⟨ds, h11, h12⟩ := (ih s1 w (by omega)).1 h8
          refine ⟨d :: ds, .cons d ds t u w z h3 ((declAt_iff _ _ _).2 ⟨kw, v, h5, h9⟩) h11, ?_⟩
          rw [runDecls, h10]; exact h12
      · cases h2
    · rintro ⟨ds, h1, h2⟩
      cases h1 with
      | done _ v _ h3 h4 =>
        cases h2
        have hp := kwAt_percent h4
        refine ⟨v, (nextTok_iff _ _).2 ⟨h3, percent_notEnd hp⟩, ?_⟩
        rw [if_pos ((percent_peek v).2 hp), bind_ok]
        exact ⟨(.MARK, z), (keyword_iff _ _ _ hp).2 h4, rfl⟩
      | cons d ds _ v w _ h3 h4 h5 =>
        obtain ⟨kw, v', h6, h7⟩ := (declAt_iff _ _ _).1 h4
        have hp := kwAt_percent h6
        rw [runDecls] at h2
        cases hr : runDecl s d with
        | none => rw [hr] at h2; cases h2
        | some s1 =>
          rw [hr] at h2
          refine ⟨v, (nextTok_iff _ _).2 ⟨h3, percent_notEnd hp⟩, ?_⟩
          rw [if_pos ((percent_peek v).2 hp), bind_ok]
          refine ⟨(kw, v'), (keyword_iff _ _ _ hp).2 h6, ?_⟩
          have hm : kw ≠ .MARK := by rintro rfl; exact mark_noBody h7
          simp only
          rw [if_neg hm, bind_ok]
          have l1 := skips_length h3
          have l2 := kwAt_length h6
          have l3 := bodyAt_length h7
          exact ⟨(s1, w), (declare_iff _ _ _ _ _ _).2 ⟨d, h7, hr⟩, (ih s1 w (by omega)).2 ⟨ds, h5, h2⟩⟩

/-! In front of the first rule -/

theorem early_kw {k : Kw} {d : Decl} {v u : List Nat} (h : BodyAt k d v u) : d.early ↔ k = .TEXT ∨ k = .START := by
  cases h with
  | tokens _ _ _ _ _ _ h =>
    refine iff_of_false (by simp [Decl.early]) ?_
    rintro (rfl | rfl)
    · rw [← kwAssoc_iff] at h; cases h
    · rw [← kwAssoc_iff] at h; cases h
  | start => simp [Decl.early]
  | text => simp [Decl.early]
  | flag _ _ h =>
    refine iff_of_false (by simp [Decl.early]) ?_
    rintro (rfl | rfl)
    · exact absurd h (by decide)
    · exact absurd h (by decide)
  | _ => simp [Decl.early]

theorem advanceLoop_iff (k : Nat) (s : DSt) (t : List Nat) (s' : DSt) (z : List Nat) (hk : t.length < k) :
    advanceLoop k s t = .ok (s', z) ↔ ∃ ds, EarlyAt ds t z ∧ runDecls s ds = some s' := by
  induction k generalizing s t with
  | zero => omega
  | succ k ih =>
    rw [advanceLoop, bind_ok]
    constructor
    · rintro ⟨u, h3, h2⟩
      rw [nextc_iff] at h3
      split at h2
      · rename_i hp
        have hp := (percent_peek u).1 hp
        rw [bind_ok] at h2
        obtain ⟨⟨kw, v⟩, h5, h6⟩ := h2
        rw [keyword_iff _ _ _ hp] at h5
        simp only at h6
        split at h6
        · cases h6
        split at h6
        · rename_i hkw
          rw [bind_ok] at h6
          obtain ⟨⟨s1, w⟩, h7, h8⟩ := h6
          obtain ⟨d, h9, h10⟩ := (declare_iff _ _ _ _ _ _).1 h7
          have l1 := skips_length h3
          have l2 := kwAt_length h5
          have l3 := bodyAt_length h9
          have he : d.early := by
            rw [early_kw h9]
            simp only [Bool.or_eq_true, decide_eq_true_eq] at hkw
            rcases hkw with (h | h) | h
            · exact .inl h
            · exact .inr h
            · subst h
              cases h9 with
              | tokens _ _ _ _ _ _ h => rw [← kwAssoc_iff] at h; cases h
              | flag _ _ h => exact absurd h (by decide)
          obtain ⟨ds, h11, h12⟩ := (ih s1 w (by omega)).1 h8
          refine ⟨d :: ds, .cons d ds t u w z h3 ((declAt_iff _ _ _).2 ⟨kw, v, h5, h9⟩) he h11, ?_⟩
          rw [runDecls, h10]; exact h12
        · cases h6
      · rename_i hp
        rw [percent_peek] at hp
        cases h2
        exact ⟨[], .done _ _ h3 (fun c r h h' => hp ⟨c, r, h', h⟩), rfl⟩
    · rintro ⟨ds, h1, h2⟩
      cases h1 with
      | done _ _ h3 h4 =>
        cases h2
        refine ⟨z, (nextc_iff _ _).2 h3, ?_⟩
        rw [if_neg]
        rw [percent_peek]
        rintro ⟨c, r, h, h'⟩; exact h4 c r h' h
      | cons d ds _ v w _ h3 h4 he h5 =>
        obtain ⟨kw, v', h6, h7⟩ := (declAt_iff _ _ _).1 h4
        have hp := kwAt_percent h6
        rw [runDecls] at h2
        cases hr : runDecl s d with
        | none => rw [hr] at h2; cases h2
        | some s1 =>
          rw [hr] at h2
          refine ⟨v, (nextc_iff _ _).2 h3, ?_⟩
          rw [if_pos ((percent_peek v).2 hp), bind_ok]
          refine ⟨(kw, v'), (keyword_iff _ _ _ hp).2 h6, ?_⟩
          have hm : kw ≠ .MARK := by rintro rfl; exact mark_noBody h7
          have hkw := (early_kw h7).1 he
          simp only
          rw [if_neg hm, if_pos (by rcases hkw with rfl | rfl <;> rfl), bind_ok]
          have l1 := skips_length h3
          have l2 := kwAt_length h6
          have l3 := bodyAt_length h7
          exact ⟨(s1, w), (declare_iff _ _ _ _ _ _).2 ⟨d, h7, hr⟩, (ih s1 w (by omega)).2 ⟨ds, h5, h2⟩⟩

/-! The rules -/

/-- a rule starts -/
def runStartRule (s : FSt) (b : RSym) : Option FSt :=
  if (s.d.syms[posOf s.gens b]?).map BSym.cls == some .TERM then none
  else some { s with d := { s.d with syms := s.d.syms.modify (posOf s.gens b) fun b => { b with cls := .NONTERM } },
                     rd := startRule s.rd b }

theorem startRuleF_iff (s : FSt) (b : RSym) (t : List Nat) (s' : FSt) : startRuleF s b t = .ok s' ↔ runStartRule s b = some s' := by
  unfold startRuleF runStartRule
  split
  · exact iff_of_false (fun h => by cases h) (fun h => by cases h)
  · simp

/-- the left-hand side of the first rule -/
def runFirst (s : DSt) (name : List Nat) : Option FSt :=
  if s.goal.isNone && ((lookupSym s.syms name).2[(lookupSym s.syms name).1]?).map BSym.cls == some .TERM then none
  else runStartRule ⟨{ s with syms := (lookupSym s.syms name).2, goal := if s.goal.isNone then some (lookupSym s.syms name).1 else s.goal }, rdInit, [], []⟩
    (.user (lookupSym s.syms name).1)

theorem colon_notEnd (u : List Nat) : ¬ AtEnd (58 :: u) := by
  rintro (h | ⟨_, h⟩) <;> cases h

theorem firstRule_iff (s : DSt) (t : List Nat) (s' : FSt) (z : List Nat) :
    firstRule s t = .ok (s', z) ↔ ∃ name, FirstAt name t z ∧ runFirst s name = some s' := by
  unfold firstRule runFirst
  have hpk : (peek t).any (fun c => isAlpha c || c == 95 || c == 46) = true ↔ ∃ c u, t = c :: u ∧ (Letter c ∨ c = 95 ∨ c = 46) :=
    peek_any t _ _ (by intro c; simp [isAlpha_iff, or_assoc]) (by unfold Letter; omega) (by unfold Letter; omega) (by unfold Letter; omega)
  constructor
  · intro h
    split at h
    · rename_i hn
      obtain ⟨c, r, rfl, hc⟩ := hpk.1 hn
      have hf : ∃ c' r', c :: r = c' :: r' ∧ NameFirst c' := ⟨c, r, rfl, by unfold NameFirst; tauto⟩
      rw [bind_ok] at h
      obtain ⟨⟨n, v⟩, h1, h2⟩ := h
      rw [getName_iff _ _ _ hf] at h1
      simp only at h2
      split at h2
      · cases h2
      rename_i hg
      rw [bind_ok] at h2
      obtain ⟨w, h3, h4⟩ := h2
      obtain ⟨h3, h3'⟩ := (nextTok_iff _ _).1 h3
      split at h4
      · cases h4
      split at h4
      · rename_i hcol
        obtain ⟨w', rfl⟩ := (colon_peek w).1 hcol
        rw [bind_ok] at h4
        obtain ⟨s1, h5, h6⟩ := h4
        cases h6
        refine ⟨n, ⟨v, h1, notNext_cons (by unfold Letter at hc; omega), h3⟩, ?_⟩
        rw [if_neg hg]
        exact (startRuleF_iff _ _ _ _).1 h5
      · cases h4
    · cases h
  · rintro ⟨name, ⟨v, h1, h2, h3⟩, h4⟩
    have hf := NameAt.first h1.1
    have hn : ∃ c u, t = c :: u ∧ (Letter c ∨ c = 95 ∨ c = 46) := by
      obtain ⟨c, r, rfl, hc⟩ := hf
      refine ⟨c, r, rfl, ?_⟩
      have := h2 c r rfl
      unfold NameFirst at hc; tauto
    rw [if_pos (hpk.2 hn), bind_ok]
    refine ⟨(name, v), (getName_iff _ _ _ hf).2 h1, ?_⟩
    simp only
    split at h4
    · cases h4
    rename_i hg
    rw [if_neg hg, bind_ok]
    refine ⟨_, (nextTok_iff _ _).2 ⟨h3, colon_notEnd z⟩, ?_⟩
    rw [if_neg (by rw [paren_peek]; rintro ⟨_, h⟩; cases h), if_pos ((colon_peek _).2 ⟨z, rfl⟩), bind_ok]
    exact ⟨s', (startRuleF_iff _ _ _ _).2 h4, rfl⟩

/-- what one part of the rules does -/
inductive RunTok : FSt → RTok → FSt → Prop
  | sym (s : FSt) (x : Sym) (i : Nat) (syms : List BSym) (s1 : FSt) : useSym s.d.syms x = (i, syms) →
      s1 = (if s.rd.lastAct then insertEmptyF { s with d := { s.d with syms := syms } } else { s with d := { s.d with syms := syms } }) →
      RunTok s (.sym x) { s1 with rd := addSymbol { s1.rd with lastAct := false } i }
  | lhs (s : FSt) (x : Sym) (i : Nat) (syms : List BSym) (s' : FSt) : useSym s.d.syms x = (i, syms) →
      runStartRule { s with d := { s.d with syms := syms }, rd := endRule s.rd } (.user i) = some s' → RunTok s (.lhs x) s'
  | bar (s s' : FSt) : runStartRule { s with rd := endRule s.rd } (s.rd.plhs.headD (.user 0)) = some s' → RunTok s .bar s'
  | action (s s1 : FSt) (tabbed : Bool) (ps : List Part) (o : List Nat) (h : Bool) : s1 = (if s.rd.lastAct then insertEmptyF s else s) →
      PartsOut (ctxOf s1).types s1.d.haveTags ps o h →
      RunTok s (.action tabbed ps) { s1 with d := { s1.d with haveTags := h }, rd := copyAction { s1.rd with lastAct := false },
                                             acts := s1.acts ++ [(s1.rd.plhs.length, (if tabbed then [9] else []) ++ o)] }
  | prec (s : FSt) (x : Sym) (i : Nat) (syms : List BSym) : useSym s.d.syms x = (i, syms) →
      RunTok s (.prec x) { s with d := { s.d with syms := syms }, rd := markPrecAt s.rd i }

inductive RunToks : FSt → List RTok → FSt → Prop
  | nil (s : FSt) : RunToks s [] s
  | cons (s s1 s2 : FSt) (x : RTok) (xs : List RTok) : RunTok s x s1 → RunToks s1 xs s2 → RunToks s (x :: xs) s2

theorem addSymbolF_iff (s : FSt) (x : Sym) (i : Nat) (syms : List BSym) (t v : List Nat) (hx : SymAt x t v) (hu : useSym s.d.syms x = (i, syms)) (s' : FSt)
    (z : List Nat) : addSymbolF { s with d := { s.d with syms := syms } } i t v = .ok (s', z) ↔
      ∃ y, (y = .sym x ∨ y = .lhs x) ∧ RTokAt y t z ∧ RunTok s y s' := by
  unfold addSymbolF
  rw [bind_ok]
  constructor
  · rintro ⟨w, h1, h2⟩
    rw [nextc_iff] at h1
    split at h2
    · cases h2
    rename_i hp
    rw [paren_peek] at hp
    split at h2
    · rename_i hc
      obtain ⟨w', rfl⟩ := (colon_peek w).1 hc
      rw [bind_ok] at h2
      obtain ⟨s1, h3, h4⟩ := h2
      cases h4
      exact ⟨.lhs x, .inr rfl, .lhs x t v w' hx h1, .lhs s x i syms _ hu ((startRuleF_iff _ _ _ _).1 h3)⟩
    · rename_i hc
      rw [colon_peek] at hc
      simp only at h2
      cases h2
      refine ⟨.sym x, .inl rfl, .sym x t v _ hx h1 ?_, .sym s x i syms _ hu rfl⟩
      rintro c r rfl (rfl | rfl)
      · exact hc ⟨r, rfl⟩
      · exact hp ⟨r, rfl⟩
  · rintro ⟨y, hy, h1, h2⟩
    rcases hy with rfl | rfl
    · cases h1 with
      | sym _ _ v' w h3 h4 h5 =>
        have hv : v' = v := by
          have e1 := (getSym_some s.d.syms t _ _ _).2 ⟨x, hx, hu⟩
          have e2 := (getSym_some s.d.syms t _ _ _).2 ⟨x, h3, hu⟩
          rw [e1] at e2; simpa using e2.symm
        subst hv
        cases h2 with
        | sym _ i' syms' s1 h6 h7 =>
          rw [hu] at h6; cases h6
          refine ⟨z, (nextc_iff _ _).2 h4, ?_⟩
          rw [if_neg (by rw [paren_peek]; rintro ⟨r, rfl⟩; exact h5 40 r rfl (.inr rfl)),
            if_neg (by rw [colon_peek]; rintro ⟨r, rfl⟩; exact h5 58 r rfl (.inl rfl))]
          simp only
          rw [h7]
    · cases h1 with
      | lhs _ _ v' _ h3 h4 =>
        have hv : v' = v := by
          have e1 := (getSym_some s.d.syms t _ _ _).2 ⟨x, hx, hu⟩
          have e2 := (getSym_some s.d.syms t _ _ _).2 ⟨x, h3, hu⟩
          rw [e1] at e2; simpa using e2.symm
        subst hv
        cases h2 with
        | lhs _ i' syms' _ h6 h7 =>
          rw [hu] at h6; cases h6
          refine ⟨_, (nextc_iff _ _).2 h4, ?_⟩
          rw [if_neg (by rw [paren_peek]; rintro ⟨r, h⟩; cases h), if_pos ((colon_peek _).2 ⟨z, rfl⟩), bind_ok]
          exact ⟨s', (startRuleF_iff _ _ _ _).2 h7, rfl⟩

theorem copyActionF_iff (s : FSt) (t : List Nat) (ht : ∃ r, t = 123 :: r ∨ t = 61 :: r) (s' : FSt) (z : List Nat) :
    copyActionF s t = .ok (s', z) ↔ ∃ tabbed ps, ActionAt tabbed ps t z ∧ RunTok s (.action tabbed ps) s' := by
  unfold copyActionF
  simp only
  rw [bind_ok]
  constructor
  · rintro ⟨⟨o, u, h⟩, h1, h2⟩
    cases h2
    obtain ⟨tabbed, ps, o', h3, h4, rfl⟩ := (copyBody_iff _ _ _ _ _ _ ht).1 h1
    exact ⟨tabbed, ps, h3, .action s _ tabbed ps o' h rfl h4⟩
  · rintro ⟨tabbed, ps, h1, h2⟩
    cases h2 with
    | action s1 _ _ o h h3 h4 =>
      subst h3
      exact ⟨(_, z, h), (copyBody_iff _ _ _ _ _ _ ht).2 ⟨tabbed, ps, o, h1, h4, rfl⟩, rfl⟩

theorem lower_iff (a b : Nat) (hb : 97 ≤ b ∧ b ≤ 122) : lower a = b ↔ a = b ∨ (65 ≤ a ∧ a ≤ 90 ∧ b = a + 32) := by
  unfold lower
  split
  · rename_i h; simp at h; omega
  · rename_i h; simp at h; omega

theorem forall₂_lower (s l : List Nat) (hl : ∀ b ∈ l, 97 ≤ b ∧ b ≤ 122) :
    List.Forall₂ (fun a b => a = b ∨ (65 ≤ a ∧ a ≤ 90 ∧ b = a + 32)) s l ↔ s.map lower = l := by
  induction l generalizing s with
  | nil => simp
  | cons b l ih =>
    cases s with
    | nil => simp
    | cons a s =>
      rw [List.forall₂_cons, ih s (fun x hx => hl x (by simp [hx])), List.map_cons, List.cons.injEq, lower_iff a b (hl b (by simp))]

theorem wordAt_iff (w : String) (hw : ∀ b ∈ txt w, 97 ≤ b ∧ b ≤ 122) (t u : List Nat) :
    WordAt w t u ↔ wordAt (str w) t = true ∧ u = t.drop (txt w).length := by
  have hnn : ∀ v : List Nat, (!v.head?.any isIdent) = true ↔ NotNext NameChar v := by
    intro v
    cases v with
    | nil => exact iff_of_true rfl notNext_nil
    | cons c r =>
      simp only [List.head?_cons, Option.any_some, Bool.not_eq_true', ← Bool.not_eq_true, isIdent_iff]
      constructor
      · intro h; exact notNext_cons h
      · intro h; exact h c r rfl
  unfold WordAt wordAt
  rw [str_eq_txt, Bool.and_eq_true, beq_iff_eq, hnn]
  constructor
  · rintro ⟨s, rfl, h1, h2⟩
    rw [forall₂_lower s _ hw] at h1
    have hlen : s.length = (txt w).length := by rw [← h1]; simp
    rw [← hlen]
    simp only [List.take_left', List.drop_left', List.take_left, List.drop_left]
    exact ⟨⟨h1, h2⟩, trivial⟩
  · rintro ⟨⟨h1, h2⟩, rfl⟩
    exact ⟨t.take (txt w).length, (List.take_append_drop _ _).symm, (forall₂_lower _ _ hw).2 h1, h2⟩

theorem empty_small : ∀ b ∈ txt "empty", 97 ≤ b ∧ b ≤ 122 := by decide
theorem prec_small : ∀ b ∈ txt "prec", 97 ≤ b ∧ b ≤ 122 := by decide

theorem wordAt_head (w : String) (hw : ∀ b ∈ txt w, 97 ≤ b ∧ b ≤ 122) (t : List Nat) (h : wordAt (str w) t = true) (hn : txt w ≠ []) :
    ∃ c r, t = c :: r ∧ ((65 ≤ c ∧ c ≤ 90) ∨ (97 ≤ c ∧ c ≤ 122)) := by
  obtain ⟨s, h1, h2, -⟩ := (wordAt_iff w hw t _).2 ⟨h, rfl⟩
  cases s with
  | nil => cases hx : txt w with
    | nil => exact absurd hx hn
    | cons b l => rw [hx] at h2; cases h2
  | cons a s =>
    cases hx : txt w with
    | nil => exact absurd hx hn
    | cons b l =>
      rw [hx, List.forall₂_cons] at h2
      have := hw b (by rw [hx]; simp)
      exact ⟨a, s ++ _, h1, by omega⟩

theorem markSymbolF_none (s : FSt) (t : List Nat) (ht : ∃ c r, Percent c ∧ t = c :: r) : markSymbolF s t = .ok none ↔ RulesEnd t := by
  obtain ⟨p, u, hp, rfl⟩ := ht
  have hend : RulesEnd (p :: u) ↔ (∃ c v, Percent c ∧ u = c :: v) ∨ ∃ v, WordAt "empty" u v := by
    unfold RulesEnd
    constructor
    · rintro (h | ⟨p', u', -, h, h'⟩)
      · exact absurd h (percent_notEnd ⟨p, u, hp, rfl⟩)
      · cases h; exact h'
    · intro h; exact .inr ⟨p, u, hp, rfl, h⟩
  have hword : (∃ v, WordAt "empty" u v) ↔ wordAt (str "empty") u = true := by
    constructor
    · rintro ⟨v, h⟩; exact ((wordAt_iff "empty" empty_small u v).1 h).1
    · intro h; exact ⟨_, (wordAt_iff "empty" empty_small u _).2 ⟨h, rfl⟩⟩
  rw [hend, hword]
  unfold markSymbolF
  simp only [List.drop_succ_cons, List.drop_zero]
  cases u with
  | nil =>
    refine iff_of_false (fun h => by cases h) ?_
    rintro (⟨c, v, -, h⟩ | h)
    · cases h
    · obtain ⟨c, r, h, -⟩ := wordAt_head "empty" empty_small _ h (by decide)
      cases h
  | cons c r =>
    simp only
    by_cases h1 : Percent c
    · rw [if_pos (by simpa [Percent] using h1)]
      exact iff_of_true rfl (.inl ⟨c, r, h1, rfl⟩)
    rw [if_neg (by simpa [Percent] using h1)]
    by_cases h2 : wordAt (str "empty") (c :: r) = true
    · rw [if_pos h2]
      exact iff_of_true rfl (.inr h2)
    rw [if_neg h2]
    refine iff_of_false ?_ ?_
    · split
      · rw [bind_ok]
        rintro ⟨v, -, h⟩
        rw [bind_ok] at h
        obtain ⟨y, -, h⟩ := h
        cases y with
        | none => cases h
        | some y => cases h
      · intro h; cases h
    · rintro (⟨c', v, h, h'⟩ | h)
      · cases h'; exact h1 h
      · exact h2 h

theorem markSymbolF_some (s : FSt) (t : List Nat) (ht : ∃ c r, Percent c ∧ t = c :: r) (s' : FSt) (z : List Nat) :
    markSymbolF s t = .ok (some (s', z)) ↔ ∃ x v w, PrecAt t v ∧ Skips v w ∧ SymAt x w z ∧ RunTok s (.prec x) s' := by
  obtain ⟨p, u, hp, rfl⟩ := ht
  have hprec : ∀ v, PrecAt (p :: u) v ↔ u = 61 :: v ∨ (wordAt (str "prec") u = true ∧ v = u.drop 4) := by
    intro v
    unfold PrecAt
    constructor
    · rintro ⟨p', u', -, h, h'⟩
      cases h
      rcases h' with h' | h'
      · exact .inl h'
      · exact .inr ((wordAt_iff "prec" prec_small u v).1 h')
    · intro h
      refine ⟨p, u, hp, rfl, ?_⟩
      rcases h with h | h
      · exact .inl h
      · exact .inr ((wordAt_iff "prec" prec_small u v).2 h)
  have tail : ∀ v : List Nat, ((nextc v >>= fun u' => getSym s.d.syms u' >>= fun y =>
        match y with
        | none => .error (.error .syntaxError u')
        | some (i, syms, v') => .ok (some ({ s with d := { s.d with syms := syms }, rd := markPrecAt s.rd i }, v'))) : R (Option (FSt × List Nat))) = .ok (some (s', z)) ↔
      ∃ x w, Skips v w ∧ SymAt x w z ∧ RunTok s (.prec x) s' := by
    intro v
    rw [bind_ok]
    constructor
    · rintro ⟨w, h1, h2⟩
      rw [nextc_iff] at h1
      rw [bind_ok] at h2
      obtain ⟨y, h3, h4⟩ := h2
      cases y with
      | none => cases h4
      | some y =>
        obtain ⟨i, syms, v'⟩ := y
        obtain ⟨x, h5, h6⟩ := (getSym_some _ _ _ _ _).1 h3
        cases h4
        exact ⟨x, w, h1, h5, .prec s x i syms h6⟩
    · rintro ⟨x, w, h1, h2, h3⟩
      refine ⟨w, (nextc_iff _ _).2 h1, ?_⟩
      rw [bind_ok]
      cases h3 with
      | prec _ i syms h4 => exact ⟨some (i, syms, z), (getSym_some _ _ _ _ _).2 ⟨x, h2, h4⟩, rfl⟩
  unfold markSymbolF
  simp only [List.drop_succ_cons, List.drop_zero]
  cases u with
  | nil =>
    refine iff_of_false (fun h => by cases h) ?_
    rintro ⟨x, v, w, h, -⟩
    rcases (hprec v).1 h with h | ⟨h, -⟩
    · cases h
    · obtain ⟨c, r, h, -⟩ := wordAt_head "prec" prec_small _ h (by decide)
      cases h
  | cons c r =>
    simp only
    by_cases h1 : Percent c
    · rw [if_pos (by simpa [Percent] using h1)]
      refine iff_of_false (fun h => by cases h) ?_
      rintro ⟨x, v, w, h, -⟩
      unfold Percent at h1
      rcases (hprec v).1 h with h | ⟨h, -⟩
      · cases h; omega
      · obtain ⟨c, r, h, h'⟩ := wordAt_head "prec" prec_small _ h (by decide)
        cases h; omega
    rw [if_neg (by simpa [Percent] using h1)]
    by_cases h2 : wordAt (str "empty") (c :: r) = true
    · rw [if_pos h2]
      refine iff_of_false (fun h => by cases h) ?_
      rintro ⟨x, v, w, h, -⟩
      rcases (hprec v).1 h with h | ⟨h, -⟩
      · cases h
        obtain ⟨c, r, h, h'⟩ := wordAt_head "empty" empty_small _ h2 (by decide)
        cases h; omega
      · unfold wordAt at h2 h
        rw [Bool.and_eq_true, beq_iff_eq] at h2 h
        have e1 := congrArg List.head? h2.1
        have e2 := congrArg List.head? h.1
        rw [show (str "empty").length = 5 by decide, show (str "empty").head? = some 101 by decide] at e1
        rw [show (str "prec").length = 4 by decide, show (str "prec").head? = some 112 by decide] at e2
        simp at e1 e2
        omega
    rw [if_neg h2]
    by_cases h61 : c = 61
    · subst h61
      rw [if_pos (by simp)]
      simp only [beq_self_eq_true, if_true, List.drop_succ_cons, List.drop_zero]
      refine (tail r).trans ?_
      constructor
      · rintro ⟨x, w, h⟩; exact ⟨x, r, w, (hprec r).2 (.inl rfl), h⟩
      · rintro ⟨x, v, w, h, h'⟩
        rcases (hprec v).1 h with h | ⟨h, -⟩
        · cases h; exact ⟨x, w, h'⟩
        · obtain ⟨c, r, h, h'⟩ := wordAt_head "prec" prec_small _ h (by decide)
          cases h; omega
    by_cases h3 : wordAt (str "prec") (c :: r) = true
    · rw [if_pos (by simp [h3])]
      have e : (c == 61) = false := by simpa using h61
      simp only [e, Bool.false_eq_true, if_false]
      refine (tail _).trans ?_
      constructor
      · rintro ⟨x, w, h⟩; exact ⟨x, _, w, (hprec _).2 (.inr ⟨h3, rfl⟩), h⟩
      · rintro ⟨x, v, w, h, h'⟩
        rcases (hprec v).1 h with h | ⟨h, rfl⟩
        · cases h; exact absurd rfl h61
        · exact ⟨x, w, h'⟩
    · rw [if_neg (by simp [h61, h3])]
      refine iff_of_false (fun h => by cases h) ?_
      rintro ⟨x, v, w, h, -⟩
      rcases (hprec v).1 h with h | ⟨h, -⟩
      · cases h; exact h61 rfl
      · exact h3 h

theorem partsAt_length {d : Int} {ps : List Part} {t u : List Nat} (h : PartsAt d ps t u) : u.length < t.length := by
  induction h with
  | part _ _ _ _ _ _ h _ ih => have := partAt_length h; omega
  | _ => simp; try omega

theorem actionAt_length {tabbed : Bool} {ps : List Part} {t u : List Nat} (h : ActionAt tabbed ps t u) : u.length < t.length := by
  obtain ⟨t1, h1, h2⟩ := h
  have l1 : t1.length ≤ t.length := by
    rcases h1 with ⟨rfl, -⟩ | rfl
    · exact Nat.le_refl _
    · simp
  rcases h2 with ⟨-, sp, r, rfl, -, h⟩ | ⟨-, -, h⟩
  · have := partsAt_length h
    simp at *; omega
  · have := partsAt_length h; omega

theorem actionAt_head {tabbed : Bool} {ps : List Part} {t u : List Nat} (h : ActionAt tabbed ps t u) : ∃ r, t = 123 :: r ∨ t = 61 :: r := by
  obtain ⟨t1, ⟨-, r, h⟩ | h, -⟩ := h
  · exact ⟨r, .inl h⟩
  · exact ⟨t1, .inr h⟩

theorem precAt_length {t v : List Nat} (h : PrecAt t v) : v.length < t.length := by
  obtain ⟨p, u, -, rfl, rfl | ⟨s, rfl, -⟩⟩ := h <;> simp <;> omega

theorem rtokAt_length {x : RTok} {t u : List Nat} (h : RTokAt x t u) : u.length < t.length := by
  cases h with
  | sym _ _ _ _ h1 h2 => have := symAt_length h1; have := skips_length h2; omega
  | lhs _ _ _ _ h1 h2 => have := symAt_length h1; have := skips_length h2; simp at *; omega
  | bar => simp
  | action _ _ _ _ h => exact actionAt_length h
  | prec _ _ _ _ _ h1 h2 h3 => have := precAt_length h1; have := skips_length h2; have := symAt_length h3; omega

theorem gramLoop_iff (k : Nat) (s : FSt) (t : List Nat) (s' : FSt) (hk : t.length < k) :
    gramLoop k s t = .ok s' ↔ ∃ toks s1, RTokensAt toks t ∧ RunToks s toks s1 ∧ s' = { s1 with rd := endRule s1.rd } := by
  induction k generalizing s t with
  | zero => omega
  | succ k ih =>
    rw [gramLoop, bind_ok]
    constructor
    · rintro ⟨u, h1, h2⟩
      rw [nextc_iff] at h1
      have l1 := skips_length h1
      -- one part, then the rest
      have step : ∀ (x : RTok) (s1 : FSt) (v : List Nat), RTokAt x u v → RunTok s x s1 → gramLoop k s1 v = .ok s' →
          ∃ toks s1, RTokensAt toks t ∧ RunToks s toks s1 ∧ s' = { s1 with rd := endRule s1.rd } := by
        intro x s1 v hx hr hg
        have l2 := rtokAt_length hx
        obtain ⟨toks, s2, h3, h4, h5⟩ := (ih s1 v (by omega)).1 hg
        exact ⟨x :: toks, s2, .cons x toks t u v h1 hx h3, .cons s s1 s2 x toks hr h4, h5⟩
      rcases hp : peek u with _ | c
      · rw [hp] at h2
        cases h2
        exact ⟨[], s, .done t u h1 (.inl ((peek_none u).1 hp)), .nil s, rfl⟩
      rw [hp] at h2
      simp only at h2
      rw [bind_ok] at h2
      obtain ⟨y, h3, h4⟩ := h2
      cases y with
      | some y =>
        obtain ⟨i, syms, v⟩ := y
        obtain ⟨x, h5, h6⟩ := (getSym_some _ _ _ _ _).1 h3
        simp only at h4
        rw [bind_ok] at h4
        obtain ⟨⟨s1, w⟩, h7, h8⟩ := h4
        obtain ⟨z, -, h9, h10⟩ := (addSymbolF_iff s x i syms u v h5 h6 s1 w).1 h7
        exact step z s1 w h9 h10 h8
      | none =>
        simp only at h4
        split at h4
        · rename_i hc
          have hc : c = 123 ∨ c = 61 := by simpa using hc
          obtain ⟨-, -, r, hr⟩ := (peek_some u c (by omega)).1 hp
          have hu : ∃ r, u = 123 :: r ∨ u = 61 :: r := by
            rcases hc with rfl | rfl
            · exact ⟨r, .inl hr⟩
            · exact ⟨r, .inr hr⟩
          rw [bind_ok] at h4
          obtain ⟨⟨s1, w⟩, h5, h6⟩ := h4
          obtain ⟨tabbed, ps, h7, h8⟩ := (copyActionF_iff s u hu s1 w).1 h5
          exact step _ s1 w (.action tabbed ps u w h7) h8 h6
        split at h4
        · rename_i hc
          have hc : c = 124 := by simpa using hc
          subst hc
          obtain ⟨-, -, r, rfl⟩ := (peek_some u 124 (by omega)).1 hp
          rw [bind_ok] at h4
          obtain ⟨s1, h5, h6⟩ := h4
          exact step _ s1 r (.bar r) (.bar s s1 ((startRuleF_iff _ _ _ _).1 h5)) h6
        split at h4
        · rename_i hc
          have hc : c = 37 := by simpa using hc
          subst hc
          have hper := (peek_percent u).1 hp
          rw [bind_ok] at h4
          obtain ⟨y, h5, h6⟩ := h4
          cases y with
          | none =>
            cases h6
            exact ⟨[], s, .done t u h1 ((markSymbolF_none s u hper).1 h5), .nil s, rfl⟩
          | some y =>
            obtain ⟨s1, w⟩ := y
            obtain ⟨x, v, v', h7, h8, h9, h10⟩ := (markSymbolF_some s u hper s1 w).1 h5
            exact step _ s1 w (.prec x u v v' w h7 h8 h9) h10 h6
        · cases h4
    · rintro ⟨toks, s1, h1, h2, h3⟩
      cases h1 with
      | done _ u h4 h5 =>
        cases h2
        refine ⟨u, (nextc_iff _ _).2 h4, ?_⟩
        by_cases he : AtEnd u
        · rw [(peek_none u).2 he, h3]
        · have hper : ∃ c r, Percent c ∧ u = c :: r := by
            rcases h5 with h | ⟨p, r, hp, h, -⟩
            · exact absurd h he
            · exact ⟨p, r, hp, h⟩
          rw [(peek_percent u).2 hper]
          simp only
          rw [bind_ok]
          refine ⟨none, (getSym_none _ _).2 ?_, ?_⟩
          · obtain ⟨p, r, hp, rfl⟩ := hper
            rintro ⟨c, v, h, h'⟩
            cases h
            unfold Percent at hp; unfold NameFirst Letter at h'; omega
          simp only
          rw [if_neg (by decide), if_neg (by decide), if_pos (by decide), bind_ok]
          exact ⟨none, (markSymbolF_none s u hper).2 h5, by rw [h3]⟩
      | cons x xs _ u v h4 h5 h6 =>
        cases h2 with
        | cons _ s2 _ _ _ h7 h8 =>
          have l1 := skips_length h4
          have l2 := rtokAt_length h5
          have hrec : gramLoop k s2 v = .ok s' := (ih s2 v (by omega)).2 ⟨xs, s1, h6, h8, h3⟩
          refine ⟨u, (nextc_iff _ _).2 h4, ?_⟩
          have hsym : ∀ y w, SymAt y u w → (x = .sym y ∨ x = .lhs y) → ∃ c, peek u = some c ∧
              getSym s.d.syms u = .ok (some ((useSym s.d.syms y).1, (useSym s.d.syms y).2, w)) ∧
              addSymbolF { s with d := { s.d with syms := (useSym s.d.syms y).2 } } (useSym s.d.syms y).1 u w = .ok (s2, v) := by
            intro y w hy hx
            obtain ⟨c, hc, -⟩ := (symStart_iff u).1 (SymAt.start hy)
            exact ⟨c, hc, (getSym_some _ _ _ _ _).2 ⟨y, hy, rfl⟩, (addSymbolF_iff s y _ _ u w hy rfl s2 v).2 ⟨x, hx, h5, h7⟩⟩
          have fin : ∀ y w, SymAt y u w → (x = .sym y ∨ x = .lhs y) → (match peek u with
              | none => Except.ok { s with rd := endRule s.rd }
              | some c => getSym s.d.syms u >>= fun z =>
                match z with
                | some (i, syms, v) => addSymbolF { s with d := { s.d with syms := syms } } i u v >>= fun p => gramLoop k p.1 p.2
                | none =>
                  if c == 123 || c == 61 then do
                    let p ← copyActionF s u
                    gramLoop k p.1 p.2
                  else if c == 124 then do
                    let s ← startRuleF { s with rd := endRule s.rd } (s.rd.plhs.headD (.user 0)) u
                    gramLoop k s (u.drop 1)
                  else if c == 37 then do
                    match ← markSymbolF s u with
                    | none => .ok { s with rd := endRule s.rd }
                    | some p => gramLoop k p.1 p.2
                  else .error (.error .syntaxError u)) = .ok s' := by
            intro y w hy hx
            obtain ⟨c, e1, e2, e3⟩ := hsym y w hy hx
            rw [e1]
            simp only
            rw [bind_ok]
            refine ⟨_, e2, ?_⟩
            simp only
            rw [bind_ok]
            exact ⟨_, e3, hrec⟩
          cases h5 with
          | sym y _ w _ h9 => exact fin y w h9 (.inl rfl)
          | lhs y _ w _ h9 => exact fin y w h9 (.inr rfl)
          | bar =>
            rw [(peek_some _ 124 (by decide)).2 ⟨by decide, by decide, v, rfl⟩]
            simp only
            rw [bind_ok]
            refine ⟨none, (getSym_none _ _).2 ?_, ?_⟩
            · rintro ⟨c, w, h, h'⟩
              cases h
              unfold NameFirst Letter at h'; omega
            simp only
            rw [if_neg (by decide), if_pos (by decide), bind_ok]
            cases h7 with
            | bar _ h9 => exact ⟨s2, (startRuleF_iff _ _ _ _).2 h9, hrec⟩
          | action tabbed ps _ _ h9 =>
            have hu := actionAt_head h9
            obtain ⟨c, hc, r, rfl⟩ : ∃ c, (c = 123 ∨ c = 61) ∧ ∃ r, u = c :: r := by
              obtain ⟨r, h | h⟩ := hu
              · exact ⟨123, .inl rfl, r, h⟩
              · exact ⟨61, .inr rfl, r, h⟩
            rw [(peek_some (c :: r) c (by omega)).2 ⟨by omega, by omega, r, rfl⟩]
            simp only
            rw [bind_ok]
            refine ⟨none, (getSym_none _ _).2 ?_, ?_⟩
            · rintro ⟨d, w, h, h'⟩
              cases h
              unfold NameFirst Letter at h'; omega
            simp only
            rw [if_pos (by simpa using hc), bind_ok]
            exact ⟨(s2, v), (copyActionF_iff s _ hu s2 v).2 ⟨tabbed, ps, h9, h7⟩, hrec⟩
          | prec y _ w w' _ h9 h10 h11 =>
            have hper : ∃ c r, Percent c ∧ u = c :: r := by
              obtain ⟨p, r, hp, h, -⟩ := h9; exact ⟨p, r, hp, h⟩
            rw [(peek_percent u).2 hper]
            simp only
            rw [bind_ok]
            refine ⟨none, (getSym_none _ _).2 ?_, ?_⟩
            · obtain ⟨p, r, hp, rfl⟩ := hper
              rintro ⟨c, v, h, h'⟩
              cases h
              unfold Percent at hp; unfold NameFirst Letter at h'; omega
            simp only
            rw [if_neg (by decide), if_neg (by decide), if_pos (by decide), bind_ok]
            exact ⟨some (s2, v), (markSymbolF_some s u hper s2 v).2 ⟨y, w, w', h9, h10, h11, h7⟩, hrec⟩

/-! The file -/

/-- what the reader does with the parts of a file -/
def RunFile (F : File) (s' : FSt) : Prop :=
  ∃ d1 d2 s1 s2, runDecls dInit F.decls = some d1 ∧ runDecls d1 F.early = some d2 ∧ runFirst d2 F.first = some s1 ∧ RunToks s1 F.toks s2 ∧
    s' = { s2 with rd := endRule s2.rd }

theorem readText_iff (t : List Nat) (s' : FSt) : readText t = .ok s' ↔ ∃ F, FileAt F t ∧ RunFile F s' := by
  unfold readText rulesSection
  simp only [bind_ok]
  constructor
  · rintro ⟨⟨d1, u⟩, h1, ⟨d2, v⟩, h2, ⟨s1, w⟩, h3, h4⟩
    obtain ⟨ds, h5, h6⟩ := (declLoop_iff _ _ _ _ _ (by omega)).1 h1
    obtain ⟨es, h7, h8⟩ := (advanceLoop_iff _ _ _ _ _ (by simp)).1 h2
    obtain ⟨n, h9, h10⟩ := (firstRule_iff _ _ _ _).1 h3
    obtain ⟨toks, s2, h11, h12, h13⟩ := (gramLoop_iff _ _ _ _ (by simp)).1 h4
    exact ⟨⟨ds, es, n, toks⟩, ⟨u, v, w, h5, h7, h9, h11⟩, d1, d2, s1, s2, h6, h8, h10, h12, h13⟩
  · rintro ⟨F, ⟨u, v, w, h5, h7, h9, h11⟩, d1, d2, s1, s2, h6, h8, h10, h12, h13⟩
    exact ⟨(d1, u), (declLoop_iff _ _ _ _ _ (by omega)).2 ⟨_, h5, h6⟩, (d2, v), (advanceLoop_iff _ _ _ _ _ (by simp)).2 ⟨_, h7, h8⟩,
      (s1, w), (firstRule_iff _ _ _ _).2 ⟨_, h9, h10⟩, (gramLoop_iff _ _ _ _ (by simp)).2 ⟨_, s2, h11, h12, h13⟩⟩

end Verif.Byacc.Rd
