import Verif.Proofs.LemonPreLines
/-
Helper lemmas: `preprocess_input` on properly nested conditionals.
-/
set_option autoImplicit false
namespace Verif.Lemon

/-- a line: a line break at most at its end -/
def LineShape (l : List Nat) : Prop := ∃ b e, l = b ++ e ∧ 10 ∉ b ∧ (e = [] ∨ e = [10])

theorem Broken.shape : ∀ {ls : List (List Nat)}, Broken ls → ∀ l ∈ ls, LineShape l := by
  intro ls
  induction ls with
  | nil => intro _ l h; cases h
  | cons k ls ih =>
    intro h l hl
    rcases List.mem_cons.1 hl with rfl | hl
    · rcases h.1 with ⟨b, h1, h2⟩ | ⟨h1, _⟩
      · exact ⟨b, [10], h1, h2, Or.inr rfl⟩
      · exact ⟨l, [], by simp, h1, Or.inl rfl⟩
    · exact ih h.2 l hl

theorem isEndLine_iff (l : List Nat) : isEndLine l = true ↔ EndLine l := by
  unfold isEndLine EndLine
  rw [Bool.and_eq_true]
  constructor
  · rintro ⟨h1, h2⟩
    obtain ⟨t, rfl⟩ := isPrefixOf_split h1
    cases t with
    | nil => exact absurd h2 (by decide)
    | cons c t =>
      refine ⟨c, t, rfl, ?_⟩
      intro d hd
      rw [List.mem_singleton] at hd
      subst hd
      exact (isSpace_iff _).1 h2
  · rintro ⟨c, t, rfl, h⟩
    refine ⟨by simp [kwEndif, List.isPrefixOf], ?_⟩
    exact (isSpace_iff c).2 (h c (by simp))

theorem isElseLine_iff (l : List Nat) : isElseLine l = true ↔ ElseLine l := by
  unfold isElseLine ElseLine
  rw [Bool.and_eq_true]
  constructor
  · rintro ⟨h1, h2⟩
    obtain ⟨t, rfl⟩ := isPrefixOf_split h1
    cases t with
    | nil => exact absurd h2 (by decide)
    | cons c t =>
      refine ⟨c, t, rfl, ?_⟩
      intro d hd
      rw [List.mem_singleton] at hd
      subst hd
      exact (isSpace_iff _).1 h2
  · rintro ⟨c, t, rfl, h⟩
    refine ⟨by simp [kwElse, List.isPrefixOf], ?_⟩
    exact (isSpace_iff c).2 (h c (by simp))

theorem shape_tail {kw t : List Nat} (h : LineShape (kw ++ t)) (hk : 10 ∉ kw) : LineShape t := by
  induction kw with
  | nil => exact h
  | cons k kw ih =>
    refine ih ?_ fun h => hk (by simp [h])
    obtain ⟨b, e, hb, h10, he⟩ := h
    cases b with
    | nil =>
      rcases he with rfl | rfl
      · simp at hb
      · exfalso
        apply hk
        simp at hb
        simp [hb.1]
    | cons d b =>
      simp only [List.cons_append, List.cons.injEq] at hb
      exact ⟨b, e, hb.2, fun h => h10 (by simp [h]), he⟩

theorem isIfLine_of {l : List Nat} (hs : LineShape l) (h : isIfLine l = true) : ∃ neg cond, IfLine neg cond l := by
  unfold isIfLine at h
  rw [Bool.or_eq_true, Bool.or_eq_true] at h
  rcases h with (h | h) | h
  · obtain ⟨t, rfl⟩ := isPrefixOf_split h
    obtain ⟨b, e, rfl, h10, he⟩ := shape_tail hs (by decide)
    exact ⟨false, b, _, e, Or.inr (Or.inl ⟨rfl, rfl⟩), rfl, h10, he⟩
  · obtain ⟨t, rfl⟩ := isPrefixOf_split h
    obtain ⟨b, e, rfl, h10, he⟩ := shape_tail hs (by decide)
    exact ⟨false, b, _, e, Or.inl ⟨rfl, rfl⟩, rfl, h10, he⟩
  · obtain ⟨t, rfl⟩ := isPrefixOf_split h
    obtain ⟨b, e, rfl, h10, he⟩ := shape_tail hs (by decide)
    exact ⟨true, b, _, e, Or.inr (Or.inr ⟨rfl, rfl⟩), rfl, h10, he⟩

theorem cond_cut {cond e : List Nat} (h : 10 ∉ cond) (he : e = [] ∨ e = [10]) :
    (32 :: (cond ++ e)).takeWhile (· != 10) = 32 :: cond := by
  have : (cond ++ e).takeWhile (· != 10) = cond := by
    induction cond with
    | nil => rcases he with rfl | rfl <;> rfl
    | cons c cond ih =>
      have hc : c ≠ 10 := fun h' => h (by simp [h'])
      simp only [List.cons_append, List.takeWhile_cons]
      rw [if_pos (by simpa using hc), ih fun h' => h (by simp [h'])]
  rw [List.takeWhile_cons, if_pos (by decide), this]

theorem IfLine.facts {neg : Bool} {cond l : List Nat} (h : IfLine neg cond l) :
    isEndLine l = false ∧ isElseLine l = false ∧ isIfLine l = true ∧ condText l = 32 :: cond ∧ (isNotLine l ↔ neg = true) := by
  obtain ⟨kw, e, hk, rfl, h10, he⟩ := h
  have hcut := cond_cut h10 he
  rcases hk with ⟨rfl, rfl⟩ | ⟨rfl, rfl⟩ | ⟨rfl, rfl⟩
  · refine ⟨by simp [isEndLine, kwEndif, List.isPrefixOf], by simp [isElseLine, kwElse, List.isPrefixOf],
      by simp [isIfLine, kwIf, List.isPrefixOf], ?_, ?_⟩
    · unfold condText
      simpa [isSpace] using hcut
    · simp [isNotLine, isSpace]
  · refine ⟨by simp [isEndLine, kwEndif, List.isPrefixOf], by simp [isElseLine, kwElse, List.isPrefixOf],
      by simp [isIfLine, kwIfdef, List.isPrefixOf], ?_, ?_⟩
    · unfold condText
      simpa [isSpace] using hcut
    · simp [isNotLine, isSpace]
  · refine ⟨by simp [isEndLine, kwEndif, List.isPrefixOf], by simp [isElseLine, kwElse, List.isPrefixOf],
      by simp [isIfLine, kwIfndef, List.isPrefixOf], ?_, ?_⟩
    · unfold condText
      simpa [isSpace] using hcut
    · simp [isNotLine, isSpace]

theorem PlainLine.facts {l : List Nat} (hs : LineShape l) (h : PlainLine l) :
    isEndLine l = false ∧ isElseLine l = false ∧ isIfLine l = false := by
  obtain ⟨h1, h2, h3⟩ := h
  refine ⟨?_, ?_, ?_⟩
  · rw [Bool.eq_false_iff]; exact fun h => h1 ((isEndLine_iff l).1 h)
  · rw [Bool.eq_false_iff]; exact fun h => h2 ((isElseLine_iff l).1 h)
  · rw [Bool.eq_false_iff]; exact fun h => h3 (isIfLine_of hs h)

theorem ElseLine.notEnd {l : List Nat} (h : ElseLine l) : isEndLine l = false := by
  obtain ⟨c, t, rfl, _⟩ := h
  simp [isEndLine, kwEndif, List.isPrefixOf]

/-- leading white space does not matter -/
theorem Means.blank {defs : List (List Nat)} {s : List Nat} {b : Bool} {us : List (List Nat)}
    (h : Means defs .condition s b us) : Means defs .condition (32 :: s) b us := by
  have hw : ∀ w : List Nat, Blank w → Blank (32 :: w) := by
    intro w hw c hc
    rcases List.mem_cons.1 hc with rfl | hc
    · exact Or.inl rfl
    · exact hw c hc
  cases h with
  | only w s w' b us h1 h2 h3 => exact .only (32 :: w) s w' b us (hw w h1) h2 h3
  | and w s w' r a b us us' h1 h2 h3 h4 => exact .and (32 :: w) s w' r a b us us' (hw w h1) h2 h3 h4
  | or w s w' r a b us us' h1 h2 h3 h4 => exact .or (32 :: w) s w' r a b us us' (hw w h1) h2 h3 h4

theorem evalBool_means {m : Macros} {s : List Nat} {b : Bool} {us : List (List Nat)}
    (h : Means m.names .condition s b us) : evalBool m s = .ok (b, m.mark us) := by
  rw [evalBool_ev]
  exact ev_taken (s.length + 1) m s false b us 0 (by omega) (h.taken.2 false)

/-! ### steps -/

theorem step_plain {s : LS} {l : List Nat} (hs : LineShape l) (h : PlainLine l) :
    lineStep s l = .ok (if s.ex = 0 then { s with out := s.out ++ l, line := s.line + l.count 10 }
      else { s with pend := s.pend ++ l, line := s.line + l.count 10 }) := by
  obtain ⟨h1, h2, h3⟩ := PlainLine.facts hs h
  unfold lineStep dispatch
  rw [h1, h2, h3, if_neg (by simp), if_neg (by simp), if_neg (by simp)]
  by_cases h0 : s.ex = 0
  · rw [if_pos h0, if_pos h0]; rfl
  · rw [if_neg h0, if_neg h0]; rfl

theorem step_end {s : LS} {l : List Nat} (h : EndLine l) :
    lineStep s l = .ok (if s.ex = 0 then { s with out := s.out ++ blanked l, line := s.line + l.count 10 }
      else if s.ex = 1 then
        { s with out := s.out ++ blanked s.pend ++ blanked l, pend := [], ex := 0, line := s.line + l.count 10 }
      else { s with pend := s.pend ++ blanked l, ex := s.ex - 1, line := s.line + l.count 10 }) := by
  unfold lineStep dispatch
  rw [if_pos ((isEndLine_iff l).2 h)]
  by_cases h0 : s.ex = 0
  · rw [if_pos h0, if_pos h0]; rfl
  · rw [if_neg h0, if_neg h0]
    by_cases h1 : s.ex = 1
    · rw [if_pos h1, if_pos h1]; rfl
    · rw [if_neg h1, if_neg h1]; rfl

theorem step_else {s : LS} {l : List Nat} (h : ElseLine l) :
    lineStep s l = .ok (if s.ex = 1 then
        { s with out := s.out ++ blanked s.pend ++ blanked l, pend := [], ex := 0, line := s.line + l.count 10 }
      else if s.ex = 0 then
        { s with pend := blanked l, ex := 1, startLine := s.line, line := s.line + l.count 10 }
      else { s with pend := s.pend ++ blanked l, line := s.line + l.count 10 }) := by
  unfold lineStep dispatch
  rw [h.notEnd, if_neg (by simp), if_pos ((isElseLine_iff l).2 h)]
  by_cases h1 : s.ex = 1
  · rw [if_pos h1, if_pos h1]; rfl
  · rw [if_neg h1, if_neg h1]
    by_cases h0 : s.ex = 0
    · rw [if_pos h0, if_pos h0]; rfl
    · rw [if_neg h0, if_neg h0]; rfl

theorem step_if_in {s : LS} {l : List Nat} {neg : Bool} {cond : List Nat} (h : IfLine neg cond l) (h0 : s.ex ≠ 0) :
    lineStep s l = .ok { s with pend := s.pend ++ blanked l, ex := s.ex + 1, line := s.line + l.count 10 } := by
  obtain ⟨h1, h2, h3, _⟩ := h.facts
  unfold lineStep dispatch
  rw [h1, h2, if_neg (by simp), if_neg (by simp), if_pos h3, if_neg h0]
  rfl

theorem step_if_eval {s : LS} {l : List Nat} {neg : Bool} {cond : List Nat} (h : IfLine neg cond l) (h0 : s.ex = 0)
    {v : Bool} {m : Macros} (hv : evalBool s.macros (32 :: cond) = .ok (v, m)) :
    lineStep s l = .ok (if v ^^ neg then { s with out := s.out ++ blanked l, macros := m, line := s.line + l.count 10 }
      else { s with pend := blanked l, ex := 1, startLine := s.line, macros := m, line := s.line + l.count 10 }) := by
  obtain ⟨h1, h2, h3, h4, h5⟩ := h.facts
  unfold lineStep dispatch
  rw [h1, h2, if_neg (by simp), if_neg (by simp), if_pos h3, if_pos h0, h4, hv]
  simp only
  cases neg with
  | true =>
    rw [if_pos (h5.2 rfl)]
    cases v <;> rfl
  | false =>
    rw [if_neg (show ¬ isNotLine l from fun h => by simpa using h5.1 h)]
    cases v <;> rfl

theorem step_if_error {s : LS} {l : List Nat} {neg : Bool} {cond : List Nat} (h : IfLine neg cond l) (h0 : s.ex = 0)
    {e : Nat} (hv : evalBool s.macros (32 :: cond) = .error e) : lineStep s l = .error (.syntax s.line (e + 1)) := by
  obtain ⟨h1, h2, h3, h4, h5⟩ := h.facts
  unfold lineStep dispatch
  rw [h1, h2, if_neg (by simp), if_neg (by simp), if_pos h3, if_pos h0, h4, hv]
  rfl

/-! ### bodies -/

theorem foldlM_ok {α β ε : Type} {f : β → α → Except ε β} {b b' : β} {x y : List α}
    (h : x.foldlM f b = .ok b') : (x ++ y).foldlM f b = y.foldlM f b' := by
  rw [List.foldlM_append, h]
  rfl

theorem foldlM_cons_ok {α β ε : Type} {f : β → α → Except ε β} {b b' : β} {a : α} {y : List α}
    (h : f b a = .ok b') : (a :: y).foldlM f b = y.foldlM f b' := by
  rw [List.foldlM_cons, h]
  rfl

/-- excluded text waits -/
theorem body_out {b : Body} : ∀ {s : LS}, b.Proper → (∀ l ∈ b.lines, LineShape l) → s.ex ≠ 0 →
    ∃ x, blanked x = blanked b.raw ∧
      b.lines.foldlM lineStep s = .ok { s with pend := s.pend ++ x, line := s.line + b.raw.count 10 } := by
  induction b with
  | nil => intro s _ _ _; exact ⟨[], rfl, by simp [Body.lines, Body.raw]; rfl⟩
  | text l rest ih =>
    intro s hp hs h0
    have hstep := step_plain (s := s) (hs l (by simp [Body.lines])) hp.1
    rw [if_neg h0] at hstep
    obtain ⟨x, hx, hf⟩ := ih (s := { s with pend := s.pend ++ l, line := s.line + l.count 10 }) hp.2
      (fun k hk => hs k (by simp [Body.lines, hk])) h0
    refine ⟨l ++ x, ?_, ?_⟩
    · rw [blanked_append, hx]
      simp [Body.raw, Body.lines, blanked_append]
    · rw [Body.lines, foldlM_cons_ok hstep, hf]
      simp [Body.raw, Body.lines, Nat.add_assoc]
  | ifEnd o b e rest ihb ihr =>
    intro s hp hs h0
    obtain ⟨⟨neg, cond, ho⟩, hpb, he, hpr⟩ := hp
    have h1 := step_if_in (s := s) ho h0
    obtain ⟨x, hx, hf⟩ := ihb (s := { s with pend := s.pend ++ blanked o, ex := s.ex + 1, line := s.line + o.count 10 }) hpb
      (fun k hk => hs k (by simp [Body.lines, hk])) (by simp)
    have h2 := step_end (s := { s with pend := s.pend ++ blanked o ++ x, ex := s.ex + 1, line := s.line + o.count 10 + b.raw.count 10 }) he
    rw [if_neg (by simp), if_neg (by simpa using h0)] at h2
    obtain ⟨y, hy, hf'⟩ := ihr (s := { s with pend := s.pend ++ blanked o ++ x ++ blanked e, line := s.line + o.count 10 + b.raw.count 10 + e.count 10 }) hpr
      (fun k hk => hs k (by simp [Body.lines, hk])) h0
    refine ⟨blanked o ++ x ++ blanked e ++ y, ?_, ?_⟩
    · simp only [blanked_append, blanked_blanked, hx, hy]
      simp [Body.raw, Body.lines, blanked_append]
    · rw [Body.lines, foldlM_cons_ok h1, foldlM_ok hf, foldlM_cons_ok h2]
      simp only [Nat.add_sub_cancel]
      rw [hf']
      simp [Body.raw, Body.lines, Nat.add_assoc]
  | ifElse o b m b' e rest ihb ihb' ihr =>
    intro s hp hs h0
    obtain ⟨⟨neg, cond, ho⟩, hpb, hm, hpb', he, hpr⟩ := hp
    have h1 := step_if_in (s := s) ho h0
    obtain ⟨x, hx, hf⟩ := ihb (s := { s with pend := s.pend ++ blanked o, ex := s.ex + 1, line := s.line + o.count 10 }) hpb
      (fun k hk => hs k (by simp [Body.lines, hk])) (by simp)
    have hmid := step_else (s := { s with pend := s.pend ++ blanked o ++ x, ex := s.ex + 1, line := s.line + o.count 10 + b.raw.count 10 }) hm
    rw [if_neg (by simpa using h0), if_neg (by simp)] at hmid
    obtain ⟨x', hx', hf''⟩ := ihb' (s := { s with pend := s.pend ++ blanked o ++ x ++ blanked m, ex := s.ex + 1, line := s.line + o.count 10 + b.raw.count 10 + m.count 10 }) hpb'
      (fun k hk => hs k (by simp [Body.lines, hk])) (by simp)
    have h2 := step_end (s := { s with pend := s.pend ++ blanked o ++ x ++ blanked m ++ x', ex := s.ex + 1, line := s.line + o.count 10 + b.raw.count 10 + m.count 10 + b'.raw.count 10 }) he
    rw [if_neg (by simp), if_neg (by simpa using h0)] at h2
    obtain ⟨y, hy, hf'⟩ := ihr (s := { s with pend := s.pend ++ blanked o ++ x ++ blanked m ++ x' ++ blanked e, line := s.line + o.count 10 + b.raw.count 10 + m.count 10 + b'.raw.count 10 + e.count 10 }) hpr
      (fun k hk => hs k (by simp [Body.lines, hk])) h0
    refine ⟨blanked o ++ x ++ blanked m ++ x' ++ blanked e ++ y, ?_, ?_⟩
    · simp only [blanked_append, blanked_blanked, hx, hx', hy]
      simp [Body.raw, Body.lines, blanked_append]
    · rw [Body.lines, foldlM_cons_ok h1, foldlM_ok hf, foldlM_cons_ok hmid, foldlM_ok hf'', foldlM_cons_ok h2]
      simp only [Nat.add_sub_cancel]
      rw [hf']
      simp [Body.raw, Body.lines, Nat.add_assoc]

/-- text that is not excluded is settled as specified -/
theorem body_in {defs : List (List Nat)} {b : Body} {out : List Nat} {us : List (List Nat)} (hk : Keeps defs b out us) :
    ∀ {s : LS}, s.macros.names = defs → b.Proper → (∀ l ∈ b.lines, LineShape l) → s.ex = 0 → s.pend = [] →
    ∃ sl, b.lines.foldlM lineStep s = .ok { s with out := s.out ++ out, line := s.line + b.raw.count 10, startLine := sl, macros := s.macros.mark us } := by
  induction hk with
  | nil => intro s _ _ _ _ _; exact ⟨s.startLine, by simp [Body.lines, Body.raw, Macros.mark]; rfl⟩
  | text l rest out us _ ih =>
    intro s hd hp hs h0 hpend
    have hstep := step_plain (s := s) (hs l (by simp [Body.lines])) hp.1
    rw [if_pos h0] at hstep
    obtain ⟨sl, hf⟩ := ih (s := { s with out := s.out ++ l, line := s.line + l.count 10 }) hd hp.2
      (fun k hk => hs k (by simp [Body.lines, hk])) h0 hpend
    refine ⟨sl, ?_⟩
    rw [Body.lines, foldlM_cons_ok hstep, hf]
    simp [Body.raw, Body.lines, Nat.add_assoc]
  | ifEndYes o b e rest neg v cond out out' us us' us'' ho hv hx _ _ ihb ihr =>
    intro s hd hp hs h0 hpend
    obtain ⟨_, hpb, he, hpr⟩ := hp
    subst hd
    have h1 := step_if_eval (s := s) ho h0 (evalBool_means hv.blank)
    rw [hx, if_pos rfl] at h1
    obtain ⟨sl, hf⟩ := ihb (s := { s with out := s.out ++ blanked o, macros := s.macros.mark us, line := s.line + o.count 10 })
      (mark_names _ _) hpb (fun k hk => hs k (by simp [Body.lines, hk])) h0 hpend
    have h2 := step_end (s := { s with out := s.out ++ blanked o ++ out, macros := (s.macros.mark us).mark us', line := s.line + o.count 10 + b.raw.count 10, startLine := sl }) he
    rw [if_pos h0] at h2
    obtain ⟨sl', hf'⟩ := ihr (s := { s with out := s.out ++ blanked o ++ out ++ blanked e, macros := (s.macros.mark us).mark us', line := s.line + o.count 10 + b.raw.count 10 + e.count 10, startLine := sl })
      ((mark_names _ _).trans (mark_names _ _)) hpr (fun k hk => hs k (by simp [Body.lines, hk])) h0 hpend
    refine ⟨sl', ?_⟩
    rw [Body.lines, foldlM_cons_ok h1, foldlM_ok hf, foldlM_cons_ok h2, hf']
    simp [Body.raw, Body.lines, Nat.add_assoc, mark_append]
  | ifEndNo o b e rest neg v cond out' us us'' ho hv hx _ ihr =>
    intro s hd hp hs h0 hpend
    obtain ⟨_, hpb, he, hpr⟩ := hp
    subst hd
    have h1 := step_if_eval (s := s) ho h0 (evalBool_means hv.blank)
    rw [hx, if_neg (by simp)] at h1
    obtain ⟨x, hxb, hf⟩ := body_out (s := { s with pend := blanked o, ex := 1, startLine := s.line, macros := s.macros.mark us, line := s.line + o.count 10 })
      hpb (fun k hk => hs k (by simp [Body.lines, hk])) (by simp)
    have h2 := step_end (s := { s with pend := blanked o ++ x, ex := 1, startLine := s.line, macros := s.macros.mark us, line := s.line + o.count 10 + b.raw.count 10 }) he
    rw [if_neg (by simp), if_pos rfl] at h2
    obtain ⟨sl', hf'⟩ := ihr (s := { s with out := s.out ++ blanked (blanked o ++ x) ++ blanked e, pend := [], ex := 0, startLine := s.line, macros := s.macros.mark us, line := s.line + o.count 10 + b.raw.count 10 + e.count 10 })
      (mark_names _ _) hpr (fun k hk => hs k (by simp [Body.lines, hk])) rfl rfl
    refine ⟨sl', ?_⟩
    rw [Body.lines, foldlM_cons_ok h1, foldlM_ok hf, foldlM_cons_ok h2, hf']
    simp [Body.raw, Body.lines, Nat.add_assoc, mark_append, blanked_append, blanked_blanked, hxb, h0, hpend]
  | ifElseYes o b m b' e rest neg v cond out out' us us' us'' ho hv hx _ _ ihb ihr =>
    intro s hd hp hs h0 hpend
    obtain ⟨_, hpb, hm, hpb', he, hpr⟩ := hp
    subst hd
    have h1 := step_if_eval (s := s) ho h0 (evalBool_means hv.blank)
    rw [hx, if_pos rfl] at h1
    obtain ⟨sl, hf⟩ := ihb (s := { s with out := s.out ++ blanked o, macros := s.macros.mark us, line := s.line + o.count 10 })
      (mark_names _ _) hpb (fun k hk => hs k (by simp [Body.lines, hk])) h0 hpend
    have hmid := step_else (s := { s with out := s.out ++ blanked o ++ out, macros := (s.macros.mark us).mark us', line := s.line + o.count 10 + b.raw.count 10, startLine := sl }) hm
    rw [if_neg (by simp [h0]), if_pos h0] at hmid
    obtain ⟨x, hxb, hf2⟩ := body_out (b := b') (s := { s with out := s.out ++ blanked o ++ out, pend := blanked m, ex := 1, startLine := s.line + o.count 10 + b.raw.count 10, macros := (s.macros.mark us).mark us', line := s.line + o.count 10 + b.raw.count 10 + m.count 10 })
      hpb' (fun k hk => hs k (by simp [Body.lines, hk])) (by simp)
    have h2 := step_end (s := { s with out := s.out ++ blanked o ++ out, pend := blanked m ++ x, ex := 1, startLine := s.line + o.count 10 + b.raw.count 10, macros := (s.macros.mark us).mark us', line := s.line + o.count 10 + b.raw.count 10 + m.count 10 + b'.raw.count 10 }) he
    rw [if_neg (by simp), if_pos rfl] at h2
    obtain ⟨sl', hf'⟩ := ihr (s := { s with out := s.out ++ blanked o ++ out ++ blanked (blanked m ++ x) ++ blanked e, pend := [], ex := 0, startLine := s.line + o.count 10 + b.raw.count 10, macros := (s.macros.mark us).mark us', line := s.line + o.count 10 + b.raw.count 10 + m.count 10 + b'.raw.count 10 + e.count 10 })
      ((mark_names _ _).trans (mark_names _ _)) hpr (fun k hk => hs k (by simp [Body.lines, hk])) rfl rfl
    refine ⟨sl', ?_⟩
    rw [Body.lines, foldlM_cons_ok h1, foldlM_ok hf, foldlM_cons_ok hmid, foldlM_ok hf2, foldlM_cons_ok h2, hf']
    simp [Body.raw, Body.lines, Nat.add_assoc, mark_append, blanked_append, blanked_blanked, hxb, h0, hpend]
  | ifElseNo o b m b' e rest neg v cond out out' us us' us'' ho hv hx _ _ ihb ihr =>
    intro s hd hp hs h0 hpend
    obtain ⟨_, hpb, hm, hpb', he, hpr⟩ := hp
    subst hd
    have h1 := step_if_eval (s := s) ho h0 (evalBool_means hv.blank)
    rw [hx, if_neg (by simp)] at h1
    obtain ⟨x, hxb, hf⟩ := body_out (s := { s with pend := blanked o, ex := 1, startLine := s.line, macros := s.macros.mark us, line := s.line + o.count 10 })
      hpb (fun k hk => hs k (by simp [Body.lines, hk])) (by simp)
    have hmid := step_else (s := { s with pend := blanked o ++ x, ex := 1, startLine := s.line, macros := s.macros.mark us, line := s.line + o.count 10 + b.raw.count 10 }) hm
    rw [if_pos rfl] at hmid
    obtain ⟨sl, hf2⟩ := ihb (s := { s with out := s.out ++ blanked (blanked o ++ x) ++ blanked m, pend := [], ex := 0, startLine := s.line, macros := s.macros.mark us, line := s.line + o.count 10 + b.raw.count 10 + m.count 10 })
      (mark_names _ _) hpb' (fun k hk => hs k (by simp [Body.lines, hk])) rfl rfl
    have h2 := step_end (s := { s with out := s.out ++ blanked (blanked o ++ x) ++ blanked m ++ out, pend := [], ex := 0, startLine := sl, macros := (s.macros.mark us).mark us', line := s.line + o.count 10 + b.raw.count 10 + m.count 10 + b'.raw.count 10 }) he
    rw [if_pos rfl] at h2
    obtain ⟨sl', hf'⟩ := ihr (s := { s with out := s.out ++ blanked (blanked o ++ x) ++ blanked m ++ out ++ blanked e, pend := [], ex := 0, startLine := sl, macros := (s.macros.mark us).mark us', line := s.line + o.count 10 + b.raw.count 10 + m.count 10 + b'.raw.count 10 + e.count 10 })
      ((mark_names _ _).trans (mark_names _ _)) hpr (fun k hk => hs k (by simp [Body.lines, hk])) rfl rfl
    refine ⟨sl', ?_⟩
    rw [Body.lines, foldlM_cons_ok h1, foldlM_ok hf, foldlM_cons_ok hmid, foldlM_ok hf2, foldlM_cons_ok h2, hf']
    simp [Body.raw, Body.lines, Nat.add_assoc, mark_append, blanked_append, blanked_blanked, hxb, h0, hpend]

/-! ### the marks -/

theorem findIdx_first {names : List (List Nat)} {n : List Nat} {j : Nat} :
    names.findIdx? (· == n) = some j ↔ FirstAt names n j := by
  rw [List.findIdx?_eq_some_iff_getElem]
  constructor
  · rintro ⟨hj, h1, h2⟩
    refine ⟨by rw [List.getElem?_eq_getElem hj, eq_of_beq h1], fun k hk => ?_⟩
    rw [List.getElem?_eq_getElem (by omega)]
    intro h
    exact h2 k hk (by simpa using h)
  · rintro ⟨h1, h2⟩
    obtain ⟨hj, he⟩ := List.getElem?_eq_some_iff.1 h1
    refine ⟨hj, by simp [he], fun k hk h => ?_⟩
    refine h2 k hk ?_
    rw [List.getElem?_eq_getElem (by omega)]
    simpa using h

theorem FirstAt.unique {names : List (List Nat)} {n : List Nat} {i j : Nat} (hi : FirstAt names n i) (hj : FirstAt names n j) :
    i = j := by
  rcases Nat.lt_trichotomy i j with h | h | h
  · exact absurd hi.1 (hj.2 i h)
  · exact h
  · exact absurd hj.1 (hi.2 j h)

theorem lookup_marked (m : Macros) (n : List Nat) : MarkedBy m.names [n] m.used (m.lookup n).2.used := by
  unfold Macros.lookup
  cases h : m.names.findIdx? (· == n) with
  | none =>
    refine ⟨rfl, fun j _ => ⟨Or.inl, ?_⟩⟩
    rintro (h' | ⟨k, hk, hf⟩)
    · exact h'
    · rw [List.mem_singleton] at hk
      subst hk
      rw [findIdx_first.2 hf] at h
      cases h
  | some i =>
    have hi := findIdx_first.1 h
    refine ⟨by simp, fun j hj => ?_⟩
    by_cases hij : i = j
    · subst hij
      simp only [List.getElem?_set_self hj, true_iff]
      exact Or.inr ⟨n, by simp, hi⟩
    · simp only [List.getElem?_set_ne hij]
      constructor
      · exact Or.inl
      · rintro (h' | ⟨k, hk, hf⟩)
        · exact h'
        · rw [List.mem_singleton] at hk
          subst hk
          exact absurd (hi.unique hf) hij

theorem mark_marked (us : List (List Nat)) : ∀ m : Macros, MarkedBy m.names us m.used (m.mark us).used := by
  induction us with
  | nil =>
    intro m
    exact ⟨rfl, fun j _ => ⟨Or.inl, by rintro (h | ⟨k, hk, _⟩); exacts [h, by cases hk]⟩⟩
  | cons n us ih =>
    intro m
    have h1 := lookup_marked m n
    have h2 := ih (m.lookup n).2
    rw [lookup_names] at h2
    refine ⟨h2.1.trans h1.1, fun j hj => ?_⟩
    show ((m.lookup n).2.mark us).used[j]? = some true ↔ _
    rw [h2.2 j (by rw [h1.1]; exact hj), h1.2 j hj]
    constructor
    · rintro ((h | ⟨k, hk, hf⟩) | ⟨k, hk, hf⟩)
      · exact Or.inl h
      · rw [List.mem_singleton] at hk
        exact Or.inr ⟨k, by simp [hk], hf⟩
      · exact Or.inr ⟨k, by simp [hk], hf⟩
    · rintro (h | ⟨k, hk, hf⟩)
      · exact Or.inl (Or.inl h)
      · rcases List.mem_cons.1 hk with rfl | hk
        · exact Or.inl (Or.inr ⟨k, by simp, hf⟩)
        · exact Or.inr ⟨k, hk, hf⟩

/-! ### malformed conditions -/

theorem Means.letter {defs : List (List Nat)} {k : Part} {s : List Nat} {b : Bool} {us : List (List Nat)}
    (h : Means defs k s b us) : ∃ c ∈ s, Letter c := by
  induction h with
  | name n hn =>
    obtain ⟨c, t, rfl, hc, _⟩ := hn
    exact ⟨c, by simp, hc⟩
  | not w s b us _ _ ih => obtain ⟨c, hc, hl⟩ := ih; exact ⟨c, by simp [hc], hl⟩
  | paren s b us _ ih => obtain ⟨c, hc, hl⟩ := ih; exact ⟨c, by simp [hc], hl⟩
  | only w s w' b us _ _ _ ih => obtain ⟨c, hc, hl⟩ := ih; exact ⟨c, by simp [hc], hl⟩
  | and w s w' r a b us us' _ _ _ _ ih _ => obtain ⟨c, hc, hl⟩ := ih; exact ⟨c, by simp [hc], hl⟩
  | or w s w' r a b us us' _ _ _ _ ih _ => obtain ⟨c, hc, hl⟩ := ih; exact ⟨c, by simp [hc], hl⟩

theorem getLast_append_ne {w s : List Nat} {x : Nat} (hw : x ∉ w) (hs : s.getLast? ≠ some x) : (s ++ w).getLast? ≠ some x := by
  intro h
  cases hl : w.getLast? with
  | none =>
    rw [List.getLast?_eq_none_iff] at hl
    rw [hl, List.append_nil] at h
    exact hs h
  | some y =>
    rw [List.getLast?_append, hl] at h
    simp only [Option.some_or, Option.some.injEq] at h
    subst h
    exact hw (List.mem_of_getLast? hl)

theorem getLast_append_ne' {s r : List Nat} {x : Nat} (h0 : r ≠ []) (hr : r.getLast? ≠ some x) : (s ++ r).getLast? ≠ some x := by
  intro h
  cases hl : r.getLast? with
  | none => exact h0 (List.getLast?_eq_none_iff.1 hl)
  | some y =>
    rw [List.getLast?_append, hl] at h
    simp only [Option.some_or, Option.some.injEq] at h
    exact hr (by rw [hl, h])

/-- no condition ends with an operator -/
theorem Means.last {defs : List (List Nat)} {k : Part} {s : List Nat} {b : Bool} {us : List (List Nat)}
    (h : Means defs k s b us) : s ≠ [] ∧ s.getLast? ≠ some 38 := by
  have h38 : ∀ w : List Nat, Blank w → 38 ∉ w := by
    intro w hw h
    have := hw 38 h
    omega
  induction h with
  | name n hn =>
    obtain ⟨c, t, rfl, hc, ht⟩ := hn
    refine ⟨by simp, fun h => ?_⟩
    have hm := List.mem_of_getLast? h
    have : WordChar 38 := by
      rcases List.mem_cons.1 hm with h' | h'
      · exact Or.inl (h' ▸ hc)
      · exact ht 38 h'
    exact absurd rfl (wordChar_ne this).2.2.1
  | not w s b us _ _ ih =>
    refine ⟨by simp, ?_⟩
    rw [← List.cons_append]
    exact getLast_append_ne' ih.1 ih.2
  | paren s b us _ ih =>
    refine ⟨by simp, ?_⟩
    rw [← List.cons_append]
    exact getLast_append_ne' (by simp) (by simp)
  | only w s w' b us _ _ hw' ih =>
    refine ⟨by simp [ih.1], getLast_append_ne (h38 w' hw') (getLast_append_ne' ih.1 ih.2)⟩
  | and w s w' r a b us us' _ _ _ _ _ ih => exact ⟨by simp, getLast_append_ne' ih.1 ih.2⟩
  | or w s w' r a b us us' _ _ _ _ _ ih => exact ⟨by simp, getLast_append_ne' ih.1 ih.2⟩

theorem plain_of {l : List Nat} (h1 : isEndLine l = false) (h2 : isElseLine l = false) (h3 : isIfLine l = false) :
    PlainLine l := by
  refine ⟨fun h => ?_, fun h => ?_, ?_⟩
  · rw [(isEndLine_iff l).2 h] at h1; cases h1
  · rw [(isElseLine_iff l).2 h] at h2; cases h2
  · rintro ⟨neg, cond, h⟩
    rw [h.facts.2.2.1] at h3; cases h3

end Verif.Lemon
