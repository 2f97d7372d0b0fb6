import Verif.Proofs.ByaccAction
/-
Helper lemmas: whole actions are translated as specified.
-/
set_option autoImplicit false
namespace Verif.Byacc.Rd
open Spec.YText

theorem numberAt_length {n : Nat} {t u : List Nat} (h : NumberAt n t u) : u.length < t.length := by
  obtain ⟨ds, h1, -, rfl, -⟩ := h
  have := List.length_pos_iff.2 h1
  simp; omega

theorem refAt_length {named : Bool} {rf : RefTo} {t u : List Nat} (h : RefAt named rf t u) : u.length ≤ t.length := by
  cases h with
  | lhs => simp
  | pos _ _ _ h => exact (numberAt_length h).le
  | neg _ _ _ h =>
    rcases h with h | ⟨-, rfl, -⟩
    · have := numberAt_length h; simp; omega
    · simp
  | name s _ _ _ h => rw [h]; simp

theorem tagRefAt_length {rf : RefTo} {t u : List Nat} (h : TagRefAt rf t u) : u.length ≤ t.length := by
  cases h with
  | lhs => simp
  | pos _ _ _ h => exact (numberAt_length h).le
  | neg _ _ _ h => have := numberAt_length h; simp; omega
  | name s _ _ h => rw [h]; simp

theorem skips_length {t u : List Nat} (h : Skips t u) : u.length ≤ t.length := by
  induction h with
  | here => exact Nat.le_refl _
  | blank => simp; omega
  | block => simp at *; omega
  | line => simp at *; omega
  | lineEnd => simp

theorem nameAt_length {n t u : List Nat} (h : NameAt n t u) : u.length < t.length := by
  obtain ⟨rfl, -, ⟨c, r, rfl, -⟩, -⟩ := h
  simp; omega

theorem tagAt_length {tag t u : List Nat} (h : TagAt tag t u) : u.length < t.length := by
  obtain ⟨t1, t2, t3, rfl, h1, h2, -, h3⟩ := h
  have := skips_length h1
  have := skips_length h3
  have := nameAt_length h2
  simp at *; omega

theorem partAt_length {p : Part} {t u : List Nat} (h : PartAt p t u) : u.length < t.length := by
  cases h with
  | value _ _ _ h => have := refAt_length h; simp; omega
  | tagged _ _ _ _ _ h1 h2 => have := tagAt_length h1; have := tagRefAt_length h2; simp; omega
  | place _ _ _ h => have := refAt_length h; simp; omega
  | ident => simp; omega
  | copied _ _ _ _ _ h => exact h.length

theorem partsOut_cons (X : Types) (tags : Bool) (p : Part) (ps : List Part) (o : List Nat) (tags' : Bool) : PartsOut X tags (p :: ps) o tags' ↔
    ∃ o1 o2 h, PartOut X tags p o1 h ∧ PartsOut X h ps o2 tags' ∧ o = o1 ++ o2 := by
  constructor
  · intro h
    cases h with
    | cons _ h _ _ _ o1 o2 h1 h2 => exact ⟨o1, o2, h, h1, h2, rfl⟩
  · rintro ⟨o1, o2, h, h1, h2, rfl⟩
    exact .cons _ _ _ _ _ _ _ h1 h2

theorem codeOut (X : Types) (tags : Bool) (c o : List Nat) (h : Bool) : PartOut X tags (.code c) o h ↔ h = tags ∧ o = c := by
  constructor
  · intro h
    cases h; exact ⟨rfl, rfl⟩
  · rintro ⟨rfl, rfl⟩; exact .code _ _

theorem partsOut_code (X : Types) (tags : Bool) (c : List Nat) (ps : List Part) (o : List Nat) (tags' : Bool) :
    PartsOut X tags (.code c :: ps) o tags' ↔ ∃ o2, PartsOut X tags ps o2 tags' ∧ o = c ++ o2 := by
  rw [partsOut_cons]
  constructor
  · rintro ⟨o1, o2, h, h1, h2, rfl⟩
    obtain ⟨rfl, rfl⟩ := (codeOut _ _ _ _ _).1 h1
    exact ⟨o2, h2, rfl⟩
  · rintro ⟨o2, h2, rfl⟩
    exact ⟨c, o2, tags, .code _ _, h2, rfl⟩

theorem partsOut_nil (X : Types) (tags : Bool) (o : List Nat) (tags' : Bool) : PartsOut X tags [] o tags' ↔ o = [] ∧ tags' = tags := by
  constructor
  · intro h; cases h; exact ⟨rfl, rfl⟩
  · rintro ⟨rfl, rfl⟩; exact .nil _

/-- a part of code does not look like a reference -/
theorem code_noRef (x : ActCtx) (ht : Bool) {o t u : List Nat} (h : PartAt (.code o) t u) : anyRef x ht t = .ok none := by
  rw [anyRef_none]
  generalize hp : Part.code o = p at h
  cases h with
  | value => cases hp
  | tagged => cases hp
  | place => cases hp
  | ident c s _ h1 =>
    constructor
    · intro r hr hd
      cases hr
      rcases h1 with h1 | h1 | h1
      · unfold Letter at h1; omega
      · omega
      · exact h1.2 hd
    · intro r hr
      cases hr
      unfold Letter at h1; omega
  | copied _ _ _ h1 h2 =>
    constructor
    · intro r hr
      exact absurd (.inr (.inr (.inl rfl))) (h1 36 r hr)
    · exact h2

theorem name1_iff (c : Nat) : isName1 c = true ↔ Letter c ∨ c = 95 ∨ c = 36 := by
  simp [isName1, isAlpha_iff, or_assoc]

theorem actLoop_iff (x : ActCtx) (a : List Nat) (k : Nat) (ht : Bool) (d : Int) (t o u : List Nat) (ht' : Bool) (hk : t.length < k) :
    actLoop x a k ht d t = .ok (o, u, ht') ↔ ∃ ps, PartsAt d ps t u ∧ PartsOut x.types ht ps o ht' := by
  induction k generalizing ht d t o with
  | zero => omega
  | succ k ih =>
    cases t with
    | nil =>
      rw [actLoop]
      refine iff_of_false (fun h => by cases h) ?_
      rintro ⟨ps, h, -⟩
      generalize ht : [] = t at h
      cases h with
      | part _ _ _ _ _ _ h => have := partAt_length h; rw [← ht] at this; simp at this
      | _ => cases ht
    | cons c r =>
      simp only [List.length_cons] at hk
      rw [actLoop, bind_ok]
      constructor
      · rintro ⟨z, h1, h2⟩
        cases z with
        | some y =>
          obtain ⟨o1, v, h⟩ := y
          obtain ⟨p, hp, h3, h4⟩ := (anyRef_some x ht (c :: r) o1 v h).1 h1
          simp only [map_ok] at h2
          obtain ⟨⟨o2, u2, h'⟩, h5, h6⟩ := h2
          cases h6
          have := partAt_length h3
          simp only [List.length_cons] at this
          obtain ⟨ps, h6, h7⟩ := (ih h d v o2 (by omega)).1 h5
          exact ⟨p :: ps, .part _ _ _ _ _ _ h3 h6, (partsOut_cons _ _ _ _ _ _).2 ⟨o1, o2, h, h4, h7, rfl⟩⟩
        | none =>
          have hno := (anyRef_none x ht (c :: r)).1 h1
          simp only at h2
          by_cases hn : Letter c ∨ c = 95 ∨ c = 36
          · rw [if_pos ((name1_iff c).2 hn), map_ok] at h2
            obtain ⟨⟨o2, u2, h'⟩, h5, h6⟩ := h2
            cases h6
            have hsp := (span_iff isName2 IdChar isName2_iff r _ _).1 ⟨rfl, rfl⟩
            have hle : (r.dropWhile isName2).length ≤ r.length := (List.dropWhile_sublist _).length_le
            obtain ⟨ps, h6, h7⟩ := (ih ht d _ o2 (by omega)).1 h5
            refine ⟨.code (c :: r.takeWhile isName2) :: ps, ?_, (partsOut_code _ _ _ _ _ _).2 ⟨o2, h7, rfl⟩⟩
            refine .part _ _ _ _ _ _ ?_ h6
            have := PartAt.ident c (r.takeWhile isName2) (r.dropWhile isName2) ?_ hsp.2.1 hsp.2.2
            · rw [← hsp.1] at this; exact this
            · rw [← hsp.1]
              rcases hn with hn | hn | rfl
              · exact .inl hn
              · exact .inr (.inl hn)
              · exact .inr (.inr ⟨rfl, hno.1 r rfl⟩)
          rw [if_neg (by rw [name1_iff]; exact hn)] at h2
          by_cases h59 : c = 59
          · subst h59
            rw [if_pos (by rfl)] at h2
            by_cases hd : 0 < d
            · rw [if_pos hd, map_ok] at h2
              obtain ⟨⟨o2, u2, h'⟩, h5, h6⟩ := h2
              cases h6
              obtain ⟨ps, h6, h7⟩ := (ih ht d _ o2 (by omega)).1 h5
              exact ⟨_, .semi d ps _ _ hd h6, (partsOut_code _ _ _ _ _ _).2 ⟨o2, h7, rfl⟩⟩
            · rw [if_neg hd] at h2
              cases h2
              exact ⟨_, .semicolon d _ (by omega), (partsOut_code _ _ _ _ _ _).2 ⟨[], .nil _, rfl⟩⟩
          rw [if_neg (by simpa using h59)] at h2
          by_cases h123 : c = 123
          · subst h123
            rw [if_pos (by rfl), map_ok] at h2
            obtain ⟨⟨o2, u2, h'⟩, h5, h6⟩ := h2
            cases h6
            obtain ⟨ps, h6, h7⟩ := (ih ht _ _ o2 (by omega)).1 h5
            exact ⟨_, .opening d ps _ _ h6, (partsOut_code _ _ _ _ _ _).2 ⟨o2, h7, rfl⟩⟩
          rw [if_neg (by simpa using h123)] at h2
          by_cases h125 : c = 125
          · subst h125
            rw [if_pos (by rfl)] at h2
            by_cases hd : 0 < d - 1
            · rw [if_pos hd, map_ok] at h2
              obtain ⟨⟨o2, u2, h'⟩, h5, h6⟩ := h2
              cases h6
              obtain ⟨ps, h6, h7⟩ := (ih ht _ _ o2 (by omega)).1 h5
              exact ⟨_, .closing d ps _ _ (by omega) h6, (partsOut_code _ _ _ _ _ _).2 ⟨o2, h7, rfl⟩⟩
            · rw [if_neg hd] at h2
              cases h2
              exact ⟨_, .last d _ (by omega), (partsOut_code _ _ _ _ _ _).2 ⟨[], .nil _, rfl⟩⟩
          rw [if_neg (by simpa using h125)] at h2
          have hcop : ∀ o v, PieceAt o (c :: r) v → PartAt (.code o) (c :: r) v := by
            intro o v h
            refine .copied o _ _ ?_ hno.2 h
            intro e w he hh
            cases he
            rcases hh with hh | hh | hh | hh | hh | hh
            · exact hn (.inl hh)
            · exact hn (.inr (.inl hh))
            · exact hn (.inr (.inr hh))
            · exact h123 hh
            · exact h125 hh
            · exact h59 hh
          by_cases hq : c = 39 ∨ c = 34
          · rw [if_pos (by simpa using hq), bind_ok] at h2
            obtain ⟨⟨s1, s2⟩, h3, h4⟩ := h2
            simp only [map_ok] at h4
            obtain ⟨⟨o2, u2, h'⟩, h5, h6⟩ := h4
            cases h6
            have hp := (quote_piece c hq _ r s1 s2).1 h3
            have := hp.length
            simp only [List.length_cons] at this
            obtain ⟨ps, h6, h7⟩ := (ih ht _ _ o2 (by omega)).1 h5
            exact ⟨_, .part _ _ _ _ _ _ (hcop _ _ hp) h6, (partsOut_code _ _ _ _ _ _).2 ⟨o2, h7, rfl⟩⟩
          rw [if_neg (by simpa using hq)] at h2
          by_cases h47 : c = 47
          · subst h47
            rw [if_pos (by rfl), bind_ok] at h2
            obtain ⟨⟨s1, s2⟩, h3, h4⟩ := h2
            simp only [map_ok] at h4
            obtain ⟨⟨o2, u2, h'⟩, h5, h6⟩ := h4
            cases h6
            have hp := (slash_piece _ r s1 s2).1 h3
            have := hp.length
            simp only [List.length_cons] at this
            obtain ⟨ps, h6, h7⟩ := (ih ht _ _ o2 (by omega)).1 h5
            exact ⟨_, .part _ _ _ _ _ _ (hcop _ _ hp) h6, (partsOut_code _ _ _ _ _ _).2 ⟨o2, h7, rfl⟩⟩
          rw [if_neg (by simpa using h47), map_ok] at h2
          obtain ⟨⟨o2, u2, h'⟩, h5, h6⟩ := h2
          cases h6
          obtain ⟨ps, h6, h7⟩ := (ih ht _ _ o2 (by omega)).1 h5
          have hp := (char_piece c (fun h => hq (.inl h)) (fun h => hq (.inr h)) h47 r [c] r).2 ⟨rfl, rfl⟩
          exact ⟨_, .part _ _ _ _ _ _ (hcop _ _ hp) h6, (partsOut_code _ _ _ _ _ _).2 ⟨o2, h7, rfl⟩⟩
      · rintro ⟨ps, h1, h2⟩
        generalize htt : c :: r = t at h1
        have plain : ∀ c', c' = 59 ∨ c' = 123 ∨ c' = 125 → anyRef x ht (c' :: r) = .ok none := by
          intro c' hc
          rw [anyRef_none]
          constructor
          · intro v hv; cases hv; omega
          · intro v hv; cases hv; omega
        cases h1 with
        | semicolon _ _ hd =>
          cases htt
          refine ⟨none, plain 59 (by omega), ?_⟩
          obtain ⟨o2, h3, rfl⟩ := (partsOut_code _ _ _ _ _ _).1 h2
          obtain ⟨rfl, rfl⟩ := (partsOut_nil _ _ _ _).1 h3
          simp only
          rw [if_neg (by decide), if_pos (by rfl), if_neg (by omega)]
          rfl
        | last _ _ hd =>
          cases htt
          refine ⟨none, plain 125 (by omega), ?_⟩
          obtain ⟨o2, h3, rfl⟩ := (partsOut_code _ _ _ _ _ _).1 h2
          obtain ⟨rfl, rfl⟩ := (partsOut_nil _ _ _ _).1 h3
          simp only
          rw [if_neg (by decide), if_neg (by decide), if_neg (by decide), if_pos (by rfl), if_neg (by omega)]
          rfl
        | semi _ ps _ _ hd h3 =>
          cases htt
          refine ⟨none, plain 59 (by omega), ?_⟩
          obtain ⟨o2, h4, rfl⟩ := (partsOut_code _ _ _ _ _ _).1 h2
          simp only
          rw [if_neg (by decide), if_pos (by rfl), if_pos hd, map_ok]
          exact ⟨(o2, u, ht'), (ih _ _ _ _ (by omega)).2 ⟨ps, h3, h4⟩, rfl⟩
        | opening _ ps _ _ h3 =>
          cases htt
          refine ⟨none, plain 123 (by omega), ?_⟩
          obtain ⟨o2, h4, rfl⟩ := (partsOut_code _ _ _ _ _ _).1 h2
          simp only
          rw [if_neg (by decide), if_neg (by decide), if_pos (by rfl), map_ok]
          exact ⟨(o2, u, ht'), (ih _ _ _ _ (by omega)).2 ⟨ps, h3, h4⟩, rfl⟩
        | closing _ ps _ _ hd h3 =>
          cases htt
          refine ⟨none, plain 125 (by omega), ?_⟩
          obtain ⟨o2, h4, rfl⟩ := (partsOut_code _ _ _ _ _ _).1 h2
          simp only
          rw [if_neg (by decide), if_neg (by decide), if_neg (by decide), if_pos (by rfl), if_pos (by omega), map_ok]
          exact ⟨(o2, u, ht'), (ih _ _ _ _ (by omega)).2 ⟨ps, h3, h4⟩, rfl⟩
        | part _ p ps _ v _ h3 h4 =>
          subst htt
          have hlen := partAt_length h3
          simp only [List.length_cons] at hlen
          by_cases hp : IsRef p
          · obtain ⟨o1, o2, h, h5, h6, rfl⟩ := (partsOut_cons _ _ _ _ _ _).1 h2
            refine ⟨some (o1, v, h), (anyRef_some x ht _ o1 v h).2 ⟨p, hp, h3, h5⟩, ?_⟩
            simp only [map_ok]
            exact ⟨(o2, u, ht'), (ih _ _ _ _ (by omega)).2 ⟨ps, h4, h6⟩, rfl⟩
          · cases p with
            | value => exact absurd trivial hp
            | place => exact absurd trivial hp
            | code o1 =>
              refine ⟨none, code_noRef x ht h3, ?_⟩
              obtain ⟨o2, h5, rfl⟩ := (partsOut_code _ _ _ _ _ _).1 h2
              simp only
              have hrec := (ih ht d v o2 (by omega)).2 ⟨ps, h4, h5⟩
              generalize htt : c :: r = t at h3
              generalize hpp : Part.code o1 = p at h3
              cases h3 with
              | value => cases hpp
              | tagged => cases hpp
              | place => cases hpp
              | ident c' s _ h6 h7 h8 =>
                cases htt; cases hpp
                rw [if_pos ((name1_iff c).2 (by rcases h6 with h | h | h <;> simp [h]))]
                rw [dropWhile_app isName2_iff h7 h8, takeWhile_app isName2_iff h7 h8, hrec]
                simp [Except.map]
              | copied _ _ _ h6 h7 h8 =>
                subst htt; cases hpp
                have h6 := h6 c r rfl
                simp only [not_or] at h6
                rw [if_neg (by rw [name1_iff]; simp [h6]), if_neg (by simpa using h6.2.2.2.2.2), if_neg (by simpa using h6.2.2.2.1), if_neg (by simpa using h6.2.2.2.2.1)]
                by_cases hq : c = 39 ∨ c = 34
                · rw [if_pos (by simpa using hq), bind_ok]
                  obtain ⟨c', o3, r', rfl, hr⟩ := h8.head
                  cases hr
                  exact ⟨(o3, v), (quote_piece c hq _ r o3 v).2 h8, by simp only [hrec]; simp [Except.map]⟩
                rw [if_neg (by simpa using hq)]
                by_cases h47 : c = 47
                · subst h47
                  rw [if_pos (by rfl), bind_ok]
                  obtain ⟨c', o3, r', rfl, hr⟩ := h8.head
                  cases hr
                  exact ⟨(o3, v), (slash_piece _ r o3 v).2 h8, by simp only [hrec]; simp [Except.map]⟩
                rw [if_neg (by simpa using h47)]
                obtain ⟨rfl, rfl⟩ := (char_piece c (fun h => hq (.inl h)) (fun h => hq (.inr h)) h47 r _ _).1 h8
                rw [hrec]; simp [Except.map]

theorem lineSpace_iff (c : Nat) : (isSpace c && c != 10) = true ↔ LineSpace c := by
  simp [LineSpace, isSpace_iff]

theorem copyBody_iff (x : ActCtx) (ht : Bool) (t o u : List Nat) (ht' : Bool) (h0 : ∃ r, t = 123 :: r ∨ t = 61 :: r) :
    copyBody x ht t = .ok (o, u, ht') ↔ ∃ tabbed ps o', ActionAt tabbed ps t u ∧ PartsOut x.types ht ps o' ht' ∧ o = (if tabbed then [9] else []) ++ o' := by
  -- what follows `=`
  have main : ∀ t1, (((∃ r, t = t1 ∧ t = 123 :: r) ∨ t = 61 :: t1)) →
      actStart t = (let v := t1.dropWhile fun c => isSpace c && c != 10; if v.head? == some 123 then ([9], v) else ([], t1)) := by
    rintro t1 (⟨r, rfl, rfl⟩ | rfl)
    · rfl
    · rfl
  have uniq : ∀ t1 t2, (((∃ r, t = t1 ∧ t = 123 :: r) ∨ t = 61 :: t1)) → (((t = t2 ∧ ∃ r, t = 123 :: r) ∨ t = 61 :: t2)) → t1 = t2 := by
    rintro t1 t2 (⟨r, rfl, h1⟩ | rfl) (⟨rfl, r', h2⟩ | h2)
    · rfl
    · rw [h1] at h2; cases h2
    · cases h2
    · cases h2; rfl
  obtain ⟨t1, ht1⟩ : ∃ t1, ((∃ r, t = t1 ∧ t = 123 :: r) ∨ t = 61 :: t1) := by
    obtain ⟨r, h | h⟩ := h0
    · exact ⟨t, .inl ⟨r, rfl, h⟩⟩
    · exact ⟨r, .inr h⟩
  have ht1' : ((t = t1 ∧ ∃ r, t = 123 :: r) ∨ t = 61 :: t1) := by
    rcases ht1 with ⟨r, h1, h2⟩ | h
    · exact .inl ⟨h1, r, h2⟩
    · exact .inr h
  obtain ⟨hs1, hs2, hs3⟩ := (span_iff _ LineSpace lineSpace_iff t1 _ _).1 ⟨rfl, rfl⟩
  generalize hsp : t1.takeWhile (fun c => isSpace c && c != 10) = sp at hs1 hs2
  generalize hv : t1.dropWhile (fun c => isSpace c && c != 10) = v at hs1 hs3
  unfold copyBody
  rw [main t1 ht1, hv]
  simp only [map_ok]
  by_cases hb : ∃ r, v = 123 :: r
  · obtain ⟨r, rfl⟩ := hb
    simp only [List.head?_cons, beq_self_eq_true, if_true]
    have e : ActionAt true = fun ps t' u => ActionAt true ps t' u := rfl
    constructor
    · rintro ⟨⟨o', u', h'⟩, h1, h2⟩
      cases h2
      obtain ⟨ps, h3, h4⟩ := (actLoop_iff x t _ ht 0 _ o' u ht' (by simp)).1 h1
      exact ⟨true, ps, o', ⟨t1, ht1', .inl ⟨rfl, sp, r, hs1, hs2, h3⟩⟩, h4, rfl⟩
    · rintro ⟨tabbed, ps, o', ⟨t2, h1, h2⟩, h3, rfl⟩
      have := uniq t1 t2 ht1 h1
      subst this
      rcases h2 with ⟨rfl, sp', r', h4, h5, h6⟩ | ⟨rfl, h4, -⟩
      · have e1 := dropWhile_app (P := LineSpace) lineSpace_iff h5 (notNext_cons (c := 123) (r := r') (by unfold LineSpace Space; omega))
        rw [← h4, hv] at e1
        cases e1
        exact ⟨(o', u, ht'), (actLoop_iff x t _ ht 0 _ o' u ht' (by simp)).2 ⟨ps, h6, h3⟩, rfl⟩
      · exact absurd ⟨sp, r, hs1, hs2⟩ h4
  · have hh : (v.head? == some 123) = false := by
      cases v with
      | nil => rfl
      | cons c r =>
        have : c ≠ 123 := by rintro rfl; exact hb ⟨r, rfl⟩
        simpa using this
    simp only [hh, Bool.false_eq_true, if_false]
    have hno : ¬ ∃ sp r, t1 = sp ++ 123 :: r ∧ ∀ c ∈ sp, LineSpace c := by
      rintro ⟨sp', r', h4, h5⟩
      have e1 := dropWhile_app (P := LineSpace) lineSpace_iff h5 (notNext_cons (c := 123) (r := r') (by unfold LineSpace Space; omega))
      rw [← h4, hv] at e1
      exact hb ⟨r', e1⟩
    constructor
    · rintro ⟨⟨o', u', h'⟩, h1, h2⟩
      cases h2
      obtain ⟨ps, h3, h4⟩ := (actLoop_iff x t _ ht 0 _ o' u ht' (by simp)).1 h1
      exact ⟨false, ps, o', ⟨t1, ht1', .inr ⟨rfl, hno, h3⟩⟩, h4, rfl⟩
    · rintro ⟨tabbed, ps, o', ⟨t2, h1, h2⟩, h3, rfl⟩
      have := uniq t1 t2 ht1 h1
      subst this
      rcases h2 with ⟨rfl, sp', r', h4, h5, h6⟩ | ⟨rfl, -, h6⟩
      · exact absurd ⟨sp', r', h4, h5⟩ hno
      · exact ⟨(o', u, ht'), (actLoop_iff x t _ ht 0 _ o' u ht' (by simp)).2 ⟨ps, h6, h3⟩, rfl⟩

/-! Actions without references -/

/-- the part is code -/
def isCode : Part → Bool
  | .code _ => true
  | _ => false

theorem partAt_mem {p : Part} {t u : List Nat} (h : PartAt p t u) (c : Nat) (hc : c ∈ u) : c ∈ t := by
  have pre : ∀ {a b : List Nat}, (∃ s, a = s ++ b) → c ∈ b → c ∈ a := by rintro a b ⟨s, rfl⟩ h; simp [h]
  have skp : ∀ {a b : List Nat}, Skips a b → c ∈ b → c ∈ a := by
    intro a b h
    induction h with
    | here => exact id
    | blank _ _ _ _ _ ih => intro h; simp [ih h]
    | block _ _ _ _ _ ih => intro h; simp [ih h]
    | line _ _ _ _ _ ih => intro h; simp [ih h]
    | lineEnd => intro h; cases h
  have num : ∀ {n : Nat} {a b : List Nat}, NumberAt n a b → c ∈ b → c ∈ a := by
    rintro n a b ⟨ds, -, -, rfl, -⟩ h; simp [h]
  cases h with
  | value r t _ h =>
    cases h with
    | lhs => simp [hc]
    | pos _ _ _ h => simp [num h hc]
    | neg _ _ _ h =>
      rcases h with h | ⟨-, rfl, -⟩
      · simp [num h hc]
      · simp [hc]
    | name s _ _ _ h => rw [h]; simp [hc]
  | tagged tag r t w _ h1 h2 =>
    obtain ⟨t1, t2, t3, rfl, a, b, -, d⟩ := h1
    have hw : c ∈ w := by
      cases h2 with
      | lhs => simp [hc]
      | pos _ _ _ h => exact num h hc
      | neg _ _ _ h => simp [num h hc]
      | name s _ _ h => rw [h]; simp [hc]
    have := skp d (by simp [hw])
    have : c ∈ t2 := by rw [b.1]; simp [this]
    simp [skp a this]
  | place r t _ h =>
    cases h with
    | lhs => simp [hc]
    | pos _ _ _ h => simp [num h hc]
    | neg _ _ _ h =>
      rcases h with h | ⟨-, rfl, -⟩
      · simp [num h hc]
      · simp [hc]
    | name s _ _ h => cases h
  | ident c' s _ => simp [hc]
  | copied o _ _ _ _ h =>
    cases h with
    | string => simp [hc]
    | block => simp [hc]
    | line => simp [hc]
    | char => simp [hc]

/-- code without `$` and `@` contains no references -/
theorem partsAt_isCode {d : Int} {ps : List Part} {t u : List Nat} (h : PartsAt d ps t u) : 36 ∉ t → 64 ∉ t → ∀ p ∈ ps, isCode p = true := by
  induction h with
  | semicolon | last => intro _ _ p hp; simp at hp; subst hp; rfl
  | semi d ps t u _ _ ih | opening d ps t u _ ih | closing d ps t u _ _ ih =>
    intro h1 h2 p hp
    simp at h1 h2
    rcases List.mem_cons.1 hp with rfl | hp
    · rfl
    · exact ih h1 h2 p hp
  | part d p ps t u v h _ ih =>
    intro h1 h2 q hq
    rcases List.mem_cons.1 hq with rfl | hq
    · cases h with
      | value | tagged | place => simp at h1 h2
      | ident => rfl
      | copied => rfl
    · exact ih (fun h' => h1 (partAt_mem h _ h')) (fun h' => h2 (partAt_mem h _ h')) q hq

theorem actionAt_isCode {tabbed : Bool} {ps : List Part} {t u : List Nat} (h : ActionAt tabbed ps t u) (h1 : 36 ∉ t) (h2 : 64 ∉ t) :
    ∀ p ∈ ps, isCode p = true := by
  obtain ⟨t1, h3, h4⟩ := h
  have e : 36 ∉ t1 ∧ 64 ∉ t1 := by
    rcases h3 with ⟨rfl, -⟩ | rfl
    · exact ⟨h1, h2⟩
    · simp at h1 h2; exact ⟨h1, h2⟩
  rcases h4 with ⟨-, sp, r, h5, -, h⟩ | ⟨-, -, h⟩
  · rw [h5] at e
    exact partsAt_isCode h (fun h => e.1 (List.mem_append_right _ h)) (fun h => e.2 (List.mem_append_right _ h))
  · exact partsAt_isCode h e.1 e.2

theorem partsOut_isCode {x : Types} {tags : Bool} {ps : List Part} {o : List Nat} {tags' : Bool} (hc : ∀ p ∈ ps, isCode p = true)
    (h : PartsOut x tags ps o tags') (y : Types) (b : Bool) : PartsOut y b ps o b ∧ tags' = tags := by
  induction h with
  | nil => exact ⟨.nil _, rfl⟩
  | cons t1 t2 t3 p ps o os h1 h2 ih =>
    obtain ⟨i1, i2⟩ := ih (fun q hq => hc q (by simp [hq]))
    have hp := hc p (by simp)
    cases h1 with
    | code o => exact ⟨.cons _ _ _ _ _ _ _ (.code _ _) i1, i2⟩
    | plain | typed | tagged | here | place => cases hp

end Verif.Byacc.Rd
