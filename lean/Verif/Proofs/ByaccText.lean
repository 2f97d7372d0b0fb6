import Verif.Spec.ByaccText
import Mathlib.Tactic.Ring
/-
Helper lemmas: the reading functions of byacc find what is written.
-/
set_option autoImplicit false
namespace Verif.Byacc.Rd
open Spec.YText

/-! Characters -/

theorem isSpace_iff (c : Nat) : isSpace c = true ↔ Space c := by simp [isSpace, Space]
theorem isDigit_iff (c : Nat) : isDigit c = true ↔ Digit c := by simp [isDigit, Digit]
theorem isAlpha_iff (c : Nat) : isAlpha c = true ↔ Letter c := by simp [isAlpha, Letter]
theorem isIdent_iff (c : Nat) : isIdent c = true ↔ NameChar c := by
  simp [isIdent, isAlnum, isAlpha_iff, isDigit_iff, NameChar, or_assoc]
theorem nameStart_iff (c : Nat) : nameStart c = true ↔ NameFirst c := by
  simp [nameStart, isAlpha_iff, NameFirst, or_assoc]
theorem isOctal_iff (c : Nat) : isOctal c = true ↔ Octal c := by simp [isOctal, Octal]
theorem isBlank_iff (c : Nat) : isBlank c = true ↔ Blank c := by simp [isBlank, Blank, or_assoc]

theorem str_eq_txt (s : String) : str s = txt s := rfl

/-- `takeWhile`/`dropWhile` as the longest piece -/
theorem span_iff (p : Nat → Bool) (P : Nat → Prop) (hp : ∀ c, p c = true ↔ P c) (t n u : List Nat) :
    (t.takeWhile p = n ∧ t.dropWhile p = u) ↔ (t = n ++ u ∧ (∀ c ∈ n, P c) ∧ NotNext P u) := by
  constructor
  · rintro ⟨rfl, rfl⟩
    refine ⟨(List.takeWhile_append_dropWhile).symm, ?_, ?_⟩
    · intro c hc
      exact (hp c).1 (List.all_eq_true.1 (List.all_takeWhile (p := p) (l := t)) c hc)
    · intro c v hv hc
      have hne : t.dropWhile p ≠ [] := by rw [hv]; simp
      have := List.head_dropWhile_not p hne
      simp only [hv, List.head_cons] at this
      rw [(hp c).2 hc] at this
      cases this
  · rintro ⟨rfl, h1, h2⟩
    have hd : u.takeWhile p = [] ∧ u.dropWhile p = u := by
      cases u with
      | nil => simp
      | cons c v =>
        have : p c = false := by
          have := h2 c v rfl
          rw [← hp] at this
          simpa using this
        simp [this]
    have ha : ∀ c ∈ n, p c = true := fun c hc => (hp c).2 (h1 c hc)
    rw [List.takeWhile_append_of_pos ha, List.dropWhile_append_of_pos ha, hd.1, hd.2]
    simp

theorem decValue_eq (ds : List Nat) : decValue ds = value ds := by
  have h : ∀ (ds : List Nat) (n : Nat), ds.foldl (fun n d => 10 * n + (d - 48)) n = n * 10 ^ ds.length + value ds := by
    intro ds
    induction ds with
    | nil => intro n; simp [value]
    | cons d ds ih =>
      intro n
      rw [List.foldl_cons, ih, value, List.length_cons, Nat.pow_succ]
      ring
  have := h ds 0
  simpa [decValue] using this

/-! White space -/

theorem skipTo_block (ws : Nat → Bool) (a s t : List Nat) (h : ¬ [42, 47] <:+: s ++ [42]) :
    skipTo ws (.block a) (s ++ 42 :: 47 :: t) = skipTo ws .text t := by
  induction s with
  | nil => simp [skipTo]
  | cons c s ih =>
    have hs : ¬ [42, 47] <:+: s ++ [42] := fun hc => h (hc.trans (List.suffix_cons c _).isInfix)
    rw [List.cons_append, skipTo]
    · exact ih hs
    · intro r hr0 hr
      subst hr0
      apply h
      cases s with
      | nil => simp at hr
      | cons d s =>
        simp only [List.cons_append, List.cons.injEq] at hr
        obtain ⟨rfl, -⟩ := hr
        exact ⟨[], s ++ [42], by simp⟩

theorem skipTo_line (ws : Nat → Bool) (s t : List Nat) (h : 10 ∉ s) :
    skipTo ws .line (s ++ 10 :: t) = skipTo ws .text t := by
  induction s with
  | nil => simp [skipTo]
  | cons c s ih =>
    simp only [List.mem_cons, not_or] at h
    have hc : (c == 10) = false := by simpa using fun e => h.1 e.symm
    rw [List.cons_append, skipTo, hc]
    exact ih h.2

theorem skipTo_lineEnd (ws : Nat → Bool) (s : List Nat) (h : 10 ∉ s) : skipTo ws .line s = .ok [] := by
  induction s with
  | nil => simp [skipTo]
  | cons c s ih =>
    simp only [List.mem_cons, not_or] at h
    have hc : (c == 10) = false := by simpa using fun e => h.1 e.symm
    rw [skipTo, hc]
    exact ih h.2

theorem skipTo_here (t : List Nat) (h : Stops t) : skipTo isBlank .text t = .ok t := by
  obtain ⟨h1, h2, h3⟩ := h
  cases t with
  | nil => simp [skipTo]
  | cons c r =>
    have hb : isBlank c = false := by
      have := h1 c r rfl
      rw [← isBlank_iff] at this
      simpa using this
    rw [skipTo, hb]
    · rfl
    · intro r' e1 e2
      apply h2
      rw [e1, e2]; exact ⟨r', rfl⟩
    · intro r' e1 e2
      apply h3
      rw [e1, e2]; exact ⟨r', rfl⟩

theorem nextc_of_skips {t u : List Nat} (h : Skips t u) : nextc t = .ok u := by
  unfold nextc
  induction h with
  | here t h => exact skipTo_here t h
  | blank c t u hc _ ih =>
    rw [skipTo, (isBlank_iff c).2 hc]
    · exact ih
    · intro r' e1
      rw [e1] at hc
      simp [Blank] at hc
    · intro r' e1
      rw [e1] at hc
      simp [Blank] at hc
  | block s t u hs _ ih => rw [skipTo, skipTo_block _ _ _ _ hs]; exact ih
  | line s t u hs _ ih => rw [skipTo, skipTo_line _ _ _ hs]; exact ih
  | lineEnd s hs => rw [skipTo, skipTo_lineEnd _ _ hs]

/-- what `skipTo` finds in each mode -/
def SkipSpec (u : List Nat) : Mode → List Nat → Prop
  | .text, t => Skips t u
  | .block _, t => ∃ s t', t = s ++ 42 :: 47 :: t' ∧ ¬ [42, 47] <:+: s ++ [42] ∧ Skips t' u
  | .line, t => (∃ s t', t = s ++ 10 :: t' ∧ 10 ∉ s ∧ Skips t' u) ∨ (10 ∉ t ∧ u = [])

theorem infix_cons_star {c : Nat} {s : List Nat} (h : ¬ [42, 47] <:+: s ++ [42])
    (h2 : ∀ r, c = 42 → s ++ [42] = 47 :: r → False) : ¬ [42, 47] <:+: c :: (s ++ [42]) := by
  intro hi
  rw [List.infix_cons_iff] at hi
  rcases hi with hi | hi
  · obtain ⟨r, hr⟩ := hi
    simp only [List.cons_append, List.nil_append, List.cons.injEq] at hr
    exact h2 r hr.1.symm hr.2.symm
  · exact h hi

theorem skipTo_spec (u : List Nat) (m : Mode) (t : List Nat) (h : skipTo isBlank m t = .ok u) : SkipSpec u m t := by
  induction m, t using skipTo.induct isBlank with
  | case1 r ih =>
    rw [skipTo] at h
    obtain ⟨s, t', rfl, h1, h2⟩ := ih h
    exact .block s t' u h1 h2
  | case2 r ih =>
    rw [skipTo] at h
    rcases ih h with ⟨s, t', rfl, h1, h2⟩ | ⟨h1, rfl⟩
    · exact .line s t' u h1 h2
    · exact .lineEnd r h1
  | case3 c r hn1 hn2 hws ih =>
    rw [skipTo, if_pos hws] at h <;> first | exact hn1 | exact hn2 | skip
    exact .blank c r u ((isBlank_iff c).1 hws) (ih h)
  | case4 c r hn1 hn2 hws =>
    rw [skipTo, if_neg hws] at h <;> first | exact hn1 | exact hn2 | skip
    cases h
    refine .here _ ⟨?_, ?_, ?_⟩
    · intro d v hv
      simp only [List.cons.injEq] at hv
      rw [← hv.1, ← isBlank_iff]
      exact hws
    · rintro ⟨v, hv⟩
      simp only [List.cons_append, List.nil_append, List.cons.injEq] at hv
      exact hn1 v hv.1.symm hv.2.symm
    · rintro ⟨v, hv⟩
      simp only [List.cons_append, List.nil_append, List.cons.injEq] at hv
      exact hn2 v hv.1.symm hv.2.symm
  | case5 =>
    rw [skipTo] at h
    cases h
    exact .here _ ⟨fun _ _ h => by simp at h, by simp, by simp⟩
  | case6 a r ih =>
    rw [skipTo] at h
    exact ⟨[], r, rfl, by decide, ih h⟩
  | case7 a c r hn ih =>
    rw [skipTo] at h <;> first | exact hn | skip
    obtain ⟨s, t', rfl, h1, h2⟩ := ih h
    refine ⟨c :: s, t', rfl, ?_, h2⟩
    apply infix_cons_star h1
    intro r' hc hr
    cases s with
    | nil => simp at hr
    | cons d s =>
      simp only [List.cons_append, List.cons.injEq] at hr
      exact hn _ hc (by rw [hr.1]; rfl)
  | case8 a => simp [skipTo] at h
  | case9 c r hc ih =>
    rw [skipTo, if_pos hc] at h
    have : c = 10 := by simpa using hc
    exact .inl ⟨[], r, by rw [this]; rfl, by simp, ih h⟩
  | case10 c r hc ih =>
    rw [skipTo, if_neg hc] at h
    have hc' : c ≠ 10 := by simpa using hc
    rcases ih h with ⟨s, t', rfl, h1, h2⟩ | ⟨h1, rfl⟩
    · exact .inl ⟨c :: s, t', rfl, by simp [h1, hc'.symm], h2⟩
    · exact .inr ⟨by simp [h1, hc'.symm], rfl⟩
  | case11 =>
    rw [skipTo] at h
    cases h
    exact .inr ⟨by simp, rfl⟩

theorem nextc_iff (t u : List Nat) : nextc t = .ok u ↔ Skips t u :=
  ⟨fun h => skipTo_spec u .text t h, nextc_of_skips⟩

/-- the character at a place -/
theorem peek_cons (c : Nat) (r : List Nat) : peek (c :: r) = if c = 255 then none else if c = 92 then some 37 else some c := by
  simp [peek]

theorem peek_none (t : List Nat) : peek t = none ↔ AtEnd t := by
  cases t with
  | nil => simp [peek, AtEnd]
  | cons c r =>
    rw [peek_cons]
    constructor
    · intro h
      split at h
      · rename_i hc; exact .inr ⟨r, by rw [hc]⟩
      · split at h <;> cases h
    · rintro (h | ⟨u, h⟩)
      · cases h
      · cases h; simp

/-- for characters other than `%` and byte 255 -/
theorem peek_some (t : List Nat) (c : Nat) (h1 : c ≠ 37) : peek t = some c ↔ c ≠ 92 ∧ c ≠ 255 ∧ ∃ u, t = c :: u := by
  cases t with
  | nil => simp [peek]
  | cons d r =>
    rw [peek_cons]
    constructor
    · intro h
      split at h
      · cases h
      · split at h
        · cases h; exact absurd rfl h1
        · cases h; rename_i h2 h3; exact ⟨h3, h2, r, rfl⟩
    · rintro ⟨h2, h3, u, h⟩
      cases h
      simp [h2, h3]

theorem peek_percent (t : List Nat) : peek t = some 37 ↔ ∃ c u, Percent c ∧ t = c :: u := by
  cases t with
  | nil => simp [peek]
  | cons d r =>
    rw [peek_cons]
    constructor
    · intro h
      split at h
      · cases h
      · split at h
        · rename_i h2; exact ⟨d, r, .inr h2, rfl⟩
        · cases h; exact ⟨37, r, .inl rfl, rfl⟩
    · rintro ⟨c, u, h | h, e⟩ <;> cases e <;> simp [h]

/-- a test of the next character for a class without `%`, `\` and byte 255 -/
theorem peek_any (t : List Nat) (p : Nat → Bool) (P : Nat → Prop) (hp : ∀ c, p c = true ↔ P c)
    (h37 : ¬ P 37) (h92 : ¬ P 92) (h255 : ¬ P 255) : (peek t).any p = true ↔ ∃ c u, t = c :: u ∧ P c := by
  rw [← hp] at h37 h92 h255
  cases t with
  | nil => simp [peek]
  | cons d r =>
    rw [peek_cons]
    constructor
    · intro h
      split at h
      · cases h
      · split at h
        · exact absurd h h37
        · exact ⟨d, r, rfl, (hp d).1 h⟩
    · rintro ⟨c, u, e, hc⟩
      cases e
      rw [← hp] at hc
      have h1 : d ≠ 255 := fun e => h255 (e ▸ hc)
      have h2 : d ≠ 92 := fun e => h92 (e ▸ hc)
      simp [h1, h2, hc]

theorem nextTok_iff (t u : List Nat) : nextTok t = .ok u ↔ Skips t u ∧ ¬ AtEnd u := by
  unfold nextTok
  rcases h : nextc t with e | v
  · simp only [bind, Except.bind]
    constructor
    · intro h; cases h
    · rintro ⟨h1, -⟩
      rw [← nextc_iff, h] at h1; cases h1
  · simp only [bind, Except.bind]
    have hv := (nextc_iff t v).1 h
    constructor
    · intro h2
      split at h2
      · cases h2
      · cases h2
        rename_i h3
        exact ⟨hv, by rw [← peek_none]; simpa using h3⟩
    · rintro ⟨h1, h2⟩
      have : u = v := by
        have := nextc_of_skips h1
        rw [h] at this; cases this; rfl
      subst this
      rw [← peek_none] at h2
      simp [h2]

/-! Keywords -/

theorem keywords_find (name : List Nat) (k : Kw) : kwFind name = some k ↔ ∃ n, (n, k) ∈ keywords ∧ name = txt n := by
  constructor
  · intro h
    unfold kwFind at h
    rw [Option.map_eq_some_iff] at h
    obtain ⟨⟨n, k'⟩, h1, h2⟩ := h
    simp only at h2
    subst h2
    have hm := List.mem_of_find?_eq_some h1
    have he : (str n == name) = true := by simpa using List.find?_some h1
    refine ⟨n, ?_, by have := beq_iff_eq.1 he; exact this.symm⟩
    have : ∀ p ∈ kwNames, p ∈ keywords := by decide
    exact this _ hm
  · rintro ⟨n, h1, rfl⟩
    have : ∀ p ∈ keywords, kwFind (txt p.1) = some p.2 := by decide
    exact this _ h1

/-- what a character of a keyword is looked up as -/
def kwFold (c : Nat) : Nat := if isAlpha c then lower c else if c == 95 then 45 else c

def isKw (c : Nat) : Bool := isAlpha c || (isDigit c || c == 45 || c == 46 || c == 36) || c == 95

theorem isKw_iff (c : Nat) : isKw c = true ↔ KwChar c := by
  simp only [isKw, Bool.or_eq_true, isAlpha_iff, isDigit_iff, beq_iff_eq, KwChar]
  tauto

theorem kwName_eq (t : List Nat) : kwName t = ((t.takeWhile isKw).map kwFold, t.dropWhile isKw) := by
  induction t with
  | nil => rfl
  | cons c r ih =>
    rw [kwName, ih, List.takeWhile_cons, List.dropWhile_cons]
    unfold isKw kwFold
    by_cases h1 : isAlpha c = true
    · simp [h1, kwFold]
    · simp only [h1, Bool.false_eq_true, if_false, Bool.false_or]
      by_cases h2 : (isDigit c || c == 45 || c == 46 || c == 36) = true
      · have : c ≠ 95 := by
          rintro rfl
          revert h2; decide
        simp [h2, this, h1]
      · simp only [h2, Bool.false_eq_true, if_false, Bool.false_or]
        by_cases h3 : (c == 95) = true
        · simp only [beq_iff_eq.1 h3, beq_self_eq_true, if_true, List.map_cons]
          rw [show isAlpha 95 = false by decide]; rfl
        · simp [h3]

theorem keyword_chars : ∀ p ∈ keywords, ∀ c ∈ txt p.1, c = 45 ∨ (97 ≤ c ∧ c ≤ 122) := by decide
theorem keyword_first : ∀ p ∈ keywords, ∃ c r, txt p.1 = c :: r ∧ 97 ≤ c ∧ c ≤ 122 := by
  intro p hp
  have h : ∀ p ∈ keywords, ((txt p.1).head?.any fun c => 97 ≤ c && c ≤ 122) = true := by decide
  have := h p hp
  cases ht : txt p.1 with
  | nil => rw [ht] at this; cases this
  | cons c r =>
    rw [ht] at this
    exact ⟨c, r, rfl, by simpa using this⟩

theorem sameLetter_iff (a b : Nat) (hb : b = 45 ∨ (97 ≤ b ∧ b ≤ 122)) : SameLetter a b ↔ isKw a = true ∧ kwFold a = b := by
  rw [isKw_iff]
  unfold SameLetter kwFold lower KwChar
  by_cases ha : isAlpha a = true
  · rw [if_pos ha]
    rw [isAlpha_iff] at ha
    unfold Letter at *
    simp only [Bool.and_eq_true, decide_eq_true_eq]
    split <;> omega
  · rw [if_neg ha]
    rw [isAlpha_iff] at ha
    unfold Letter Digit at *
    simp only [beq_iff_eq]
    split <;> omega

theorem sameLetters_iff (w n : List Nat) (hn : ∀ c ∈ n, c = 45 ∨ (97 ≤ c ∧ c ≤ 122)) :
    List.Forall₂ SameLetter w n ↔ (∀ c ∈ w, KwChar c) ∧ w.map kwFold = n := by
  induction n generalizing w with
  | nil => cases w <;> simp
  | cons b n ih =>
    cases w with
    | nil => simp
    | cons a w =>
      rw [List.forall₂_cons, ih w (fun c hc => hn c (by simp [hc])), sameLetter_iff a b (hn b (by simp)), isKw_iff]
      simp only [List.mem_cons, forall_eq_or_imp, List.map_cons, List.cons.injEq]
      tauto

theorem keyword_iff (t u : List Nat) (k : Kw) (ht : ∃ c r, Percent c ∧ t = c :: r) : keyword t = .ok (k, u) ↔ KwAt k t u := by
  obtain ⟨p, r, hp, rfl⟩ := ht
  unfold KwAt
  cases r with
  | nil =>
    constructor
    · intro h; simp [keyword] at h
    · rintro ⟨p', w, -, h, h2⟩
      simp only [List.cons.injEq] at h
      have hw : w = [] := by
        have := h.2
        simp at this
        exact this.1
      rcases h2 with ⟨n, h3, h4, -⟩ | ⟨c, h3, -⟩
      · obtain ⟨c, r, hc, -⟩ := keyword_first _ h3
        simp only at hc
        rw [hc, hw] at h4
        cases h4
      · rw [hw] at h3; cases h3
  | cons c r =>
    simp only [keyword]
    by_cases hc : isAlpha c = true
    · rw [if_pos hc, kwName_eq]
      constructor
      · intro h
        split at h
        · rename_i k' hk
          cases h
          rw [keywords_find] at hk
          obtain ⟨n, h1, h2⟩ := hk
          have hs := (span_iff isKw KwChar isKw_iff (c :: r) _ _).1 ⟨rfl, rfl⟩
          refine ⟨p, (c :: r).takeWhile isKw, hp, by rw [← hs.1], .inl ⟨n, h1, ?_, hs.2.2⟩⟩
          rw [sameLetters_iff _ _ (keyword_chars _ h1)]
          exact ⟨hs.2.1, h2⟩
        · cases h
      · rintro ⟨p', w, -, h, h2⟩
        simp only [List.cons.injEq] at h
        rcases h2 with ⟨n, h3, h4, h5⟩ | ⟨d, h3, h4⟩
        · rw [sameLetters_iff _ _ (keyword_chars _ h3)] at h4
          have hs := (span_iff isKw KwChar isKw_iff (c :: r) w u).2 ⟨h.2, h4.1, h5⟩
          have hf : kwFind ((List.takeWhile isKw (c :: r)).map kwFold) = some k := by
            rw [keywords_find]
            exact ⟨n, h3, by rw [hs.1]; exact h4.2⟩
          rw [hf, hs.2]
        · rw [h3] at h
          simp only [List.cons_append, List.nil_append, List.cons.injEq] at h
          rw [← h.2.1] at h4
          exfalso
          have : ∀ q ∈ marks, isAlpha q.1 = false := by decide
          rw [this _ h4] at hc
          cases hc
    · rw [if_neg hc]
      constructor
      · intro h
        have hh : (c, k) ∈ marks ∧ r = u := by
          have hm : ∀ (k' : Kw), (c, k') ∈ marks ∧ r = u → k' = k → (c, k) ∈ marks ∧ r = u := by
            rintro k' h1 rfl; exact h1
          split at h
          · rename_i h1; cases h; simp only [beq_iff_eq] at h1; subst h1; exact ⟨by decide, rfl⟩
          split at h
          · rename_i h1; cases h
            simp only [Bool.or_eq_true, beq_iff_eq] at h1
            rcases h1 with rfl | rfl <;> exact ⟨by decide, rfl⟩
          split at h
          · rename_i h1; cases h; simp only [beq_iff_eq] at h1; subst h1; exact ⟨by decide, rfl⟩
          split at h
          · rename_i h1; cases h; simp only [beq_iff_eq] at h1; subst h1; exact ⟨by decide, rfl⟩
          split at h
          · rename_i h1; cases h; simp only [beq_iff_eq] at h1; subst h1; exact ⟨by decide, rfl⟩
          split at h
          · rename_i h1; cases h; simp only [beq_iff_eq] at h1; subst h1; exact ⟨by decide, rfl⟩
          cases h
        exact ⟨p, [c], hp, by rw [hh.2]; rfl, .inr ⟨c, rfl, hh.1⟩⟩
      · rintro ⟨p', w, -, h, h2⟩
        simp only [List.cons.injEq] at h
        rcases h2 with ⟨n, h3, h4, h5⟩ | ⟨d, h3, h4⟩
        · obtain ⟨c', r', hc', hr⟩ := keyword_first _ h3
          simp only at hc'
          rw [hc'] at h4
          cases h4 with
          | @cons a _ w' _ h6 h7 =>
            simp only [List.cons_append, List.cons.injEq] at h
            exfalso
            apply hc
            rw [isAlpha_iff, h.2.1]
            unfold SameLetter at h6
            unfold Letter
            omega
        · rw [h3] at h
          simp only [List.cons_append, List.nil_append, List.cons.injEq] at h
          obtain ⟨-, rfl, rfl⟩ := h
          simp only [marks, List.mem_cons, Prod.mk.injEq, List.not_mem_nil, or_false] at h4
          rcases h4 with ⟨rfl, rfl⟩ | ⟨rfl, rfl⟩ | ⟨rfl, rfl⟩ | ⟨rfl, rfl⟩ | ⟨rfl, rfl⟩ | ⟨rfl, rfl⟩ | ⟨rfl, rfl⟩ <;> rfl

/-- a comment that starts at `p` and does not end -/
def Unclosed (t : List Nat) (e : Stop) : Prop :=
  ∃ pre rest, t = pre ++ 47 :: 42 :: rest ∧ ¬ [42, 47] <:+: rest ∧ e = .error .unterminatedComment (47 :: 42 :: rest)

theorem Unclosed.cons {t : List Nat} {e : Stop} (c : Nat) (h : Unclosed t e) : Unclosed (c :: t) e := by
  obtain ⟨pre, rest, rfl, h2, h3⟩ := h
  exact ⟨c :: pre, rest, rfl, h2, h3⟩

theorem skipTo_error (m : Mode) (t : List Nat) (e : Stop) (h : skipTo isBlank m t = .error e) :
    Unclosed t e ∨ ∃ a, m = .block a ∧ ¬ [42, 47] <:+: t ∧ e = .error .unterminatedComment a := by
  fun_induction skipTo isBlank m t with
  | case1 r ih =>
    left
    rcases ih h with h | ⟨a, ha, h1, h2⟩
    · exact (h.cons _).cons _
    · cases ha
      exact ⟨[], r, rfl, h1, h2⟩
  | case2 r ih =>
    left
    rcases ih h with h | ⟨a, ha, h1, h2⟩
    · exact (h.cons _).cons _
    · cases ha
  | case3 c r _ _ _ ih =>
    left
    rcases ih h with h | ⟨a, ha, h1, h2⟩
    · exact h.cons _
    · cases ha
  | case4 => cases h
  | case5 => cases h
  | case6 a r ih =>
    left
    rcases ih h with h | ⟨a, ha, h1, h2⟩
    · exact (h.cons _).cons _
    · cases ha
  | case7 a c r hn ih =>
    rcases ih h with h | ⟨a', ha, h1, h2⟩
    · exact .inl (h.cons _)
    · cases ha
      refine .inr ⟨a, rfl, ?_, h2⟩
      intro hi
      rw [List.infix_cons_iff] at hi
      rcases hi with ⟨v, hv⟩ | hi
      · cases hv; exact hn _ rfl rfl
      · exact h1 hi
  | case8 a =>
    right
    cases h
    exact ⟨a, rfl, by simp, rfl⟩
  | case9 c r hc ih =>
    left
    rcases ih h with h | ⟨a, ha, h1, h2⟩
    · exact h.cons _
    · cases ha
  | case10 c r hc ih =>
    left
    rcases ih h with h | ⟨a, ha, h1, h2⟩
    · exact h.cons _
    · cases ha
  | case11 => cases h

theorem nextc_error (t : List Nat) (e : Stop) (h : nextc t = .error e) : Unclosed t e := by
  rcases skipTo_error .text t e h with h | ⟨a, ha, -⟩
  · exact h
  · cases ha

end Verif.Byacc.Rd
