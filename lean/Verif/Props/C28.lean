import Verif.Byacc.Names
import Mathlib.Data.List.Nodup
/-
C28 — converted token names are distinct; C29 — no undefined behaviour in the conversion;
C51 — quoting round-trips; C59 — tokens and nonterminals are kept apart; C60 — literals
(byacc/reader.c: get_literal, protect_string, get_lemon_token_name, get_lemon_rule_name).
-/
set_option autoImplicit false
namespace Verif.Byacc

/-! ## C51 -/

/-- Reading the body of a C string constant up to the closing quote: the characters meant and the
text after the quote.  A backslash makes the next character stand for itself (the only escapes
concerned here are `\\` and `\"`). -/
def readQuoted : List Nat → Option (List Nat × List Nat)
  | [] => none
  | 34 :: rest => some ([], rest)
  | 92 :: c :: rest => (readQuoted rest).map fun p => (c :: p.1, p.2)
  | c :: rest => (readQuoted rest).map fun p => (c :: p.1, p.2)

/-- C51: quoting any string and reading it back as the body of a string constant gives the string;
the constant ends exactly at the closing quote.  The result fits the allocated buffer, and only
quotes and backslashes are escaped. -/
theorem C51_roundtrip (s rest : List Nat) :
    readQuoted (protectString s ++ 34 :: rest) = some (s, rest) ∧
    (protectString s).length + 1 = protectLen s ∧
    (protectString s).length = s.length + s.count 92 + s.count 34 := by
  induction s with
  | nil => simp [protectString, protectLen, readQuoted]
  | cons c s ih =>
    obtain ⟨i1, i2, i3⟩ := ih
    by_cases h1 : c = 92
    · subst h1
      simp [protectString, protectLen, readQuoted, i1]
      omega
    · by_cases h2 : c = 34
      · subst h2
        simp [protectString, protectLen, readQuoted, i1]
        omega
      · have e : (92 == c || 34 == c) = false := by simp; omega
        simp only [protectString, protectLen, e, Bool.false_eq_true, if_false, List.cons_append, List.length_cons]
        refine ⟨?_, by omega, ?_⟩
        · have : ∀ r, readQuoted (c :: r) = (readQuoted r).map fun p => (c :: p.1, p.2) := by
            intro r
            conv_lhs => unfold readQuoted
            split
            · rename_i h; cases h
            · rename_i h; cases h; exact absurd rfl h2
            · rename_i h; cases h; exact absurd rfl h1
            · rename_i h; cases h; rfl
          rw [this, i1]; rfl
        · rw [List.count_cons_of_ne (by simpa using h1), List.count_cons_of_ne (by simpa using h2)]
          omega

example : protectString [97, 34, 92, 98] = [97, 92, 34, 92, 92, 98] := by decide

/-! ## C60 -/

/-- The character meant by a backslash and `a`. -/
def escapeMeaning (a : Nat) : Nat :=
  if a = 97 then 7 else if a = 98 then 8 else if a = 102 then 12 else if a = 110 then 10
  else if a = 114 then 13 else if a = 116 then 9 else if a = 118 then 11 else a

/-- The meaning of a literal's name between its quotes: a backslash is followed by three octal
digits, by one of the letters `abfnrtv`, or by the character itself. -/
def nameMeaning : List Nat → List Nat
  | [] => []
  | c :: rest =>
    if c ≠ 92 then c :: nameMeaning rest
    else if 48 ≤ rest.headD 0 ∧ rest.headD 0 < 56 then
      ((rest.headD 0 - 48) * 64 + (rest.getD 1 0 - 48) * 8 + (rest.getD 2 0 - 48)) :: nameMeaning (rest.drop 3)
    else escapeMeaning (rest.headD 0) :: nameMeaning (rest.drop 1)
termination_by l => l.length
decreasing_by all_goals simp <;> omega

theorem nameMeaning_plain (c : Nat) (rest : List Nat) (h : c ≠ 92) : nameMeaning (c :: rest) = c :: nameMeaning rest := by
  rw [nameMeaning, if_pos h]

theorem nameMeaning_esc (a : Nat) (rest : List Nat) (h : ¬ (48 ≤ a ∧ a < 56)) :
    nameMeaning (92 :: a :: rest) = escapeMeaning a :: nameMeaning rest := by
  rw [nameMeaning, if_neg (by simp), if_neg (by simpa using h)]; rfl

theorem nameMeaning_oct (a b d : Nat) (rest : List Nat) (h : 48 ≤ a ∧ a < 56) :
    nameMeaning (92 :: a :: b :: d :: rest) = ((a - 48) * 64 + (b - 48) * 8 + (d - 48)) :: nameMeaning rest := by
  rw [nameMeaning, if_neg (by simp), if_pos (by simpa using h)]; rfl

theorem nameMeaning_cons (q c : Nat) (hq : q = 39 ∨ q = 34) (hc : c < 256) (rest : List Nat) :
    nameMeaning (litChar q c ++ rest) = c :: nameMeaning rest := by
  unfold litChar
  by_cases h1 : c = 92 ∨ c = q
  · rw [if_pos (by simpa using h1)]
    simp only [List.cons_append, List.nil_append]
    rw [nameMeaning_esc c rest (by omega)]
    congr 1
    rcases h1 with rfl | rfl
    · rfl
    · rcases hq with rfl | rfl <;> rfl
  · rw [if_neg (by simpa using h1)]
    push Not at h1
    by_cases h2 : isPrint c = true
    · rw [if_pos h2]
      exact nameMeaning_plain c rest h1.1
    · rw [if_neg h2]
      by_cases e7 : c = 7
      · subst e7; exact nameMeaning_esc 97 rest (by omega)
      by_cases e8 : c = 8
      · subst e8; exact nameMeaning_esc 98 rest (by omega)
      by_cases e12 : c = 12
      · subst e12; exact nameMeaning_esc 102 rest (by omega)
      by_cases e10 : c = 10
      · subst e10; exact nameMeaning_esc 110 rest (by omega)
      by_cases e13 : c = 13
      · subst e13; exact nameMeaning_esc 114 rest (by omega)
      by_cases e9 : c = 9
      · subst e9; exact nameMeaning_esc 116 rest (by omega)
      by_cases e11 : c = 11
      · subst e11; exact nameMeaning_esc 118 rest (by omega)
      simp only [beq_iff_eq, e7, e8, e12, e10, e13, e9, e11, if_false, List.cons_append, List.nil_append]
      rw [nameMeaning_oct _ _ _ _ (by omega)]
      congr 1
      omega

/-- C60: the name of a literal determines the literal: reading it back gives the characters (for all
strings of bytes).  Hence different literals are different symbols. -/
theorem C60_literal_names (s : List Nat) (hs : ∀ c ∈ s, c < 256) :
    ∃ q, (q = if s.length = 1 then 39 else 34) ∧
      ∃ body, litName s = q :: body ++ [q] ∧ nameMeaning body = s := by
  refine ⟨_, rfl, s.flatMap (litChar (if s.length = 1 then 39 else 34)), by simp [litName], ?_⟩
  generalize hq : (if s.length = 1 then 39 else 34) = q
  have hq' : q = 39 ∨ q = 34 := by rw [← hq]; split <;> simp
  clear hq
  induction s with
  | nil => simp [nameMeaning]
  | cons c s ih =>
    rw [List.flatMap_cons, nameMeaning_cons q c hq' (hs c (by simp)), ih (fun d hd => hs d (by simp [hd]))]

theorem C60_literals_distinct (s t : List Nat) (hs : ∀ c ∈ s, c < 256) (ht : ∀ c ∈ t, c < 256)
    (h : litName s = litName t) : s = t := by
  obtain ⟨q, _, b, h1, h2⟩ := C60_literal_names s hs
  obtain ⟨q', _, b', h1', h2'⟩ := C60_literal_names t ht
  rw [h1, h1'] at h
  have hb : b = b' := by
    have h := List.append_inj' h rfl
    have := h.1
    simp only [List.cons.injEq] at this
    exact this.2
  rw [← h2, ← h2', hb]

/-- `"a\n"`, `'\''` and `'\001'` -/
example : litName [97, 10] = [34, 97, 92, 110, 34] ∧ litName [39] = [39, 92, 39, 39] ∧
    litName [1] = [39, 92, 48, 48, 49, 39] ∧ litName [34] = [39, 34, 39] := by decide

/-! ## C29 -/

theorem asciiNames_length : asciiNames.length = 128 := by decide +kernel

theorem charName_some (ch : Int) (h : 0 ≤ ch) : charName ch ≠ none := by
  unfold charName
  split
  · have : ch.toNat < asciiNames.length := by rw [asciiNames_length]; omega
    rw [List.getElem?_eq_getElem this]
    simp
  · simp

/-- What the conversion does with the character literal `c`. -/
theorem lemonTokenName_char (c : Nat) (hc : c < 256) :
    lemonTokenName (litName [c]) = none ↔ c = 7 ∨ c = 8 := by
  have key : ∀ c < 256, (decide (lemonTokenName (litName [c]) = none) = true ↔ c = 7 ∨ c = 8) := by decide +kernel
  simpa using key c hc

theorem cAt_getD (s : List Nat) (i : Nat) (h : i ≤ s.length) : cAt s i = some (s.getD i 0) := by
  unfold cAt
  split
  · rename_i h'
    rw [List.getD_eq_getElem?_getD, List.getElem?_eq_getElem h']; rfl
  · rw [if_pos (by omega), List.getD_eq_getElem?_getD, List.getElem?_eq_none (by omega)]; rfl

/-- C29 (partial): the conversion of an identifier never reads outside of an array, and that of a
literal does so exactly for the two character literals `'\a'` and `'\b'`.  Missing for the full
claim: these two. -/
theorem C29_defined_partial :
    (∀ (c : Nat) (s : List Nat), c ≠ 39 → lemonTokenName (c :: s) ≠ none) ∧
    (∀ s : List Nat, (∀ c ∈ s, c < 256) → (lemonTokenName (litName s) = none ↔ s = [7] ∨ s = [8])) := by
  have hid : ∀ (c : Nat) (s : List Nat), c ≠ 39 → lemonTokenName (c :: s) ≠ none := by
    intro c s hc
    unfold lemonTokenName
    rw [cAt_getD _ _ (by simp)]
    have hb : (c == 39) = false := by simpa using hc
    simp only [List.getD_cons_zero, Option.bind_eq_bind, Option.bind_some, hb, Bool.false_eq_true, if_false]
    split
    · simp
    · split
      · simp
      · split <;> simp
  refine ⟨hid, ?_⟩
  intro s hs
  by_cases hl : s.length = 1
  · obtain ⟨c, rfl⟩ := List.length_eq_one_iff.1 hl
    rw [lemonTokenName_char c (hs c (by simp))]
    simp
  · have : lemonTokenName (litName s) ≠ none := by
      have e : (s.length == 1) = false := by simpa using hl
      have : litName s = 34 :: (s.flatMap (litChar 34) ++ [34]) := by simp [litName, e]
      rw [this]
      exact hid _ _ (by omega)
    constructor
    · intro h; exact absurd h this
    · rintro (rfl | rfl) <;> simp at hl

/-- C29 is violated: `'\a'` (byte 7) makes the conversion read `ygv_ascii_names_st[-1]`. -/
theorem C29_violated : ∃ s : List Nat, (∀ c ∈ s, c < 256) ∧ lemonTokenName (litName s) = none :=
  ⟨[7], by decide, by decide +kernel⟩

/-! ## C28 -/

/-- Names for which the conversion is faithful: identifiers without dots, of at most 60 characters
that start with a lower-case letter, or with an upper-case letter but not with `Tk_`; and literals
of one printable character other than lower-case letters, quote and backslash. -/
inductive PlainName : List Nat → Prop
  | upper (c : Nat) (s : List Nat) (hc : isUpper c = true) (hp : ¬ tk <+: c :: s) (hd : 46 ∉ c :: s) (hl : (c :: s).length ≤ 63) :
      PlainName (c :: s)
  | lower (c : Nat) (s : List Nat) (hc : isLower c = true) (hd : 46 ∉ c :: s) (hl : (c :: s).length ≤ 60) : PlainName (c :: s)
  | literal (c : Nat) (hp : isPrint c = true) (hl : isLower c = false) (h1 : c ≠ 39) (h2 : c ≠ 92) : PlainName (litName [c])

theorem noDots_self (s : List Nat) (h : 46 ∉ s) : noDots s = s := by
  unfold noDots
  conv_rhs => rw [← List.map_id s]
  apply List.map_congr_left
  intro a ha
  have : a ≠ 46 := fun h' => h (h' ▸ ha)
  simp [this]

theorem plain_upper {c : Nat} {s : List Nat} (hc : isUpper c = true) (hd : 46 ∉ c :: s) (hl : (c :: s).length ≤ 63) :
    lemonTokenName (c :: s) = some (c :: s) := by
  simp only [isUpper, Bool.and_eq_true, decide_eq_true_eq] at hc
  unfold lemonTokenName
  rw [cAt_getD _ _ (by simp)]
  have e1 : (c == 39) = false := by simp; omega
  have e2 : (c == 34) = false := by simp; omega
  have e3 : (c == 46 || c == 95) = false := by simp; omega
  have e4 : isLower c = false := by simp [isLower]; omega
  simp only [List.getD_cons_zero, Option.bind_eq_bind, Option.bind_some, e1, e2, e3, e4, Bool.false_eq_true, if_false]
  rw [trunc, List.take_of_length_le hl, noDots_self _ hd]

theorem plain_lower {c : Nat} {s : List Nat} (hc : isLower c = true) (hd : 46 ∉ c :: s) (hl : (c :: s).length ≤ 60) :
    lemonTokenName (c :: s) = some (tk ++ c :: s) := by
  have hc' := hc
  simp only [isLower, Bool.and_eq_true, decide_eq_true_eq] at hc
  unfold lemonTokenName
  rw [cAt_getD _ _ (by simp)]
  have e1 : (c == 39) = false := by simp; omega
  have e2 : (c == 34) = false := by simp; omega
  have e3 : (c == 46 || c == 95) = false := by simp; omega
  simp only [List.getD_cons_zero, Option.bind_eq_bind, Option.bind_some, e1, e2, e3, hc', Bool.false_eq_true, if_false, if_true]
  rw [trunc, List.take_of_length_le (by simp [tk] at hl ⊢; omega), noDots_self]
  simp only [tk, List.cons_append, List.nil_append, List.mem_cons, not_or]
  simp only [List.mem_cons, not_or] at hd
  exact ⟨by omega, by omega, by omega, hd⟩

theorem plain_char : ∀ c < 128, isPrint c = true → isLower c = false → c ≠ 39 → c ≠ 92 →
    (match lemonTokenName (litName [c]) with
      | some n => n == tk ++ asciiNames.getD c [] && !isLower ((asciiNames.getD c []).headD 0) && !(asciiNames.getD c []).isEmpty
      | none => false) = true := by
  decide +kernel

theorem asciiNames_nodup : asciiNames.Nodup := by decide +kernel

/-- C28 (partial): different plain names are converted to different names.  Missing for the full
claim: names outside of this class, for which it is false. -/
theorem C28_distinct_partial (x y : List Nat) (hx : PlainName x) (hy : PlainName y) :
    lemonTokenName x ≠ none ∧ (lemonTokenName x = lemonTokenName y → x = y) := by
  have hchar : ∀ c, isPrint c = true → isLower c = false → c ≠ 39 → c ≠ 92 →
      c < 127 ∧ ∃ a t, lemonTokenName (litName [c]) = some (tk ++ a :: t) ∧ isLower a = false ∧ asciiNames[c]? = some (a :: t) := by
    intro c h1 h2 h3 h4
    have hlt : c < 127 := by simp only [isPrint, Bool.and_eq_true, decide_eq_true_eq] at h1; omega
    refine ⟨hlt, ?_⟩
    have := plain_char c (by omega) h1 h2 h3 h4
    have hget : asciiNames[c]? = some (asciiNames.getD c []) := by
      rw [List.getD_eq_getElem?_getD, List.getElem?_eq_getElem (by rw [asciiNames_length]; omega)]; rfl
    split at this
    · rename_i n hn
      rw [Bool.and_eq_true, Bool.and_eq_true] at this
      obtain ⟨⟨t1, t2⟩, t3⟩ := this
      rw [hget]
      rcases hA : asciiNames.getD c [] with _ | ⟨a, t⟩
      · rw [hA] at t3; simp at t3
      · rw [hA] at t1 t2
        refine ⟨a, t, ?_, by simpa using t2, rfl⟩
        rw [hn]; congr 1; simpa using t1
    · cases this
  have hnd := asciiNames_nodup
  constructor
  · cases hx with
    | upper c s hc hp hd hl => rw [plain_upper hc hd hl]; simp
    | lower c s hc hd hl => rw [plain_lower hc hd hl]; simp
    | literal c hp hl h1 h2 =>
      obtain ⟨_, a, t, e, _⟩ := hchar c hp hl h1 h2
      rw [e]; simp
  · intro h
    cases hx with
    | upper c s hc hp hd hl =>
      rw [plain_upper hc hd hl] at h
      cases hy with
      | upper c' s' hc' hp' hd' hl' => rw [plain_upper hc' hd' hl'] at h; simpa using h
      | lower c' s' hc' hd' hl' =>
        rw [plain_lower hc' hd' hl'] at h
        simp only [Option.some.injEq] at h
        exact absurd ⟨_, h.symm⟩ hp
      | literal c' hp' hl' h1' h2' =>
        obtain ⟨_, a, t, e, _⟩ := hchar c' hp' hl' h1' h2'
        rw [e] at h
        simp only [Option.some.injEq] at h
        exact absurd ⟨_, h.symm⟩ hp
    | lower c s hc hd hl =>
      rw [plain_lower hc hd hl] at h
      cases hy with
      | upper c' s' hc' hp' hd' hl' =>
        rw [plain_upper hc' hd' hl'] at h
        simp only [Option.some.injEq] at h
        exact absurd ⟨_, h⟩ hp'
      | lower c' s' hc' hd' hl' =>
        rw [plain_lower hc' hd' hl'] at h
        simpa using h
      | literal c' hp' hl' h1' h2' =>
        obtain ⟨_, a, t, e, ha, _⟩ := hchar c' hp' hl' h1' h2'
        rw [e] at h
        simp only [Option.some.injEq, List.append_cancel_left_eq, List.cons.injEq] at h
        rw [h.1, ha] at hc
        cases hc
    | literal c hp hl h1 h2 =>
      obtain ⟨hlt, a, t, e, ha, hg⟩ := hchar c hp hl h1 h2
      rw [e] at h
      cases hy with
      | upper c' s' hc' hp' hd' hl' =>
        rw [plain_upper hc' hd' hl'] at h
        simp only [Option.some.injEq] at h
        exact absurd ⟨_, h⟩ hp'
      | lower c' s' hc' hd' hl' =>
        rw [plain_lower hc' hd' hl'] at h
        simp only [Option.some.injEq, List.append_cancel_left_eq, List.cons.injEq] at h
        rw [← h.1, ha] at hc'
        cases hc'
      | literal c' hp' hl' h1' h2' =>
        obtain ⟨hlt', a', t', e', ha', hg'⟩ := hchar c' hp' hl' h1' h2'
        rw [e'] at h
        simp only [Option.some.injEq, List.append_cancel_left_eq] at h
        rw [h] at hg
        have h1 := (List.getElem?_eq_some_iff.1 hg)
        have h2 := (List.getElem?_eq_some_iff.1 hg')
        have := (List.Nodup.getElem_inj_iff hnd (hi := h1.1) (hj := h2.1)).1 (h1.2.trans h2.2.symm)
        rw [this]

/-- C28 is violated: the token `a` and the literal `'a'` are both called `Tk_a`; the literals `'\''`
and `'\\'` are both called `Tk_BACKSLASH`; `A.B` and `A_B` are both called `A_B`; and two names that
differ only in the last of 64 characters get the same name. -/
theorem C28_violated :
    (lemonTokenName [97] = lemonTokenName (litName [97]) ∧ [97] ≠ litName [97]) ∧
    (lemonTokenName (litName [39]) = lemonTokenName (litName [92]) ∧ litName [39] ≠ litName [92]) ∧
    (lemonTokenName [65, 46, 66] = lemonTokenName [65, 95, 66]) ∧
    (∃ s : List Nat, lemonTokenName (s ++ [65]) = lemonTokenName (s ++ [66])) :=
  ⟨⟨by decide +kernel, by decide⟩, ⟨by decide +kernel, by decide⟩, by decide +kernel, List.replicate 63 65, by decide +kernel⟩

/-- `NUM`, `num`, `'+'`: converted to `NUM`, `Tk_num`, `Tk_PLUS` -/
example : PlainName [78, 85, 77] ∧ PlainName [110, 117, 109] ∧ PlainName (litName [43]) ∧
    lemonTokenName [78, 85, 77] = some [78, 85, 77] ∧
    lemonTokenName (litName [43]) = some [84, 107, 95, 80, 76, 85, 83] :=
  ⟨.upper _ _ (by decide) (by decide) (by decide) (by decide), .lower _ _ (by decide) (by decide) (by decide),
    .literal _ (by decide) (by decide) (by decide) (by decide), by decide +kernel, by decide +kernel⟩

/-! ## C59 -/

/-- First characters of identifiers (byacc/reader.c:3614-3621, without `$`, which is not printed). -/
def identStart (c : Nat) : Bool := isLower c || isUpper c || c == 46 || c == 95

theorem noDots_headD (s : List Nat) (h : s.headD 0 ≠ 46) : (noDots s).headD 0 = s.headD 0 := by
  cases s with
  | nil => rfl
  | cons a s =>
    have : a ≠ 46 := by simpa using h
    simp [noDots, this]

/-- C59: converted token names start with an upper-case letter and converted nonterminal names with a
lower-case letter, as lemon requires; so no token is ever given the name of a nonterminal. -/
theorem C59_case (c : Nat) (s : List Nat) (hc : identStart c = true) :
    (∃ n, lemonTokenName (c :: s) = some n ∧ isUpper (n.headD 0) = true) ∧
    (∃ n, lemonRuleName (c :: s) = some n ∧ isLower (n.headD 0) = true) := by
  have hr : c ≠ 39 ∧ c ≠ 34 ∧ (isLower c = true ∨ isUpper c = true ∨ c = 46 ∨ c = 95) := by
    simp only [identStart, isLower, isUpper, Bool.or_eq_true, Bool.and_eq_true, decide_eq_true_eq, beq_iff_eq] at hc ⊢
    omega
  obtain ⟨h39, h34, hr⟩ := hr
  have e1 : (c == 39) = false := by simpa using h39
  have e2 : (c == 34) = false := by simpa using h34
  have htk : ∀ s : List Nat, (trunc (tk ++ s)).headD 0 = 84 := by intro s; simp [trunc, tk]
  have hset : ∀ s : List Nat, ((trunc (tk ++ s)).set 3 95).headD 0 = 84 := by intro s; simp [trunc, tk]
  constructor
  · unfold lemonTokenName
    rw [cAt_getD _ _ (by simp)]
    simp only [List.getD_cons_zero, Option.bind_eq_bind, Option.bind_some, e1, e2, Bool.false_eq_true, if_false]
    split
    · refine ⟨_, rfl, ?_⟩
      rw [noDots_headD _ (by rw [hset]; omega), hset]; rfl
    · split
      · refine ⟨_, rfl, ?_⟩
        rw [noDots_headD _ (by rw [htk]; omega), htk]; rfl
      · rename_i h1 h2
        have hu : isUpper c = true := by
          simp only [Bool.or_eq_true, beq_iff_eq, not_or] at h1
          rcases hr with h | h | h | h
          · exact absurd h h2
          · exact h
          · exact absurd h h1.1
          · exact absurd h h1.2
        have hh : (trunc (c :: s)).headD 0 = c := by simp [trunc]
        have hne : c ≠ 46 := by
          simp only [isUpper, Bool.and_eq_true, decide_eq_true_eq] at hu; omega
        exact ⟨_, rfl, by rw [noDots_headD _ (by rw [hh]; exact hne), hh]; exact hu⟩
  · unfold lemonRuleName
    rw [cAt_getD _ _ (by simp)]
    simp only [List.getD_cons_zero, Option.bind_eq_bind, Option.bind_some]
    refine ⟨_, rfl, ?_⟩
    split
    · have : ((trunc (120 :: c :: s)).set 1 95).headD 0 = 120 := by simp [trunc]
      rw [noDots_headD _ (by rw [this]; omega), this]; rfl
    · rename_i h46
      split
      · have : (trunc (122 :: c :: s)).headD 0 = 122 := by simp [trunc]
        rw [noDots_headD _ (by rw [this]; omega), this]; rfl
      · rename_i h95
        split
        · have : (trunc (108 :: 95 :: c :: s)).headD 0 = 108 := by simp [trunc]
          rw [noDots_headD _ (by rw [this]; omega), this]; rfl
        · rename_i hu
          have hh : (trunc (c :: s)).headD 0 = c := by simp [trunc]
          have h46 : c ≠ 46 := by simpa using h46
          have h95 : c ≠ 95 := by simpa using h95
          rw [noDots_headD _ (by rw [hh]; exact h46), hh]
          rcases hr with h | h | h | h
          · exact h
          · exact absurd h hu
          · exact absurd h h46
          · exact absurd h h95

/-- C59: the same for literals (when the conversion is defined, see C29). -/
theorem C59_literal (s n : List Nat) (hs : ∀ c ∈ s, c < 256) (h : lemonTokenName (litName s) = some n) :
    isUpper (n.headD 0) = true := by
  by_cases hl : s.length = 1
  · obtain ⟨c, rfl⟩ := List.length_eq_one_iff.1 hl
    have key : ∀ c < 256, (match lemonTokenName (litName [c]) with | some n => isUpper (n.headD 0) | none => true) = true := by
      decide +kernel
    have := key c (hs c (by simp))
    rw [h] at this
    exact this
  · have e : (s.length == 1) = false := by simpa using hl
    have : litName s = 34 :: (s.flatMap (litChar 34) ++ [34]) := by simp [litName, e]
    rw [this] at h
    unfold lemonTokenName at h
    rw [cAt_getD _ _ (by simp)] at h
    simp only [List.getD_cons_zero, Option.bind_eq_bind, Option.bind_some, List.drop_succ_cons, List.drop_zero] at h
    have e39 : ((34 : Nat) == 39) = false := rfl
    simp only [e39, Bool.false_eq_true, if_false, beq_self_eq_true, if_true, Option.bind_some, Option.some.injEq] at h
    rw [← h]
    generalize s.flatMap (litChar 34) = l
    have : (trunc (tk ++ (l ++ [34]))).dropLast.headD 0 = 84 := by
      cases l <;> simp [trunc, tk]
    rw [noDots_headD _ (by rw [this]; omega), this]; rfl

/-- `_x` becomes `Tk__x` as a token and `z_x` as a nonterminal. -/
example : lemonTokenName [95, 120] = some [84, 107, 95, 95, 120] ∧ lemonRuleName [95, 120] = some [122, 95, 120] ∧
    lemonRuleName [88] = some [108, 95, 88] := by decide +kernel

end Verif.Byacc
