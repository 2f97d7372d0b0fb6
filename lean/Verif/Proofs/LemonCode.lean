import Verif.Lemon.Code
import Verif.Spec.LemonCode
import Mathlib.Data.List.Basic
import Mathlib.Data.List.Infix
import Mathlib.Tactic.Linarith
/-
Helper lemmas for C75: the loop of `translate_code`.
-/
set_option autoImplicit false
namespace Verif.Lemon
open Verif.Spec.RuleCode
open Verif.Spec.Words (letter digit inName)

theorem nameChar_inName (c : Nat) : nameChar c = true ↔ inName c := by
  simp only [nameChar, isAlnum, isAlpha, inName, letter, digit, Bool.or_eq_true, Bool.and_eq_true, decide_eq_true_eq, beq_iff_eq]
  tauto

theorem isAlpha_letter' (c : Nat) : isAlpha c = true ↔ letter c := by
  simp only [isAlpha, letter, Bool.or_eq_true, Bool.and_eq_true, decide_eq_true_eq]

theorem nameChar_of_alpha {c : Nat} (h : isAlpha c = true) : nameChar c = true := by
  simp [nameChar, isAlnum, h]

/-- the labels of the rule -/
def CodeEnv.labels (E : CodeEnv) : Labels := ⟨E.lhsalias, E.rhs.map Prod.snd⟩

/-- the length of the text from the first comment on -/
def markLen (m : List Nat) : List Piece → Option Nat
  | [] => none
  | .mark :: v => some (textOf m (.mark :: v)).length
  | _ :: v => markLen m v

theorem textOf_cons (m : List Nat) (p : Piece) (ps : List Piece) : textOf m (p :: ps) = p.text m ++ textOf m ps := rfl

theorem textOf_append (m : List Nat) (ps qs : List Piece) : textOf m (ps ++ qs) = textOf m ps ++ textOf m qs := by
  simp [textOf]

theorem markLen_le (m : List Nat) : ∀ (ps : List Piece) (k : Nat), markLen m ps = some k → k ≤ (textOf m ps).length := by
  intro ps
  induction ps with
  | nil => intro k h; simp [markLen] at h
  | cons p ps ih =>
    intro k h
    cases p with
    | mark => simp only [markLen, Option.some.injEq] at h; omega
    | name x =>
      have := ih k h
      rw [textOf_cons, List.length_append]; omega
    | other c =>
      have := ih k h
      rw [textOf_cons, List.length_append]; omega

theorem markLen_none (m : List Nat) : ∀ (ps : List Piece), .mark ∉ ps → markLen m ps = none := by
  intro ps
  induction ps with
  | nil => intro _; rfl
  | cons q qs ih =>
    intro h
    cases q with
    | mark => simp at h
    | name x => exact ih (by simpa using h)
    | other c => exact ih (by simpa using h)

/-- `skip` is right for the rest of the code -/
def SkipOK (E : CodeEnv) (m : List Nat) (ps : List Piece) : Prop :=
  (markLen m ps ≠ none ∧ E.skip = markLen m ps) ∨ (markLen m ps = none ∧ ∀ k, E.skip = some k → (textOf m ps).length < k)

theorem SkipOK.tail {E : CodeEnv} {m : List Nat} {p : Piece} {ps : List Piece} (h : SkipOK E m (p :: ps)) (hp : p ≠ .mark) :
    SkipOK E m ps ∧ ∀ k, E.skip = some k → k ≤ (textOf m ps).length ∨ (textOf m (p :: ps)).length < k := by
  have hm : markLen m (p :: ps) = markLen m ps := by cases p <;> simp_all [markLen]
  unfold SkipOK at h ⊢
  rw [hm] at h
  rcases h with ⟨h1, h2⟩ | ⟨h1, h2⟩
  · refine ⟨.inl ⟨h1, h2⟩, fun k hk => ?_⟩
    rw [h2] at hk
    exact .inl (markLen_le m ps k hk)
  · refine ⟨.inr ⟨h1, fun k hk => ?_⟩, fun k hk => .inr (h2 k hk)⟩
    have := h2 k hk
    rw [textOf_cons, List.length_append] at this
    omega

/-- one character that is copied -/
theorem codeLoop_char (E : CodeEnv) (f : Nat) (prev : Option Nat) (c : Nat) (t : List Nat) (st : CodeSt) (hs : E.skip ≠ some (t.length + 1))
    (hc : isAlpha c = false ∨ prev.any nameChar = true) :
    codeLoop E (f + 1) prev (c :: t) st = codeLoop E f (some c) t { st with out := st.out ++ [c] } := by
  rw [codeLoop, if_neg hs]
  have : ¬ (isAlpha c = true ∧ (!(prev.any nameChar)) = true) := by
    rcases hc with hc | hc <;> simp [hc]
  simp only [if_neg this]

/-- characters of a name that are copied -/
theorem codeLoop_chars (E : CodeEnv) (t : List Nat) : ∀ (l : List Nat) (f : Nat) (c : Nat) (st : CodeSt), nameChar c = true → (∀ d ∈ l, nameChar d = true) →
    (∀ k, E.skip = some k → k ≤ t.length ∨ t.length + l.length < k) →
    ∃ c', nameChar c' = true ∧ codeLoop E (f + l.length) (some c) (l ++ t) st = codeLoop E f (some c') t { st with out := st.out ++ l } := by
  intro l
  induction l with
  | nil => intro f c st hc _ _; exact ⟨c, hc, by simp⟩
  | cons d l ih =>
    intro f c st hc hl hs
    have hd := hl d (by simp)
    obtain ⟨c', h1, h2⟩ := ih f d { st with out := st.out ++ [d] } hd (fun e he => hl e (by simp [he])) (fun k hk => by
      have := hs k hk; rw [List.length_cons] at this; omega)
    refine ⟨c', h1, ?_⟩
    rw [List.cons_append, List.length_cons, ← Nat.add_assoc, codeLoop_char E _ _ _ _ _ _ (.inr (by simpa using hc)), h2]
    · simp
    · intro e
      have := hs _ e
      simp only [List.length_append, List.length_cons] at this
      omega

theorem takeWhile_ident (x t : List Nat) (hx : ∀ c ∈ x, nameChar c = true) (ht : ∀ c, t.head? = some c → nameChar c = false) :
    (x ++ t).takeWhile nameChar = x ∧ (x ++ t).dropWhile nameChar = t := by
  have h0 : t.takeWhile nameChar = [] ∧ t.dropWhile nameChar = t := by
    cases t with
    | nil => simp
    | cons c t => have := ht c rfl; simp [this]
  constructor
  · rw [List.takeWhile_append_of_pos hx, h0.1, List.append_nil]
  · rw [List.dropWhile_append_of_pos hx, h0.2]

/-- a name that is no label is copied -/
theorem codeLoop_name (E : CodeEnv) (x t : List Nat) (f : Nat) (prev : Option Nat) (st : CodeSt) (hx : x ≠ []) (hn : ∀ c ∈ x, nameChar c = true)
    (ht : ∀ c, t.head? = some c → nameChar c = false) (hl : E.labels.ref x = none)
    (hs : ∀ k, E.skip = some k → k ≤ t.length ∨ t.length + x.length < k) :
    ∃ c', nameChar c' = true ∧ codeLoop E (f + x.length) prev (x ++ t) st = codeLoop E f (some c') t { st with out := st.out ++ x } := by
  cases x with
  | nil => simp at hx
  | cons c l =>
    have hsk : E.skip ≠ some ((l ++ t).length + 1) := by
      intro e
      have := hs _ e
      simp only [List.length_append, List.length_cons] at this
      omega
    have hstep : codeLoop E (f + (c :: l).length) prev (c :: l ++ t) st = codeLoop E (f + l.length) (some c) (l ++ t) { st with out := st.out ++ [c] } := by
      rw [List.length_cons, ← Nat.add_assoc, List.cons_append, codeLoop, if_neg hsk]
      have h1 := (takeWhile_ident l t (fun d hd => hn d (by simp [hd])) ht).1
      unfold Labels.ref CodeEnv.labels at hl
      dsimp only at hl
      split at hl
      · simp at hl
      · rename_i h2
        split at hl
        · simp at hl
        · rename_i h3
          have h4 : ¬ (E.rhs.findIdx fun p => p.2 == some (c :: l)) < E.rhs.length := by
            rw [List.findIdx_lt_length]
            rintro ⟨p, hp, e⟩
            apply h3
            rw [List.mem_map]
            exact ⟨p, hp, by simpa using e⟩
          simp only [h1, h2, if_false, h4]
          simp only [ite_self]
    obtain ⟨c', h1, h2⟩ := codeLoop_chars E t l f c { st with out := st.out ++ [c] } (hn c (by simp)) (fun d hd => hn d (by simp [hd]))
      (fun k hk => by have := hs k hk; rw [List.length_cons] at this; omega)
    refine ⟨c', h1, ?_⟩
    rw [hstep, h2]
    simp

/-- the field of the symbol with number `i` -/
def CodeEnv.dtOf (E : CodeEnv) (i : Nat) : Option Nat := E.rhs[i]?.bind fun p => E.s.refDtnum p.1

/-- the text for a value -/
def CodeEnv.value (E : CodeEnv) : Ref → List Nat
  | .lhs => E.zLhs
  | .rhs i => yymsp (E.place i) ++ dotMinor ++ dotYY ((E.dtOf i).getD 0)

/-- the text for the number of a token -/
def CodeEnv.token (E : CodeEnv) (i : Nat) : List Nat := yymsp (E.place i) ++ dotMajor

theorem idxOf_findIdx (l : List (RhsRef × Option (List Nat))) (x : List Nat) : (l.findIdx fun p => p.2 == some x) = (l.map Prod.snd).idxOf (some x) := by
  rw [List.idxOf, List.findIdx_map]
  rfl

/-- what is done with a label -/
def CodeEnv.onRef (E : CodeEnv) (st : CodeSt) (prev : Option Nat) (x : List Nat) : Ref → Option CodeSt
  | .lhs => some { st with out := st.out ++ E.zLhs, lhsused := true }
  | .rhs i => E.rhsLabel st prev i x

/-- a label is replaced -/
theorem codeLoop_label (E : CodeEnv) (x u : List Nat) (d : Nat) (f : Nat) (prev : Option Nat) (st : CodeSt) (r : Ref) (hx : Ident x)
    (hp : prev.any nameChar = false) (hd : nameChar d = false) (hl : E.labels.ref x = some r) (hs : E.skip ≠ some (x.length + u.length + 1)) :
    codeLoop E (f + 1) prev (x ++ d :: u) st =
      (E.onRef st prev x r).bind fun st' => codeLoop E f (some d) u { st' with out := st'.out ++ [d] } := by
  obtain ⟨c, l, rfl, hc, hi⟩ := hx
  have ht := takeWhile_ident l (d :: u) (fun e he => (nameChar_inName e).mpr (hi e he)) (by simpa using hd)
  rw [List.cons_append, codeLoop, if_neg (by intro e; apply hs; rw [e]; simp; omega)]
  have ha := (isAlpha_letter' c).mpr hc
  unfold Labels.ref CodeEnv.labels at hl
  dsimp only at hl
  simp only [ht.1, ht.2, ha, hp, Bool.not_false, and_self, if_true]
  split at hl
  · rename_i h2
    simp only [Option.some.injEq] at hl
    subst hl
    simp [h2, CodeEnv.onRef]
  · rename_i h2
    split at hl
    · rename_i h3
      simp only [Option.some.injEq] at hl
      subst hl
      have h4 : (E.rhs.findIdx fun p => p.2 == some (c :: l)) < E.rhs.length := by
        rw [List.findIdx_lt_length]
        rw [List.mem_map] at h3
        obtain ⟨p, hp, e⟩ := h3
        exact ⟨p, hp, by simp [e]⟩
      simp only [h2, if_false, h4, if_true]
      rw [idxOf_findIdx, CodeEnv.onRef]
      cases E.rhsLabel st prev (List.idxOf (some (c :: l)) (List.map Prod.snd E.rhs)) (c :: l) <;> rfl
    · simp at hl

/-- a label at the end -/
theorem codeLoop_end (E : CodeEnv) (x : List Nat) (f : Nat) (prev : Option Nat) (st : CodeSt) (hx : Ident x)
    (hp : prev.any nameChar = false) (hl : E.labels.ref x ≠ none) (hs : E.skip ≠ some x.length) :
    codeLoop E (f + 1) prev x st = none := by
  obtain ⟨c, l, rfl, hc, hi⟩ := hx
  have ht := takeWhile_ident l [] (fun e he => (nameChar_inName e).mpr (hi e he)) (by simp)
  rw [List.append_nil] at ht
  rw [codeLoop, if_neg (by intro e; apply hs; rw [e]; simp)]
  have ha := (isAlpha_letter' c).mpr hc
  unfold Labels.ref CodeEnv.labels at hl
  dsimp only at hl
  simp only [ht.1, ht.2, ha, hp, Bool.not_false, and_self, if_true]
  split at hl
  · rename_i h2
    simp [h2]
  · rename_i h2
    split at hl
    · rename_i h3
      have h4 : (E.rhs.findIdx fun p => p.2 == some (c :: l)) < E.rhs.length := by
        rw [List.findIdx_lt_length]
        rw [List.mem_map] at h3
        obtain ⟨p, hp, e⟩ := h3
        exact ⟨p, hp, by simp [e]⟩
      simp only [h2, if_false, h4, if_true]
      cases E.rhsLabel st prev (E.rhs.findIdx fun p => p.2 == some (c :: l)) (c :: l) <;> rfl
    · simp at hl

theorem rhsLabel_some (E : CodeEnv) (st : CodeSt) (prev : Option Nat) (i : Nat) (x : List Nat) (h : (E.dtOf i).isSome) :
    ∃ st', E.rhsLabel st prev i x = some st' ∧ st'.used = st.used.set i true ∧ st'.lhsused = st.lhsused ∧ st'.dontUseRhs0 = st.dontUseRhs0 ∧
      st'.errs = st.errs ++ (if i = 0 ∧ st.dontUseRhs0 = true then [.usedAfter x] else []) ∧
      (¬ (i = 0 ∧ st.dontUseRhs0 = true) → st'.out = if prev = some 64 then st.out.dropLast ++ E.token i else st.out ++ E.value (.rhs i)) := by
  unfold CodeEnv.rhsLabel
  by_cases hd : i = 0 ∧ st.dontUseRhs0 = true
  · rw [if_pos hd]
    refine ⟨_, rfl, rfl, rfl, rfl, ?_, fun h => absurd hd h⟩
    rw [if_pos hd]
  · rw [if_neg hd]
    by_cases hp : prev = some 64
    · rw [if_pos hp]
      refine ⟨_, rfl, rfl, rfl, rfl, by rw [if_neg hd, List.append_nil], fun _ => ?_⟩
      rw [if_pos hp]
      simp [CodeEnv.token]
    · rw [if_neg hp]
      unfold CodeEnv.dtOf at h
      rcases Option.eq_none_or_eq_some (E.rhs[i]?) with h1 | ⟨p, h1⟩
      · rw [h1] at h; simp at h
      · rw [h1, Option.bind_some] at h
        obtain ⟨d, hd'⟩ := Option.isSome_iff_exists.mp h
        simp only [h1, hd', Option.map_some]
        refine ⟨_, rfl, rfl, rfl, rfl, by rw [if_neg hd, List.append_nil], fun _ => ?_⟩
        rw [if_neg hp]
        simp [CodeEnv.value, CodeEnv.dtOf, h1, hd']

theorem codeLoop_nil (E : CodeEnv) (f : Nat) (prev : Option Nat) (st : CodeSt) : codeLoop E f prev [] st = some st := by
  cases f <;> rfl

/-- what the induction needs of the pieces -/
structure PiecesOK (L : Labels) (ps : List Piece) : Prop where
  names : ∀ x, .name x ∈ ps → x ≠ [] ∧ ∀ c ∈ x, inName c
  others : ∀ c, .other c ∈ ps → ¬ inName c
  apart : ∀ u x y v, ps ≠ u ++ .name x :: .name y :: v
  before : ¬ LabelBeforeMark L ps
  ends : ¬ EndsInLabel L ps
  first : ∀ u v, ps = u ++ .mark :: v → .mark ∉ v

theorem PiecesOK.tail {L : Labels} {p : Piece} {ps : List Piece} (h : PiecesOK L (p :: ps)) : PiecesOK L ps where
  names x hx := h.names x (by simp [hx])
  others c hc := h.others c (by simp [hc])
  apart u x y v e := h.apart (p :: u) x y v (by rw [e]; rfl)
  before := fun ⟨u, x, v, e, hl⟩ => h.before ⟨p :: u, x, v, by rw [e]; rfl, hl⟩
  ends := fun ⟨u, x, e, hl⟩ => h.ends ⟨p :: u, x, by rw [e]; rfl, hl⟩
  first u v e := h.first (p :: u) v (by rw [e]; rfl)

/-- the first label is not used after the comment -/
def NoBad (L : Labels) : Bool → List Piece → Prop
  | _, [] => True
  | d, .name x :: ps => (d = true → L.ref x ≠ some (.rhs 0)) ∧ NoBad L d ps
  | d, .other _ :: ps => NoBad L d ps
  | _, .mark :: ps => NoBad L true ps

/-- a name of the pieces stands for `r` -/
def UsesLabel (L : Labels) (ps : List Piece) (r : Ref) : Prop := ∃ x, .name x ∈ ps ∧ L.ref x = some r

theorem uses_other (L : Labels) (c : Nat) (ps : List Piece) (r : Ref) : UsesLabel L (.other c :: ps) r ↔ UsesLabel L ps r := by simp [UsesLabel]

theorem uses_mark (L : Labels) (ps : List Piece) (r : Ref) : UsesLabel L (.mark :: ps) r ↔ UsesLabel L ps r := by simp [UsesLabel]

theorem uses_name (L : Labels) (x : List Nat) (ps : List Piece) (r : Ref) : UsesLabel L (.name x :: ps) r ↔ L.ref x = some r ∨ UsesLabel L ps r := by
  simp only [UsesLabel, List.mem_cons, Piece.name.injEq]
  constructor
  · rintro ⟨y, rfl | h1, h2⟩
    · exact .inl h2
    · exact .inr ⟨y, h1, h2⟩
  · rintro (h | ⟨y, h1, h2⟩)
    · exact ⟨x, .inl rfl, h⟩
    · exact ⟨y, .inr h1, h2⟩

/-- what the loop does with pieces -/
structure LoopDone (E : CodeEnv) (m : List Nat) (at_ : Bool) (ps : List Piece) (st st' : CodeSt) : Prop where
  lhsused : st'.lhsused = true ↔ st.lhsused = true ∨ UsesLabel E.labels ps .lhs
  len : st'.used.length = st.used.length
  used : ∀ i < st.used.length, st'.used.getD i false = true ↔ st.used.getD i false = true ∨ UsesLabel E.labels ps (.rhs i)
  errs : ∃ e, st'.errs = st.errs ++ e ∧ (e = [] ↔ NoBad E.labels st.dontUseRhs0 ps)
  out : NoBad E.labels st.dontUseRhs0 ps →
    st'.out = (if at_ = true ∧ E.labels.isRhs ps.head? = true then st.out.dropLast else st.out) ++ replace m E.labels E.value E.token at_ ps

theorem isRhs_other (L : Labels) (c : Nat) : L.isRhs (some (.other c)) = false := rfl

theorem isRhs_name (L : Labels) (x : List Nat) (r : Ref) (h : L.ref x = some r) : L.isRhs (some (.name x)) = true ↔ ∃ i, r = .rhs i := by
  simp only [Labels.isRhs, h]
  cases r <;> simp

theorem inName_64 : ¬ inName 64 := by
  simp [inName, letter, digit]

theorem getD_set_true (l : List Bool) (i j : Nat) (h : j < l.length) : (l.set i true).getD j false = true ↔ l.getD j false = true ∨ i = j := by
  rw [List.getD_eq_getElem?_getD, List.getD_eq_getElem?_getD, List.getElem?_set]
  by_cases hij : i = j
  · subst hij; simp [h]
  · simp [hij]

theorem codeLoop_pieces (E : CodeEnv) (m : List Nat) (hid : E.labels.Idents) (hm : ∃ m', m = 47 :: m')
    (hdt : ∀ i x, E.labels.ref x = some (.rhs i) → (E.dtOf i).isSome) :
    ∀ (n : Nat) (ps : List Piece) (f : Nat) (prev : Option Nat) (at_ : Bool) (st : CodeSt), ps.length ≤ n → PiecesOK E.labels ps → SkipOK E m ps →
      (.mark ∈ ps → E.zOvwrt = m) →
      ((∃ x, ps.head? = some (.name x)) → prev.any nameChar = false) → (textOf m ps).length ≤ f → (at_ = true ↔ prev = some 64) →
      ∃ st', codeLoop E f prev (textOf m ps) st = some st' ∧ LoopDone E m at_ ps st st' := by
  intro n
  induction n with
  | zero =>
    intro ps f prev at_ st hn
    have : ps = [] := by cases ps <;> simp_all
    subst this
    intro _ _ _ _ _ _
    exact ⟨st, by simp [textOf, codeLoop_nil], by simp [UsesLabel], rfl, by simp [UsesLabel], ⟨[], by simp, by simp [NoBad]⟩, by simp [replace, Labels.isRhs]⟩
  | succ n ih =>
    intro ps f prev at_ st hn hok hs hz hh hf hat
    cases ps with
    | nil => exact ⟨st, by simp [textOf, codeLoop_nil], by simp [UsesLabel], rfl, by simp [UsesLabel], ⟨[], by simp, by simp [NoBad]⟩, by simp [replace, Labels.isRhs]⟩
    | cons p ps =>
      have hn' : ps.length ≤ n := by simpa using hn
      cases p with
      | other c =>
        have hc : nameChar c = false := by
          have := hok.others c (by simp)
          rw [← nameChar_inName] at this
          simpa using this
        obtain ⟨hs1, hs2⟩ := hs.tail (by simp)
        have ht : textOf m (.other c :: ps) = c :: textOf m ps := rfl
        rw [ht] at hf hs2 ⊢
        obtain ⟨f, rfl⟩ : ∃ f', f = f' + 1 := ⟨f - 1, by simp at hf; omega⟩
        have ha : isAlpha c = false := by
          by_contra h
          have := nameChar_of_alpha (by simpa using h : isAlpha c = true)
          simp [this] at hc
        rw [codeLoop_char E f prev c _ st (by
          intro e
          have := hs2 _ e
          simp at this) (.inl ha)]
        obtain ⟨st', h1, h2⟩ := ih ps f (some c) (c == 64) { st with out := st.out ++ [c] } hn' hok.tail hs1 (fun h => hz (by simp [h]))
          (fun _ => by simpa using hc) (by simpa using hf) (by simp)
        refine ⟨st', h1, ?_, h2.len, ?_, ?_, ?_⟩
        · rw [h2.lhsused, uses_other]
        · intro i hi; rw [h2.used i hi, uses_other]
        · exact h2.errs
        · intro hb
          rw [h2.out hb]
          simp only [List.head?_cons, isRhs_other, replace, Bool.false_eq_true, and_false, if_false, beq_iff_eq]
          by_cases h : c = 64 ∧ E.labels.isRhs ps.head? = true
          · rw [if_pos h, if_pos h]; simp
          · rw [if_neg h, if_neg h]; simp
      | mark =>
        obtain ⟨m', rfl⟩ := hm
        have hz' : E.zOvwrt = 47 :: m' := hz (by simp)
        have hsk : E.skip = some (textOf (47 :: m') (.mark :: ps)).length := by
          rcases hs with ⟨_, h⟩ | ⟨h, _⟩
          · rw [h]; rfl
          · simp [markLen] at h
        have ht : textOf (47 :: m') (.mark :: ps) = 47 :: (m' ++ textOf (47 :: m') ps) := rfl
        have hnm : .mark ∉ ps := hok.first [] ps rfl
        have hml : markLen (47 :: m') ps = none := markLen_none _ ps hnm
        have hs1 : SkipOK E (47 :: m') ps := .inr ⟨hml, fun k hk => by
          rw [hsk, ht] at hk
          simp at hk
          omega⟩
        rw [ht] at hf hsk ⊢
        obtain ⟨f, rfl⟩ : ∃ f', f = f' + 1 := ⟨f - 1, by simp at hf; omega⟩
        rw [codeLoop, if_pos (by simpa using hsk), hz']
        have hdr : (47 :: (m' ++ textOf (47 :: m') ps)).drop (47 :: m').length = textOf (47 :: m') ps := by simp
        rw [hdr]
        obtain ⟨st', h1, h2⟩ := ih ps f (some 47) false { st with out := st.out ++ 47 :: m', dontUseRhs0 := true } hn' hok.tail hs1 (fun h => absurd h hnm)
          (fun _ => by decide) (by simp at hf; omega) (by simp)
        refine ⟨st', h1, ?_, h2.len, ?_, ?_, ?_⟩
        · rw [h2.lhsused, uses_mark]
        · intro i hi; rw [h2.used i hi, uses_mark]
        · exact h2.errs
        · intro hb
          rw [h2.out hb]
          simp [Labels.isRhs, replace]
      | name x =>
        obtain ⟨hx0, hxn⟩ := hok.names x (by simp)
        obtain ⟨hs1, hs2⟩ := hs.tail (by simp)
        have hprev := hh ⟨x, rfl⟩
        have ht : textOf m (.name x :: ps) = x ++ textOf m ps := rfl
        have hxl : 1 ≤ x.length := by cases x <;> simp_all
        rw [ht, List.length_append] at hf hs2
        rw [ht]
        rcases Option.eq_none_or_eq_some (E.labels.ref x) with hr | ⟨r, hr⟩
        · have hhead : ∀ c, (textOf m ps).head? = some c → nameChar c = false := by
            intro c hc
            cases ps with
            | nil => simp [textOf] at hc
            | cons q qs =>
              cases q with
              | name y => exact absurd rfl (hok.apart [] x y qs)
              | other d =>
                simp only [textOf_cons, Piece.text, List.cons_append, List.head?_cons, Option.some.injEq] at hc
                subst hc
                have := hok.others d (by simp)
                rw [← nameChar_inName] at this
                simpa using this
              | mark =>
                obtain ⟨m', rfl⟩ := hm
                simp only [textOf_cons, Piece.text, List.cons_append, List.head?_cons, Option.some.injEq] at hc
                subst hc
                decide
          obtain ⟨f', rfl⟩ : ∃ f', f = f' + x.length := ⟨f - x.length, by omega⟩
          obtain ⟨c', hc', h0⟩ := codeLoop_name E x (textOf m ps) f' prev st hx0 (fun c hc => (nameChar_inName c).mpr (hxn c hc)) hhead hr
            (fun k hk => by have := hs2 k hk; omega)
          obtain ⟨st', h1, h2⟩ := ih ps f' (some c') false { st with out := st.out ++ x } hn' hok.tail hs1 (fun h => hz (by simp [h]))
            (fun ⟨y, hy⟩ => by
              cases ps with
              | nil => simp at hy
              | cons q qs =>
                simp only [List.head?_cons, Option.some.injEq] at hy
                subst hy
                exact absurd rfl (hok.apart [] x y qs)) (by omega) (by
              constructor
              · simp
              · intro h
                simp only [Option.some.injEq] at h
                subst h
                simp [nameChar, isAlnum, isAlpha] at hc')
          refine ⟨st', by rw [h0, h1], ?_, h2.len, ?_, ?_, ?_⟩
          · rw [h2.lhsused, uses_name, hr]; simp
          · intro i hi; rw [h2.used i hi, uses_name, hr]; simp
          · obtain ⟨e, he, hb⟩ := h2.errs
            refine ⟨e, he, ?_⟩
            rw [hb]; simp [NoBad, hr]
          · intro hb
            rw [h2.out hb.2]
            simp [Labels.isRhs, replace, hr]
        · cases ps with
          | nil => exact absurd ⟨[], x, rfl, by rw [hr]; simp⟩ hok.ends
          | cons q qs =>
            cases q with
            | name y => exact absurd rfl (hok.apart [] x y qs)
            | mark => exact absurd ⟨[], x, qs, rfl, by rw [hr]; simp⟩ hok.before
            | other d =>
              have hd : nameChar d = false := by
                have := hok.others d (by simp)
                rw [← nameChar_inName] at this
                simpa using this
              have hident : Ident x := by
                unfold Labels.ref at hr
                split at hr
                · rename_i h; exact hid.1 x h
                · split at hr
                  · rename_i h; exact hid.2 x h
                  · simp at hr
              have htd : textOf m (.other d :: qs) = d :: textOf m qs := rfl
              rw [htd, List.length_cons] at hf hs2
              rw [htd]
              obtain ⟨f, rfl⟩ : ∃ f', f = f' + 1 := ⟨f - 1, by omega⟩
              rw [codeLoop_label E x (textOf m qs) d f prev st r hident hprev hd hr (by
                intro e
                have := hs2 _ e
                omega)]
              have hstep : ∀ st1 : CodeSt, st1.dontUseRhs0 = st.dontUseRhs0 → ∃ st', codeLoop E f (some d) (textOf m qs) { st1 with out := st1.out ++ [d] } = some st' ∧
                  LoopDone E m (d == 64) qs { st1 with out := st1.out ++ [d] } st' := by
                intro st1 _
                exact ih qs f (some d) (d == 64) { st1 with out := st1.out ++ [d] } (by simp at hn'; omega) hok.tail.tail (hs1.tail (by simp)).1 (fun h => hz (by simp [h]))
                  (fun _ => by simpa using hd) (by omega) (by simp)
              cases r with
              | lhs =>
                obtain ⟨st', h1, h2⟩ := hstep { st with out := st.out ++ E.zLhs, lhsused := true } rfl
                refine ⟨st', by simpa [CodeEnv.onRef] using h1, ?_, h2.len, ?_, ?_, ?_⟩
                · rw [h2.lhsused, uses_name, hr]; simp
                · intro i hi; rw [h2.used i hi, uses_name, uses_other, hr]; simp
                · obtain ⟨e, he, hb⟩ := h2.errs
                  refine ⟨e, he, ?_⟩
                  rw [hb]; simp [NoBad, hr]
                · intro hb
                  rw [h2.out hb.2]
                  simp only [List.head?_cons, isRhs_name _ _ _ hr, replace, hr, reduceCtorEq, exists_false, and_false, if_false, beq_iff_eq, CodeEnv.value]
                  by_cases h : d = 64 ∧ E.labels.isRhs qs.head? = true
                  · rw [if_pos h, if_pos h]; simp
                  · rw [if_neg h, if_neg h]; simp
              | rhs i =>
                obtain ⟨st1, g1, g2, g3, g4, g5, g6⟩ := rhsLabel_some E st prev i x (hdt i x hr)
                obtain ⟨st', h1, h2⟩ := hstep st1 g4
                refine ⟨st', by simpa [CodeEnv.onRef, g1] using h1, ?_, ?_, ?_, ?_, ?_⟩
                · rw [h2.lhsused, uses_name, uses_other, hr]; simp [g3]
                · rw [h2.len]; simp [g2]
                · intro j hj
                  rw [h2.used j (by simpa [g2] using hj), uses_name, uses_other, hr]
                  simp only [g2, getD_set_true _ _ _ hj, Option.some.injEq, Ref.rhs.injEq]
                  tauto
                · obtain ⟨e, he, hb⟩ := h2.errs
                  refine ⟨(if i = 0 ∧ st.dontUseRhs0 = true then [.usedAfter x] else []) ++ e, by rw [he]; simp [g5], ?_⟩
                  rw [List.append_eq_nil_iff, hb, g4]
                  simp only [NoBad, hr, Option.some.injEq, Ref.rhs.injEq]
                  split
                  · rename_i h; simp [h.1, h.2]
                  · rename_i h
                    simp only [true_and]
                    constructor
                    · intro hh; exact ⟨fun h1 h2 => h ⟨by simpa using h2, h1⟩, hh⟩
                    · exact fun hh => hh.2
                · intro hb
                  have hb1 : ¬ (i = 0 ∧ st.dontUseRhs0 = true) := by
                    rintro ⟨rfl, h⟩
                    exact hb.1 h hr
                  have hb2 : NoBad E.labels st1.dontUseRhs0 qs := by rw [g4]; exact hb.2
                  rw [h2.out hb2]
                  simp only [List.head?_cons, isRhs_name _ _ _ hr, replace, hr, Ref.rhs.injEq, exists_eq', and_true, beq_iff_eq]
                  rw [g6 hb1]
                  simp only [hat]
                  by_cases h64 : prev = some 64
                  · simp only [h64, if_true]
                    by_cases h : d = 64 ∧ E.labels.isRhs qs.head? = true
                    · rw [if_pos h, if_pos h]; simp
                    · rw [if_neg h, if_neg h]; simp
                  · simp only [h64, if_false]
                    by_cases h : d = 64 ∧ E.labels.isRhs qs.head? = true
                    · rw [if_pos h, if_pos h]; simp
                    · rw [if_neg h, if_neg h]; simp

/-- a label at the end of the code -/
theorem codeLoop_ends (E : CodeEnv) (m : List Nat) (hid : E.labels.Idents) (hm : ∃ m', m = 47 :: m') :
    ∀ (n : Nat) (ps : List Piece) (f : Nat) (prev : Option Nat) (st : CodeSt), ps.length ≤ n →
      (∀ x, .name x ∈ ps → x ≠ [] ∧ ∀ c ∈ x, inName c) → (∀ c, .other c ∈ ps → ¬ inName c) → (∀ u x y v, ps ≠ u ++ .name x :: .name y :: v) →
      ¬ LabelBeforeMark E.labels ps → EndsInLabel E.labels ps → (∀ u v, ps = u ++ .mark :: v → .mark ∉ v) → SkipOK E m ps →
      (.mark ∈ ps → E.zOvwrt = m) →
      ((∃ x, ps.head? = some (.name x)) → prev.any nameChar = false) → (textOf m ps).length ≤ f →
      codeLoop E f prev (textOf m ps) st = none := by
  intro n
  induction n with
  | zero =>
    intro ps f prev st hn _ _ _ _ ⟨u, x, e, _⟩
    subst e
    simp at hn
  | succ n ih =>
    intro ps f prev st hn hnames hothers hapart hbefore hends hfirst hs hz hh hf
    cases ps with
    | nil => obtain ⟨u, x, e, _⟩ := hends; simp at e
    | cons p ps =>
      have hn' : ps.length ≤ n := by simpa using hn
      have tnames : ∀ x, .name x ∈ ps → x ≠ [] ∧ ∀ c ∈ x, inName c := fun x hx => hnames x (by simp [hx])
      have tothers : ∀ c, .other c ∈ ps → ¬ inName c := fun c hc => hothers c (by simp [hc])
      have tapart : ∀ u x y v, ps ≠ u ++ .name x :: .name y :: v := fun u x y v e => hapart (p :: u) x y v (by rw [e]; rfl)
      have tbefore : ¬ LabelBeforeMark E.labels ps := fun ⟨u, x, v, e, hl⟩ => hbefore ⟨p :: u, x, v, by rw [e]; rfl, hl⟩
      have tfirst : ∀ u v, ps = u ++ .mark :: v → .mark ∉ v := fun u v e => hfirst (p :: u) v (by rw [e]; rfl)
      have tends : ps ≠ [] → EndsInLabel E.labels ps := by
        intro hne
        obtain ⟨u, x, e, hl⟩ := hends
        cases u with
        | nil => simp only [List.nil_append, List.cons.injEq] at e; exact absurd e.2 hne
        | cons q u => simp only [List.cons_append, List.cons.injEq] at e; exact ⟨u, x, e.2, hl⟩
      cases p with
      | other c =>
        have hne : ps ≠ [] := by
          rintro rfl
          obtain ⟨u, x, e, hl⟩ := hends
          cases u with
          | nil => simp at e
          | cons q u => simp at e
        have hc : nameChar c = false := by
          have := hothers c (by simp)
          rw [← nameChar_inName] at this
          simpa using this
        obtain ⟨hs1, hs2⟩ := hs.tail (by simp)
        have ht : textOf m (.other c :: ps) = c :: textOf m ps := rfl
        rw [ht] at hf hs2 ⊢
        obtain ⟨f, rfl⟩ : ∃ f', f = f' + 1 := ⟨f - 1, by simp at hf; omega⟩
        have ha : isAlpha c = false := by
          by_contra h
          have := nameChar_of_alpha (by simpa using h : isAlpha c = true)
          simp [this] at hc
        rw [codeLoop_char E f prev c _ st (by
          intro e
          have := hs2 _ e
          simp at this) (.inl ha)]
        exact ih ps f (some c) _ hn' tnames tothers tapart tbefore (tends hne) tfirst hs1 (fun h => hz (by simp [h]))
          (fun _ => by simpa using hc) (by simpa using hf)
      | mark =>
        have hne : ps ≠ [] := by
          rintro rfl
          obtain ⟨u, x, e, hl⟩ := hends
          cases u with
          | nil => simp at e
          | cons q u => simp at e
        obtain ⟨m', rfl⟩ := hm
        have hz' : E.zOvwrt = 47 :: m' := hz (by simp)
        have hsk : E.skip = some (textOf (47 :: m') (.mark :: ps)).length := by
          rcases hs with ⟨_, h⟩ | ⟨h, _⟩
          · rw [h]; rfl
          · simp [markLen] at h
        have ht : textOf (47 :: m') (.mark :: ps) = 47 :: (m' ++ textOf (47 :: m') ps) := rfl
        have hnm : .mark ∉ ps := hfirst [] ps rfl
        have hml : markLen (47 :: m') ps = none := markLen_none _ ps hnm
        have hs1 : SkipOK E (47 :: m') ps := .inr ⟨hml, fun k hk => by
          rw [hsk, ht] at hk
          simp at hk
          omega⟩
        rw [ht] at hf hsk ⊢
        obtain ⟨f, rfl⟩ : ∃ f', f = f' + 1 := ⟨f - 1, by simp at hf; omega⟩
        rw [codeLoop, if_pos (by simpa using hsk), hz']
        have hdr : (47 :: (m' ++ textOf (47 :: m') ps)).drop (47 :: m').length = textOf (47 :: m') ps := by simp
        rw [hdr]
        exact ih ps f (some 47) _ hn' tnames tothers tapart tbefore (tends hne) tfirst hs1 (fun h => absurd h hnm)
          (fun _ => by decide) (by simp at hf; omega)
      | name x =>
        obtain ⟨hx0, hxn⟩ := hnames x (by simp)
        obtain ⟨hs1, hs2⟩ := hs.tail (by simp)
        have hprev := hh ⟨x, rfl⟩
        have ht : textOf m (.name x :: ps) = x ++ textOf m ps := rfl
        have hxl : 1 ≤ x.length := by cases x <;> simp_all
        rw [ht, List.length_append] at hf hs2
        rw [ht]
        have hident : E.labels.ref x ≠ none → Ident x := by
          intro hr
          unfold Labels.ref at hr
          split at hr
          · rename_i h; exact hid.1 x h
          · split at hr
            · rename_i h; exact hid.2 x h
            · simp at hr
        rcases Option.eq_none_or_eq_some (E.labels.ref x) with hr | ⟨r, hr⟩
        · have hne : ps ≠ [] := by
            rintro rfl
            obtain ⟨u, y, e, hl⟩ := hends
            cases u with
            | nil => simp at e; subst e; exact hl hr
            | cons q u => simp at e
          have hhead : ∀ c, (textOf m ps).head? = some c → nameChar c = false := by
            intro c hc
            cases ps with
            | nil => simp [textOf] at hc
            | cons q qs =>
              cases q with
              | name y => exact absurd rfl (hapart [] x y qs)
              | other d =>
                simp only [textOf_cons, Piece.text, List.cons_append, List.head?_cons, Option.some.injEq] at hc
                subst hc
                have := hothers d (by simp)
                rw [← nameChar_inName] at this
                simpa using this
              | mark =>
                obtain ⟨m', rfl⟩ := hm
                simp only [textOf_cons, Piece.text, List.cons_append, List.head?_cons, Option.some.injEq] at hc
                subst hc
                decide
          obtain ⟨f', rfl⟩ : ∃ f', f = f' + x.length := ⟨f - x.length, by omega⟩
          obtain ⟨c', hc', h0⟩ := codeLoop_name E x (textOf m ps) f' prev st hx0 (fun c hc => (nameChar_inName c).mpr (hxn c hc)) hhead hr
            (fun k hk => by have := hs2 k hk; omega)
          rw [h0]
          exact ih ps f' (some c') _ hn' tnames tothers tapart tbefore (tends hne) tfirst hs1 (fun h => hz (by simp [h]))
            (fun ⟨y, hy⟩ => by
              cases ps with
              | nil => simp at hy
              | cons q qs =>
                simp only [List.head?_cons, Option.some.injEq] at hy
                subst hy
                exact absurd rfl (hapart [] x y qs)) (by omega)
        · cases ps with
          | nil =>
            have h0 : textOf m ([] : List Piece) = [] := rfl
            rw [h0, List.append_nil]
            rw [h0] at hf hs2
            obtain ⟨f, rfl⟩ : ∃ f', f = f' + 1 := ⟨f - 1, by simp at hf; omega⟩
            exact codeLoop_end E x f prev st (hident (by simp [hr])) hprev (by simp [hr]) (by
              intro e
              have := hs2 _ e
              simp only [List.length_nil, Nat.add_zero, Nat.lt_irrefl, or_false] at this
              omega)
          | cons q qs =>
            cases q with
            | name y => exact absurd rfl (hapart [] x y qs)
            | mark => exact absurd ⟨[], x, qs, rfl, by rw [hr]; simp⟩ hbefore
            | other d =>
              have hd : nameChar d = false := by
                have := hothers d (by simp)
                rw [← nameChar_inName] at this
                simpa using this
              have htd : textOf m (.other d :: qs) = d :: textOf m qs := rfl
              rw [htd, List.length_cons] at hf hs2
              rw [htd]
              obtain ⟨f, rfl⟩ : ∃ f', f = f' + 1 := ⟨f - 1, by omega⟩
              rw [codeLoop_label E x (textOf m qs) d f prev st r (hident (by simp [hr])) hprev hd hr (by
                intro e
                have := hs2 _ e
                omega)]
              have hne : qs ≠ [] := by
                rintro rfl
                obtain ⟨u, y, e, hl⟩ := tends (by simp)
                cases u with
                | nil => simp at e
                | cons q u => simp at e
              have hq : ∀ st1 : CodeSt, codeLoop E f (some d) (textOf m qs) st1 = none := by
                intro st1
                refine ih qs f (some d) _ (by simp at hn'; omega) (fun x hx => tnames x (by simp [hx])) (fun c hc => tothers c (by simp [hc]))
                  (fun u x y v e => tapart (.other d :: u) x y v (by rw [e]; rfl)) (fun ⟨u, x, v, e, hl⟩ => tbefore ⟨.other d :: u, x, v, by rw [e]; rfl, hl⟩) ?_
                  (fun u v e => tfirst (.other d :: u) v (by rw [e]; rfl)) (hs1.tail (by simp)).1 (fun h => hz (by simp [h])) (fun _ => by simpa using hd) (by omega)
                obtain ⟨u, y, e, hl⟩ := tends (by simp)
                cases u with
                | nil => simp at e
                | cons q u => simp only [List.cons_append, List.cons.injEq] at e; exact ⟨u, y, e.2, hl⟩
              generalize E.onRef st prev x r = w
              cases w with
              | none => rfl
              | some st1 => exact hq _

/-! ### the pieces of a text -/

/-- the pieces of a text without the comment -/
def lexStep (c : Nat) (ps : List Piece) : List Piece :=
  if nameChar c then
    match ps with
    | .name x :: qs => .name (c :: x) :: qs
    | _ => .name [c] :: ps
  else .other c :: ps

/-- see `lexStep` -/
def lexPieces (z : List Nat) : List Piece := z.foldr lexStep []

theorem lexStep_text (m : List Nat) (c : Nat) (ps : List Piece) : textOf m (lexStep c ps) = c :: textOf m ps := by
  unfold lexStep
  split
  · split <;> rfl
  · rfl

theorem lexPieces_text (m z : List Nat) : textOf m (lexPieces z) = z := by
  induction z with
  | nil => rfl
  | cons c z ih => rw [lexPieces, List.foldr_cons, lexStep_text]; exact congrArg (c :: ·) ih

/-- what pieces without the comment satisfy -/
structure Plain (ps : List Piece) : Prop where
  names : ∀ x, .name x ∈ ps → x ≠ [] ∧ ∀ c ∈ x, inName c
  others : ∀ c, .other c ∈ ps → ¬ inName c
  apart : ∀ u x y v, ps ≠ u ++ .name x :: .name y :: v
  mark : .mark ∉ ps

theorem Plain.tail {p : Piece} {ps : List Piece} (h : Plain (p :: ps)) : Plain ps where
  names x hx := h.names x (by simp [hx])
  others c hc := h.others c (by simp [hc])
  apart u x y v e := h.apart (p :: u) x y v (by rw [e]; rfl)
  mark := fun hm => h.mark (by simp [hm])

theorem plain_nil : Plain [] := ⟨by simp, by simp, by simp, by simp⟩

theorem plain_cons (p : Piece) (ps : List Piece) (h : Plain ps) (hp : p ≠ .mark) (h1 : ∀ x, p = .name x → (x ≠ [] ∧ ∀ c ∈ x, inName c) ∧ ∀ y qs, ps ≠ .name y :: qs)
    (h2 : ∀ c, p = .other c → ¬ inName c) : Plain (p :: ps) where
  names x hx := by
    rcases List.mem_cons.mp hx with e | hx
    · exact (h1 x e.symm).1
    · exact h.names x hx
  others c hc := by
    rcases List.mem_cons.mp hc with e | hc
    · exact h2 c e.symm
    · exact h.others c hc
  apart u x y v e := by
    cases u with
    | nil => simp only [List.nil_append, List.cons.injEq] at e; exact (h1 x e.1).2 y v e.2
    | cons q u => simp only [List.cons_append, List.cons.injEq] at e; exact h.apart u x y v e.2
  mark := by
    intro hm
    rcases List.mem_cons.mp hm with e | hm
    · exact hp e.symm
    · exact h.mark hm

theorem plain_lexStep (c : Nat) (ps : List Piece) (h : Plain ps) : Plain (lexStep c ps) := by
  unfold lexStep
  split
  · rename_i hc
    have hc' := (nameChar_inName c).mp hc
    split
    · rename_i x qs
      refine plain_cons _ _ h.tail (by simp) ?_ (by simp)
      intro y e
      simp only [Piece.name.injEq] at e
      subst e
      refine ⟨⟨by simp, ?_⟩, fun y' qs' e => h.apart [] x y' qs' (by rw [e]; rfl)⟩
      intro d hd
      rcases List.mem_cons.mp hd with rfl | hd
      · exact hc'
      · exact (h.names x (by simp)).2 d hd
    · rename_i hne
      refine plain_cons _ _ h (by simp) ?_ (by simp)
      intro y e
      simp only [Piece.name.injEq] at e
      subst e
      exact ⟨⟨by simp, by simpa using hc'⟩, fun y' qs' e => hne y' qs' e⟩
  · rename_i hc
    refine plain_cons _ _ h (by simp) (by simp) ?_
    intro d e
    simp only [Piece.other.injEq] at e
    subst e
    rw [← nameChar_inName]; exact hc

theorem plain_lexPieces (z : List Nat) : Plain (lexPieces z) := by
  induction z with
  | nil => exact plain_nil
  | cons c z ih => exact plain_lexStep c _ ih

theorem lexPieces_name (x : List Nat) (hx0 : x ≠ []) (hx : ∀ c ∈ x, inName c) (t : List Nat) (ht : ∀ y qs, lexPieces t ≠ .name y :: qs) :
    lexPieces (x ++ t) = .name x :: lexPieces t := by
  induction x with
  | nil => simp at hx0
  | cons c x ih =>
    have hc := (nameChar_inName c).mpr (hx c (by simp))
    rw [List.cons_append, lexPieces, List.foldr_cons]
    change lexStep c (lexPieces (x ++ t)) = _
    by_cases h : x = []
    · subst h
      rw [List.nil_append]
      unfold lexStep
      rw [if_pos hc]
      split
      · rename_i y qs e; exact absurd e (ht y qs)
      · rfl
    · rw [ih h (fun d hd => hx d (by simp [hd])), lexStep, if_pos hc]

theorem lexPieces_textOf (m : List Nat) (ps : List Piece) (h : Plain ps) : lexPieces (textOf m ps) = ps := by
  induction ps with
  | nil => rfl
  | cons p ps ih =>
    have ih' := ih h.tail
    cases p with
    | mark => exact absurd (by simp) h.mark
    | other c =>
      have hc : nameChar c = false := by
        have := h.others c (by simp)
        rw [← nameChar_inName] at this
        simpa using this
      change lexStep c (lexPieces (textOf m ps)) = _
      rw [ih']
      unfold lexStep
      rw [hc]
      rfl
    | name x =>
      obtain ⟨h1, h2⟩ := h.names x (by simp)
      rw [textOf_cons, Piece.text, lexPieces_name x h1 h2 _ (by
        intro y qs e
        rw [ih'] at e
        exact h.apart [] x y qs (by rw [e]; rfl)), ih']

theorem mark_split (ps : List Piece) (h : .mark ∈ ps) : ∃ u v, ps = u ++ .mark :: v ∧ .mark ∉ u := by
  induction ps with
  | nil => simp at h
  | cons p ps ih =>
    by_cases hp : p = .mark
    · exact ⟨[], ps, by rw [hp]; rfl, by simp⟩
    · obtain ⟨u, v, e, hu⟩ := ih (by rcases List.mem_cons.mp h with h | h; exact absurd h.symm hp; exact h)
      exact ⟨p :: u, v, by rw [e]; rfl, by
        intro hm
        rcases List.mem_cons.mp hm with h | h
        · exact hp h.symm
        · exact hu h⟩

theorem Plain.append_left {u v : List Piece} (h1 : ∀ x, .name x ∈ u ++ v → x ≠ [] ∧ ∀ c ∈ x, inName c) (h2 : ∀ c, .other c ∈ u ++ v → ¬ inName c)
    (h3 : ∀ a x y b, u ++ v ≠ a ++ .name x :: .name y :: b) (h4 : .mark ∉ u) : Plain u where
  names x hx := h1 x (by simp [hx])
  others c hc := h2 c (by simp [hc])
  apart a x y b e := h3 a x y (b ++ v) (by rw [e]; simp)
  mark := h4

theorem Plain.append_right {u v : List Piece} (h1 : ∀ x, .name x ∈ u ++ v → x ≠ [] ∧ ∀ c ∈ x, inName c) (h2 : ∀ c, .other c ∈ u ++ v → ¬ inName c)
    (h3 : ∀ a x y b, u ++ v ≠ a ++ .name x :: .name y :: b) (h4 : .mark ∉ v) : Plain v where
  names x hx := h1 x (by simp [hx])
  others c hc := h2 c (by simp [hc])
  apart a x y b e := h3 (u ++ a) x y b (by rw [e]; simp)
  mark := h4

theorem comment_form (L : Labels) (m : List Nat) (h : L.comment = some m) :
    ∃ a b, L.lhs = some a ∧ L.rhs.head? = some (some b) ∧ a ≠ b ∧ m = overwrites a b := by
  unfold Labels.comment at h
  split at h
  · rename_i a b h1 h2
    split at h
    · simp at h
    · rename_i hab
      refine ⟨a, b, h1, h2, hab, ?_⟩
      simp only [Option.some.injEq] at h
      rw [← h, overwrites]
      have e1 : Verif.Spec.GFile.text "/*" = [47, 42] := by decide
      have e2 : Verif.Spec.GFile.text "-overwrites-" = [45, 111, 118, 101, 114, 119, 114, 105, 116, 101, 115, 45] := by decide
      have e3 : Verif.Spec.GFile.text "*/" = [42, 47] := by decide
      rw [e1, e2, e3]
  · simp at h

theorem comment_slash (L : Labels) (m : List Nat) (h : L.comment = some m) : ∃ m', m = 47 :: m' := by
  obtain ⟨a, b, _, _, _, rfl⟩ := comment_form L m h
  exact ⟨_, rfl⟩

/-- the pieces after the first comment -/
theorem divides_mark {m : Option (List Nat)} {z : List Nat} {ps : List Piece} (h : Divides m z ps) (hm : .mark ∈ ps) :
    ∃ m' u v, m = some m' ∧ ps = u ++ .mark :: v ∧ Plain u ∧ Plain v ∧ z = textOf m' u ++ m' ++ textOf m' v ∧
      ∀ k < (textOf m' u).length, ¬ m' <+: z.drop k := by
  obtain ⟨m', rfl, _⟩ := h.marked.mp hm
  obtain ⟨u, v, e, hu⟩ := mark_split ps hm
  obtain ⟨f1, f2⟩ := h.first u v e
  have ht := h.text
  have h1 := h.names
  have h2 := h.others
  have h3 := h.apart
  rw [e] at ht h1 h2 h3
  refine ⟨m', u, v, rfl, e, Plain.append_left h1 h2 h3 hu, ?_, ?_, f2⟩
  · have e' : u ++ Piece.mark :: v = (u ++ [.mark]) ++ v := by simp
    rw [e'] at h1 h2 h3
    exact Plain.append_right h1 h2 h3 f1
  · rw [ht, textOf_append, textOf_cons]; simp [Piece.text]

theorem divides_plain {m : Option (List Nat)} {z : List Nat} {ps : List Piece} (h : Divides m z ps) (hm : .mark ∉ ps) :
    Plain ps ∧ ∀ m', m = some m' → ¬ m' <:+: z := by
  refine ⟨⟨h.names, h.others, h.apart, hm⟩, fun m' e hi => hm (h.marked.mpr ⟨m', e, hi⟩)⟩

/-- a text can be divided in one way only -/
theorem divides_unique {m : Option (List Nat)} {z : List Nat} {ps qs : List Piece} (h1 : Divides m z ps) (h2 : Divides m z qs) : ps = qs := by
  by_cases hm : .mark ∈ ps
  · have hm2 : .mark ∈ qs := h2.marked.mpr (h1.marked.mp hm)
    obtain ⟨m1, u, v, e1, rfl, pu, pv, t1, k1⟩ := divides_mark h1 hm
    obtain ⟨m2, u', v', e2, rfl, pu', pv', t2, k2⟩ := divides_mark h2 hm2
    rw [e1] at e2
    simp only [Option.some.injEq] at e2
    subst e2
    have hl : (textOf m1 u).length = (textOf m1 u').length := by
      rcases Nat.lt_trichotomy (textOf m1 u).length (textOf m1 u').length with h | h | h
      · exfalso; apply k2 _ h; rw [t1]; simp
      · exact h
      · exfalso; apply k1 _ h; rw [t2]; simp
    have ht : textOf m1 u ++ (m1 ++ textOf m1 v) = textOf m1 u' ++ (m1 ++ textOf m1 v') := by
      rw [← List.append_assoc, ← List.append_assoc, ← t1, ← t2]
    obtain ⟨g1, g2⟩ := List.append_inj ht hl
    have g3 := List.append_cancel_left g2
    have := lexPieces_textOf m1 u pu
    rw [g1, lexPieces_textOf m1 u' pu'] at this
    have h3 := lexPieces_textOf m1 v pv
    rw [g3, lexPieces_textOf m1 v' pv'] at h3
    rw [this, h3]
  · have hm2 : .mark ∉ qs := fun h => hm (h1.marked.mpr (h2.marked.mp h))
    have g1 := lexPieces_textOf (m.getD []) ps (divides_plain h1 hm).1
    have g2 := lexPieces_textOf (m.getD []) qs (divides_plain h2 hm2).1
    rw [← h1.text] at g1
    rw [← h2.text] at g2
    rw [← g1, g2]

theorem first_infix (m : List Nat) : ∀ z : List Nat, m <:+: z → ∃ a b, z = a ++ m ++ b ∧ ∀ k < a.length, ¬ m <+: z.drop k := by
  intro z
  induction z with
  | nil => intro h; exact ⟨[], [], by simpa using h, by simp⟩
  | cons c z ih =>
    intro h
    by_cases hp : m <+: c :: z
    · obtain ⟨b, hb⟩ := hp
      exact ⟨[], b, by simp [hb], by simp⟩
    · rcases List.infix_cons_iff.mp h with h | h
      · exact absurd h hp
      · obtain ⟨a, b, e, hk⟩ := ih h
        refine ⟨c :: a, b, by rw [e]; simp, ?_⟩
        intro k hk'
        cases k with
        | zero => simpa using hp
        | succ k => simpa using hk k (by simpa using hk')

/-- every text can be divided -/
theorem divides_exists (L : Labels) (z : List Nat) : ∃ ps, Divides L.comment z ps := by
  by_cases hi : ∃ m', L.comment = some m' ∧ m' <:+: z
  · obtain ⟨m', e, hi⟩ := hi
    obtain ⟨m0, hm0⟩ := comment_slash L m' e
    obtain ⟨a, b, hz, hk⟩ := first_infix m' z hi
    have pa := plain_lexPieces a
    have pb := plain_lexPieces b
    refine ⟨lexPieces a ++ .mark :: lexPieces b, ?_, ?_, ?_, ?_, ?_, ?_⟩
    · rw [e, Option.getD_some, textOf_append, textOf_cons, lexPieces_text, lexPieces_text, hz]
      simp [Piece.text]
    · intro x hx
      simp only [List.mem_append, List.mem_cons, reduceCtorEq, false_or] at hx
      rcases hx with h | h
      · exact pa.names x h
      · exact pb.names x h
    · intro c hc
      simp only [List.mem_append, List.mem_cons, reduceCtorEq, false_or] at hc
      rcases hc with h | h
      · exact pa.others c h
      · exact pb.others c h
    · intro u x y v e'
      rcases List.append_eq_append_iff.mp e' with ⟨w, h1, h2⟩ | ⟨w, h1, h2⟩
      · cases w with
        | nil => simp at h2
        | cons q w =>
          simp only [List.cons_append, List.cons.injEq] at h2
          exact pb.apart w x y v h2.2
      · cases w with
        | nil => simp at h2
        | cons q w =>
          simp only [List.cons_append, List.cons.injEq] at h2
          cases w with
          | nil => simp at h2
          | cons q' w =>
            simp only [List.cons_append, List.cons.injEq] at h2
            exact pa.apart u x y w (by rw [h1, h2.1, h2.2.1])
    · exact ⟨fun _ => ⟨m', e, hi⟩, fun _ => by simp⟩
    · intro u v e'
      have hu : u = lexPieces a ∧ v = lexPieces b := by
        rcases List.append_eq_append_iff.mp e' with ⟨w, h1, h2⟩ | ⟨w, h1, h2⟩
        · cases w with
          | nil => simp only [List.nil_append, List.cons.injEq, true_and] at h2; exact ⟨by simpa using h1, h2.symm⟩
          | cons q w =>
            simp only [List.cons_append, List.cons.injEq] at h2
            exact absurd (by rw [h2.2]; simp) pb.mark
        · cases w with
          | nil => simp only [List.nil_append, List.cons.injEq, true_and] at h2; exact ⟨by simpa using h1.symm, h2⟩
          | cons q w =>
            simp only [List.cons_append, List.cons.injEq] at h2
            exact absurd (by rw [h1, h2.1]; simp) pa.mark
      rw [hu.1, hu.2, e, Option.getD_some, lexPieces_text]
      exact ⟨pb.mark, hk⟩
  · have p := plain_lexPieces z
    exact ⟨lexPieces z, by rw [lexPieces_text], p.names, p.others, p.apart, ⟨fun h => absurd h p.mark, fun h => absurd h hi⟩, fun u v e => absurd (by rw [e]; simp) p.mark⟩

theorem strstr_none (m z : List Nat) (h : ¬ m <:+: z) : strstr m z = none := by
  induction z with
  | nil =>
    rw [strstr, if_neg]
    rintro rfl
    exact h (List.infix_refl _)
  | cons c z ih =>
    rw [strstr, if_neg, ih]
    · intro hi; exact h (hi.trans (List.infix_cons (List.infix_refl _)))
    · intro hp
      rw [List.isPrefixOf_iff_prefix] at hp
      exact h hp.isInfix

theorem strstr_first (m : List Nat) (hm : m ≠ []) : ∀ (a b : List Nat), (∀ k < a.length, ¬ m <+: (a ++ m ++ b).drop k) → strstr m (a ++ m ++ b) = some (m ++ b).length := by
  intro a
  induction a with
  | nil =>
    intro b _
    cases m with
    | nil => simp at hm
    | cons c m =>
      simp only [List.nil_append, List.cons_append]
      rw [strstr, if_pos]
      · simp
      · rw [List.isPrefixOf_iff_prefix]
        exact ⟨b, by simp⟩
  | cons c a ih =>
    intro b h
    simp only [List.cons_append]
    rw [strstr, if_neg]
    · apply ih
      intro k hk
      have := h (k + 1) (by simpa using hk)
      simpa using this
    · rw [List.isPrefixOf_iff_prefix]
      have := h 0 (by simp)
      simpa using this

theorem markLen_append (m : List Nat) (u v : List Piece) (hu : .mark ∉ u) : markLen m (u ++ .mark :: v) = some (textOf m (.mark :: v)).length := by
  induction u with
  | nil => rfl
  | cons p u ih =>
    cases p with
    | mark => simp at hu
    | name x => exact ih (by simpa using hu)
    | other c => exact ih (by simpa using hu)

/-- `strstr` finds the comment -/
theorem strstr_divides {m : List Nat} {z : List Nat} {ps : List Piece} (h : Divides (some m) z ps) (hm : m ≠ []) : strstr m z = markLen m ps := by
  by_cases hmk : .mark ∈ ps
  · obtain ⟨m1, u, v, e1, e, pu, pv, t1, k1⟩ := divides_mark h hmk
    simp only [Option.some.injEq] at e1
    subst e1
    rw [e, markLen_append m u v pu.mark, textOf_cons, Piece.text, t1]
    rw [t1] at k1
    exact strstr_first m hm _ _ k1
  · rw [markLen_none m ps hmk]
    exact strstr_none m z ((divides_plain h hmk).2 m rfl)

theorem noBad_iff (L : Labels) : ∀ (ps : List Piece) (d : Bool), NoBad L d ps ↔
    (d = true → ¬ UsesLabel L ps (.rhs 0)) ∧ ∀ u v, ps = u ++ .mark :: v → ¬ UsesLabel L v (.rhs 0) := by
  intro ps
  induction ps with
  | nil => intro d; simp [NoBad, UsesLabel]
  | cons p ps ih =>
    intro d
    have hmk : p ≠ .mark → ((∀ u v, p :: ps = u ++ .mark :: v → ¬ UsesLabel L v (.rhs 0)) ↔ ∀ u v, ps = u ++ .mark :: v → ¬ UsesLabel L v (.rhs 0)) := by
      intro hp
      constructor
      · intro h u v e; exact h (p :: u) v (by rw [e]; rfl)
      · intro h u v e
        cases u with
        | nil => simp only [List.nil_append, List.cons.injEq] at e; exact absurd e.1 hp
        | cons q u => simp only [List.cons_append, List.cons.injEq] at e; exact h u v e.2
    cases p with
    | name x =>
      rw [NoBad, ih, hmk (by simp), uses_name]
      tauto
    | other c => rw [NoBad, ih, hmk (by simp), uses_other]
    | mark =>
      rw [NoBad, ih, uses_mark]
      constructor
      · rintro ⟨h1, h2⟩
        refine ⟨fun _ => h1 rfl, ?_⟩
        intro u v e
        cases u with
        | nil => simp only [List.nil_append, List.cons.injEq, true_and] at e; rw [← e]; exact h1 rfl
        | cons q u => simp only [List.cons_append, List.cons.injEq] at e; exact h2 u v e.2
      · rintro ⟨h1, h2⟩
        exact ⟨fun _ => h2 [] ps rfl, fun u v e => h2 (.mark :: u) v (by rw [e]; rfl)⟩

end Verif.Lemon
