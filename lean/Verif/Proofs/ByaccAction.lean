import Verif.Proofs.ByaccCode
import Verif.Byacc.Action
/-
Helper lemmas: actions are translated as specified.
-/
set_option autoImplicit false
namespace Verif.Byacc.Rd
open Spec.YText

theorem isName2_iff (c : Nat) : isName2 c = true ↔ IdChar c := by
  simp [isName2, isAlnum, isAlpha_iff, isDigit_iff, IdChar, or_assoc]

theorem number0_iff (t : List Nat) (n : Nat) (u : List Nat) : getNumber t = .ok (n, u) ↔ Number0At n t u ∧ n ≤ 2147483647 := by
  by_cases h : ∃ c r, t = c :: r ∧ Digit c
  · rw [getNumber_iff t n u h]
    unfold Number0At
    constructor
    · rintro ⟨h1, h2⟩; exact ⟨.inl h1, h2⟩
    · rintro ⟨h1 | ⟨-, -, h1⟩, h2⟩
      · exact ⟨h1, h2⟩
      · obtain ⟨c, r, rfl, hc⟩ := h
        exact absurd hc (h1 c r rfl)
  · have hn : NotNext Digit t := by
      intro c r hc hd; exact h ⟨c, r, hc, hd⟩
    have h1 : t.takeWhile isDigit = [] ∧ t.dropWhile isDigit = t := (span_iff isDigit Digit isDigit_iff t [] t).2 ⟨rfl, by simp, hn⟩
    unfold getNumber Number0At
    rw [h1.1, h1.2]
    simp only [decValue, List.foldl_nil, Nat.not_lt_zero, if_false, Except.ok.injEq, Prod.mk.injEq]
    constructor
    · rintro ⟨rfl, rfl⟩
      exact ⟨.inr ⟨rfl, rfl, hn⟩, by omega⟩
    · rintro ⟨h2 | ⟨rfl, rfl, -⟩, -⟩
      · exact absurd (NumberAt.first h2) h
      · exact ⟨rfl, rfl⟩

theorem nameRest_iff (c : Nat) (r v : List Nat) (hc : Letter c ∨ c = 95) : v = (c :: r).dropWhile isName2 ↔
    ∃ s, c :: r = s ++ v ∧ (∃ d r', s = d :: r' ∧ (Letter d ∨ d = 95)) ∧ (∀ c ∈ s, IdChar c) ∧ NotNext IdChar v := by
  have hi : IdChar c := by unfold IdChar; rcases hc with h | h <;> simp [h]
  constructor
  · rintro rfl
    obtain ⟨h1, h2, h3⟩ := (span_iff isName2 IdChar isName2_iff (c :: r) _ _).1 ⟨rfl, rfl⟩
    refine ⟨_, h1, ?_, h2, h3⟩
    rw [List.takeWhile_cons, if_pos ((isName2_iff c).2 hi)]
    exact ⟨c, _, rfl, hc⟩
  · rintro ⟨s, h1, -, h2, h3⟩
    rw [h1, dropWhile_app isName2_iff h2 h3]

theorem tagRefAt_cons (rf : RefTo) (c : Nat) (r v : List Nat) : TagRefAt rf (c :: r) v ↔
    (c = 36 ∧ rf = .lhs ∧ v = r) ∨ (Digit c ∧ ∃ n, rf = .pos n ∧ getNumber (c :: r) = .ok (n, v)) ∨
    (c = 45 ∧ (∃ d r', r = d :: r' ∧ Digit d) ∧ ∃ n, rf = .neg n ∧ getNumber r = .ok (n, v)) ∨
    ((Letter c ∨ c = 95) ∧ rf = .name ∧ v = (c :: r).dropWhile isName2) := by
  constructor
  · intro h
    generalize ht : c :: r = t at h
    cases h with
    | lhs u => cases ht; exact .inl ⟨rfl, rfl, rfl⟩
    | pos n _ _ h1 h2 =>
      subst ht
      obtain ⟨d, r', h3, h4⟩ := NumberAt.first h1
      cases h3
      exact .inr (.inl ⟨h4, n, rfl, (getNumber_iff _ _ _ ⟨_, _, rfl, h4⟩).2 ⟨h1, h2⟩⟩)
    | neg n _ _ h1 h2 =>
      cases ht
      have hf := NumberAt.first h1
      exact .inr (.inr (.inl ⟨rfl, hf, n, rfl, (getNumber_iff _ _ _ hf).2 ⟨h1, h2⟩⟩))
    | name s _ _ h1 h2 h3 h4 =>
      subst ht
      obtain ⟨d, r', rfl, hd⟩ := h2
      cases h1
      exact .inr (.inr (.inr ⟨hd, rfl, (nameRest_iff _ _ _ hd).2 ⟨_, rfl, ⟨_, _, rfl, hd⟩, h3, h4⟩⟩))
  · rintro (⟨rfl, rfl, rfl⟩ | ⟨h1, n, rfl, h2⟩ | ⟨rfl, h1, n, rfl, h2⟩ | ⟨h1, rfl, h2⟩)
    · exact .lhs v
    · obtain ⟨h3, h4⟩ := (getNumber_iff _ _ _ ⟨_, _, rfl, h1⟩).1 h2
      exact .pos n _ _ h3 h4
    · obtain ⟨h3, h4⟩ := (getNumber_iff _ _ _ h1).1 h2
      exact .neg n _ _ h3 h4
    · obtain ⟨s, h3, h4, h5, h6⟩ := (nameRest_iff _ _ _ h1).1 h2
      exact .name s _ _ h3 h4 h5 h6

theorem refAt_cons (named : Bool) (rf : RefTo) (c : Nat) (r v : List Nat) : RefAt named rf (c :: r) v ↔
    (c = 36 ∧ rf = .lhs ∧ v = r) ∨ (Digit c ∧ ∃ n, rf = .pos n ∧ getNumber (c :: r) = .ok (n, v)) ∨
    (c = 45 ∧ ∃ n, rf = .neg n ∧ getNumber r = .ok (n, v)) ∨
    (named = true ∧ (Letter c ∨ c = 95) ∧ rf = .name ∧ v = (c :: r).dropWhile isName2) := by
  constructor
  · intro h
    generalize ht : c :: r = t at h
    cases h with
    | lhs u => cases ht; exact .inl ⟨rfl, rfl, rfl⟩
    | pos n _ _ h1 h2 =>
      subst ht
      obtain ⟨d, r', h3, h4⟩ := NumberAt.first h1
      cases h3
      exact .inr (.inl ⟨h4, n, rfl, (getNumber_iff _ _ _ ⟨_, _, rfl, h4⟩).2 ⟨h1, h2⟩⟩)
    | neg n _ _ h1 h2 =>
      cases ht
      exact .inr (.inr (.inl ⟨rfl, n, rfl, (number0_iff _ _ _).2 ⟨h1, h2⟩⟩))
    | name s _ _ hn h1 h2 h3 h4 =>
      subst ht
      obtain ⟨d, r', rfl, hd⟩ := h2
      cases h1
      exact .inr (.inr (.inr ⟨hn, hd, rfl, (nameRest_iff _ _ _ hd).2 ⟨_, rfl, ⟨_, _, rfl, hd⟩, h3, h4⟩⟩))
  · rintro (⟨rfl, rfl, rfl⟩ | ⟨h1, n, rfl, h2⟩ | ⟨rfl, n, rfl, h2⟩ | ⟨hn, h1, rfl, h2⟩)
    · exact .lhs v
    · obtain ⟨h3, h4⟩ := (getNumber_iff _ _ _ ⟨_, _, rfl, h1⟩).1 h2
      exact .pos n _ _ h3 h4
    · obtain ⟨h3, h4⟩ := (number0_iff _ _ _).1 h2
      exact .neg n _ _ h3 h4
    · obtain ⟨s, h3, h4, h5, h6⟩ := (nameRest_iff _ _ _ h1).1 h2
      exact .name s _ _ hn h3 h4 h5 h6

theorem refAt_nil (named : Bool) (rf : RefTo) (v : List Nat) : ¬ RefAt named rf [] v := by
  intro h
  generalize ht : [] = t at h
  cases h with
  | lhs => cases ht
  | pos n _ _ h1 => obtain ⟨d, r', h3, -⟩ := NumberAt.first h1; rw [← ht] at h3; cases h3
  | neg => cases ht
  | name s _ _ _ h1 h2 => obtain ⟨d, r', rfl, -⟩ := h2; rw [← ht] at h1; cases h1

theorem tagRefAt_nil (rf : RefTo) (v : List Nat) : ¬ TagRefAt rf [] v := by
  intro h
  generalize ht : [] = t at h
  cases h with
  | lhs => cases ht
  | pos n _ _ h1 => obtain ⟨d, r', h3, -⟩ := NumberAt.first h1; rw [← ht] at h3; cases h3
  | neg => cases ht
  | name s _ _ h1 h2 => obtain ⟨d, r', rfl, -⟩ := h2; rw [← ht] at h1; cases h1

theorem offsetOf_eq (n i : Nat) : offsetOf n i = (i : Int) - n := by
  unfold offsetOf
  split
  · rename_i h
    have : i = 0 := by simpa using h
    subst this; simp
  · split <;> rfl

/-- what is written for a value -/
def refOut (n : Nat) : RefTo → List Nat
  | .lhs => str "yyval"
  | .pos i => lMark ((i : Int) - n)
  | .neg i => lMark (-(i : Int) - n)
  | .name => lMark (-(n : Int))

theorem valueRef_iff (n : Nat) (rf : RefTo) (s : List Nat) : ValueRef n rf s ↔ s = refOut n rf := by
  cases rf with
  | lhs => simp only [ValueRef, offset, refOut, str_eq_txt]
  | pos i => simp only [ValueRef, offset, refOut, lMark_iff]
  | neg i => simp only [ValueRef, offset, refOut, lMark_iff]
  | name => simp only [ValueRef, offset, refOut, lMark_iff]

/-- the types an action is translated with -/
def ActCtx.types (x : ActCtx) : Types := ⟨x.lhsTag, x.rhsTags⟩

theorem digit_not {c : Nat} (h : Digit c) : c ≠ 36 ∧ c ≠ 45 ∧ c ≠ 60 ∧ c ≠ 95 ∧ ¬ Letter c := by
  unfold Digit at h; unfold Letter; omega
theorem letter_not {c : Nat} (h : Letter c ∨ c = 95) : c ≠ 36 ∧ c ≠ 45 ∧ c ≠ 60 ∧ ¬ Digit c := by
  unfold Letter at h; unfold Digit; omega

theorem tagRef_iff (x : ActCtx) (r o v : List Nat) (h : Bool) : tagRef x (36 :: 60 :: r) = .ok (o, v, h) ↔
    h = true ∧ ∃ tag rf u, TagAt tag (60 :: r) u ∧ TagRefAt rf u v ∧ o = refOut x.n rf ++ 46 :: tag := by
  unfold tagRef
  simp only [List.drop_succ_cons, List.drop_zero, bind_ok]
  constructor
  · rintro ⟨⟨tag, u⟩, h1, h2⟩
    have ht := (getTag_iff _ _ _ ⟨r, rfl⟩).1 h1
    simp only at h2
    cases u with
    | nil => cases h2
    | cons c w =>
      simp only at h2
      split at h2
      · rename_i hc
        cases h2
        refine ⟨rfl, tag, .lhs, _, ht, (tagRefAt_cons _ _ _ _).2 (.inl ⟨by simpa using hc, rfl, rfl⟩), rfl⟩
      split at h2
      · rename_i hc
        rw [bind_ok] at h2
        obtain ⟨⟨n, w'⟩, h3, h4⟩ := h2
        cases h4
        refine ⟨rfl, tag, .pos n, _, ht, (tagRefAt_cons _ _ _ _).2 (.inr (.inl ⟨(isDigit_iff c).1 hc, n, rfl, h3⟩)), ?_⟩
        simp [refOut, offsetOf_eq, dotTag]
      split at h2
      · rename_i hc
        simp only [Bool.and_eq_true, beq_iff_eq] at hc
        rw [bind_ok] at h2
        obtain ⟨⟨n, w'⟩, h3, h4⟩ := h2
        cases h4
        refine ⟨rfl, tag, .neg n, _, ht, (tagRefAt_cons _ _ _ _).2 (.inr (.inr (.inl ⟨hc.1, ?_, n, rfl, h3⟩))), ?_⟩
        · cases w with
          | nil => exact absurd hc.2 (by simp)
          | cons d w => exact ⟨d, w, rfl, (isDigit_iff d).1 (by simpa using hc.2)⟩
        · simp [refOut, dotTag]
      split at h2
      · rename_i hc
        cases h2
        refine ⟨rfl, tag, .name, _, ht, (tagRefAt_cons _ _ _ _).2 (.inr (.inr (.inr ⟨?_, rfl, rfl⟩))), ?_⟩
        · simpa [isAlpha_iff] using hc
        · simp [refOut, dotTag]
      · cases h2
  · rintro ⟨rfl, tag, rf, u, ht, hr, rfl⟩
    refine ⟨(tag, u), (getTag_iff _ _ _ ⟨r, rfl⟩).2 ht, ?_⟩
    simp only
    cases u with
    | nil => exact absurd hr (tagRefAt_nil rf v)
    | cons c w =>
      simp only
      rcases (tagRefAt_cons _ _ _ _).1 hr with ⟨rfl, rfl, rfl⟩ | ⟨h1, n, rfl, h2⟩ | ⟨rfl, h1, n, rfl, h2⟩ | ⟨h1, rfl, h2⟩
      · rfl
      · have := digit_not h1
        rw [if_neg (by simpa using this.1), if_pos ((isDigit_iff c).2 h1), bind_ok]
        exact ⟨_, h2, by simp [refOut, offsetOf_eq, dotTag]⟩
      · obtain ⟨d, w', rfl, hd⟩ := h1
        have e : isDigit d = true := (isDigit_iff d).2 hd
        rw [if_neg (by decide), if_neg (by decide), if_pos (by simp [e]), bind_ok]
        exact ⟨_, h2, by simp [refOut, dotTag]⟩
      · have := letter_not h1
        rw [if_neg (by simpa using this.1), if_neg (by rw [isDigit_iff]; exact this.2.2.2), if_neg (by simp [this.2.1]), if_pos (by simpa [isAlpha_iff] using h1), ← h2]
        simp [refOut, dotTag]

/-- a part that is a reference -/
def IsRef : Part → Prop
  | .code _ => False
  | _ => True

theorem partAt_dollar (p : Part) (hp : IsRef p) (t v : List Nat) : PartAt p (36 :: t) v ↔
    (∃ rf, p = .value none rf ∧ RefAt true rf t v) ∨ (∃ tag rf u, p = .value (some tag) rf ∧ TagAt tag t u ∧ TagRefAt rf u v) := by
  constructor
  · intro h
    generalize hx : 36 :: t = y at h
    cases h with
    | value r _ _ h => cases hx; exact .inl ⟨r, rfl, h⟩
    | tagged tag r _ u _ h1 h2 => cases hx; exact .inr ⟨tag, r, u, rfl, h1, h2⟩
    | place r => cases hx
    | ident => exact absurd hp (by simp [IsRef])
    | copied => exact absurd hp (by simp [IsRef])
  · rintro (⟨rf, rfl, h⟩ | ⟨tag, rf, u, rfl, h1, h2⟩)
    · exact .value rf t v h
    · exact .tagged tag rf t u v h1 h2

theorem partAt_at (p : Part) (hp : IsRef p) (t v : List Nat) : PartAt p (64 :: t) v ↔ ∃ rf, p = .place rf ∧ RefAt false rf t v := by
  constructor
  · intro h
    generalize hx : 64 :: t = y at h
    cases h with
    | value r _ _ h => cases hx
    | tagged tag r _ u _ h1 h2 => cases hx
    | place r _ _ h => cases hx; exact ⟨r, rfl, h⟩
    | ident => exact absurd hp (by simp [IsRef])
    | copied => exact absurd hp (by simp [IsRef])
  · rintro ⟨rf, rfl, h⟩
    exact .place rf t v h

theorem valueOut (X : Types) (tags : Bool) (rf : RefTo) (o : List Nat) (h : Bool) : PartOut X tags (.value none rf) o h ↔
    h = tags ∧ ∃ ty, typeOf X tags rf = some ty ∧ o = refOut X.rhs.length rf ++ dotTag ty := by
  constructor
  · intro h
    generalize hp : Part.value none rf = p at h
    cases h with
    | code => cases hp
    | plain _ _ h1 h2 => cases hp; exact ⟨rfl, none, h1, by rw [(valueRef_iff _ _ _).1 h2]; simp [dotTag]⟩
    | typed _ _ ty h1 h2 => cases hp; exact ⟨rfl, some ty, h1, by rw [(valueRef_iff _ _ _).1 h2]; simp [dotTag]⟩
    | tagged => cases hp
    | here => cases hp
    | place => cases hp
  · rintro ⟨rfl, ty, h1, rfl⟩
    cases ty with
    | none => exact .plain _ rf _ h1 ((valueRef_iff _ _ _).2 (by simp [dotTag]))
    | some ty => exact .typed _ rf _ ty h1 ((valueRef_iff _ _ _).2 rfl)

theorem taggedOut (X : Types) (tags : Bool) (tag : List Nat) (rf : RefTo) (o : List Nat) (h : Bool) : PartOut X tags (.value (some tag) rf) o h ↔
    h = true ∧ o = refOut X.rhs.length rf ++ 46 :: tag := by
  constructor
  · intro h
    generalize hp : Part.value (some tag) rf = p at h
    cases h with
    | code => cases hp
    | plain _ _ h1 h2 => cases hp
    | typed _ _ ty h1 h2 => cases hp
    | tagged _ _ _ h1 => cases hp; exact ⟨rfl, by rw [(valueRef_iff _ _ _).1 h1]⟩
    | here => cases hp
    | place => cases hp
  · rintro ⟨rfl, rfl⟩
    exact .tagged _ rf _ tag ((valueRef_iff _ _ _).2 rfl)

/-- what is written for a place -/
def placeOut (n : Nat) : RefTo → List Nat
  | .lhs => str "yyloc"
  | .pos i => pMark ((i : Int) - n)
  | .neg i => pMark (-(i : Int) - n)
  | .name => pMark (-(n : Int))

theorem placeOut_iff (X : Types) (tags : Bool) (rf : RefTo) (o : List Nat) (h : Bool) : PartOut X tags (.place rf) o h ↔
    h = tags ∧ o = placeOut X.rhs.length rf := by
  constructor
  · intro h
    generalize hp : Part.place rf = p at h
    cases h with
    | code => cases hp
    | plain _ _ h1 h2 => cases hp
    | typed _ _ ty h1 h2 => cases hp
    | tagged _ _ _ h1 => cases hp
    | here => cases hp; exact ⟨rfl, (str_eq_txt _).symm⟩
    | place _ _ _ h1 h2 =>
      cases hp
      rw [pMark_iff] at h2
      cases rf with
      | lhs => cases h1
      | pos n => cases h1; exact ⟨rfl, h2⟩
      | neg n => cases h1; exact ⟨rfl, h2⟩
      | name => cases h1; exact ⟨rfl, h2⟩
  · rintro ⟨rfl, rfl⟩
    cases rf with
    | lhs => simp only [placeOut, str_eq_txt]; exact .here _
    | pos n => exact .place _ _ _ _ rfl ((pMark_iff _ _).2 rfl)
    | neg n => exact .place _ _ _ _ rfl ((pMark_iff _ _).2 rfl)
    | name => exact .place _ _ _ _ rfl ((pMark_iff _ _).2 rfl)

theorem TagAt.head {tag t u : List Nat} (h : TagAt tag t u) : ∃ r, t = 60 :: r := by
  obtain ⟨t1, -, -, h, -⟩ := h; exact ⟨t1, h⟩

theorem dollarStart_cons (c : Nat) (r : List Nat) : DollarStart (c :: r) ↔ (c = 60 ∨ c = 36 ∨ Digit c ∨ c = 45 ∨ Letter c ∨ c = 95) := by
  unfold DollarStart
  constructor
  · rintro ⟨c', u, h, h'⟩; cases h; exact h'
  · intro h; exact ⟨c, r, rfl, h⟩

theorem atStart_cons (c : Nat) (r : List Nat) : AtStart (c :: r) ↔ (c = 36 ∨ Digit c ∨ c = 45) := by
  unfold AtStart
  constructor
  · rintro ⟨c', u, h, h'⟩; cases h; exact h'
  · intro h; exact ⟨c, r, rfl, h⟩

theorem dollarRef_some (x : ActCtx) (ht : Bool) (t o v : List Nat) (h : Bool) : dollarRef x ht (36 :: t) = .ok (some (o, v, h)) ↔
    ∃ p, IsRef p ∧ PartAt p (36 :: t) v ∧ PartOut x.types ht p o h := by
  have key : (∃ p, IsRef p ∧ PartAt p (36 :: t) v ∧ PartOut x.types ht p o h) ↔
      (h = ht ∧ ∃ rf, RefAt true rf t v ∧ ∃ ty, typeOf x.types ht rf = some ty ∧ o = refOut x.n rf ++ dotTag ty) ∨
      (h = true ∧ ∃ tag rf u, TagAt tag t u ∧ TagRefAt rf u v ∧ o = refOut x.n rf ++ 46 :: tag) := by
    constructor
    · rintro ⟨p, h1, h2, h3⟩
      rcases (partAt_dollar p h1 t v).1 h2 with ⟨rf, rfl, h4⟩ | ⟨tag, rf, u, rfl, h4, h5⟩
      · obtain ⟨h6, h7⟩ := (valueOut _ _ _ _ _).1 h3
        exact .inl ⟨h6, rf, h4, h7⟩
      · obtain ⟨h6, h7⟩ := (taggedOut _ _ _ _ _ _).1 h3
        exact .inr ⟨h6, tag, rf, u, h4, h5, h7⟩
    · rintro (⟨h6, rf, h4, h7⟩ | ⟨h6, tag, rf, u, h4, h5, h7⟩)
      · exact ⟨.value none rf, trivial, (partAt_dollar (.value none rf) trivial t v).2 (.inl ⟨rf, rfl, h4⟩), (valueOut _ _ _ _ _).2 ⟨h6, h7⟩⟩
      · exact ⟨.value (some tag) rf, trivial, (partAt_dollar (.value (some tag) rf) trivial t v).2 (.inr ⟨tag, rf, u, rfl, h4, h5⟩), (taggedOut _ _ _ _ _ _).2 ⟨h6, h7⟩⟩
  rw [key]
  cases t with
  | nil =>
    simp only [dollarRef, List.drop_succ_cons, List.drop_zero]
    constructor
    · intro h; cases h
    · rintro (⟨-, rf, h, -⟩ | ⟨-, tag, rf, u, h, -⟩)
      · exact absurd h (refAt_nil _ _ _)
      · obtain ⟨r, hr⟩ := TagAt.head h; cases hr
  | cons c r =>
    simp only [dollarRef, List.drop_succ_cons, List.drop_zero]
    by_cases hc : c = 60
    · subst hc
      rw [if_pos (by rfl), map_ok]
      constructor
      · rintro ⟨⟨o', v', h'⟩, h1, h2⟩
        cases h2
        exact .inr ((tagRef_iff x r o v h).1 h1)
      · rintro (⟨-, rf, h1, -⟩ | h1)
        · rw [refAt_cons] at h1
          unfold Digit Letter at h1
          omega
        · exact ⟨(o, v, h), (tagRef_iff x r o v h).2 h1, rfl⟩
    rw [if_neg (by simpa using hc)]
    have hn : ¬ ∃ tag rf u, TagAt tag (c :: r) u ∧ TagRefAt rf u v ∧ o = refOut x.n rf ++ 46 :: tag := by
      rintro ⟨tag, rf, u, h1, -⟩
      obtain ⟨r', hr⟩ := TagAt.head h1
      cases hr; exact hc rfl
    rw [iff_false_intro (a := h = true ∧ _) (fun hh => hn hh.2), or_false]
    simp only [refAt_cons]
    by_cases hc : c = 36
    · subst hc
      have e : (∃ rf, (36 = 36 ∧ rf = RefTo.lhs ∧ v = r ∨ (Digit 36 ∧ ∃ n, rf = .pos n ∧ getNumber (36 :: r) = .ok (n, v)) ∨
          (36 = 45 ∧ ∃ n, rf = .neg n ∧ getNumber r = .ok (n, v)) ∨
          (True ∧ (Letter 36 ∨ 36 = 95) ∧ rf = .name ∧ v = (36 :: r).dropWhile isName2)) ∧
          ∃ ty, typeOf x.types ht rf = some ty ∧ o = refOut x.n rf ++ dotTag ty) ↔
          v = r ∧ ∃ ty, typeOf x.types ht .lhs = some ty ∧ o = str "yyval" ++ dotTag ty := by
        constructor
        · rintro ⟨rf, (⟨-, rfl, h⟩ | h | h | h), h'⟩
          · exact ⟨h, h'⟩
          · exact absurd h.1 (by unfold Digit; omega)
          · exact absurd h.1 (by decide)
          · exact absurd h.2.1 (by unfold Letter; omega)
        · rintro ⟨h, h'⟩
          exact ⟨.lhs, .inl ⟨rfl, rfl, h⟩, h'⟩
      rw [if_pos (by rfl), e]
      cases ht with
      | false =>
        simp only [Bool.false_eq_true, if_false, typeOf, if_true]
        constructor
        · intro h; cases h; exact ⟨rfl, rfl, none, rfl, by simp [dotTag]⟩
        · rintro ⟨rfl, rfl, ty, h1, rfl⟩; cases h1; simp [dotTag]
      | true =>
        simp only [if_true, typeOf, Bool.true_eq_false, if_false]
        cases hl : x.lhsTag with
        | none =>
          simp only [ActCtx.types, hl]
          constructor
          · intro h; cases h
          · rintro ⟨-, -, ty, h1, -⟩; cases h1
        | some tag =>
          simp only [ActCtx.types, hl]
          constructor
          · intro h; cases h; exact ⟨rfl, rfl, some tag, rfl, rfl⟩
          · rintro ⟨rfl, rfl, ty, h1, rfl⟩; cases h1; rfl
    rw [if_neg (by simpa using hc)]
    by_cases hd : Digit c
    · have hd' := digit_not hd
      rw [if_pos ((isDigit_iff c).2 hd), bind_ok]
      constructor
      · rintro ⟨⟨n, w⟩, h1, h2⟩
        simp only at h2
        cases ht with
        | false =>
          simp only [Bool.false_and, Bool.false_eq_true, if_false] at h2
          cases h2
          exact ⟨rfl, .pos n, .inr (.inl ⟨hd, n, rfl, h1⟩), none, rfl, by simp [refOut, offsetOf_eq, dotTag]⟩
        | true =>
          simp only [Bool.true_and] at h2
          split at h2
          · rename_i hx
            split at h2
            · cases h2
            · rename_i hq
              simp only [Bool.or_eq_true, beq_iff_eq, decide_eq_true_eq, not_or] at hq
              split at h2
              · rename_i tag hg
                cases h2
                refine ⟨rfl, .pos n, .inr (.inl ⟨hd, n, rfl, h1⟩), some tag, ?_, by simp [refOut, offsetOf_eq]⟩
                have : x.rhsTags ≠ [] := by rintro e; simp [ActCtx.n, e] at hx
                simp only [typeOf, Bool.true_eq_false, if_false, ActCtx.types, this, hq.1]
                rw [hg]; rfl
              · cases h2
          · rename_i hx
            cases h2
            have : x.rhsTags = [] := by simpa [ActCtx.n] using hx
            refine ⟨rfl, .pos n, .inr (.inl ⟨hd, n, rfl, h1⟩), none, ?_, by simp [refOut, offsetOf_eq, dotTag]⟩
            simp [typeOf, ActCtx.types, this]
      · rintro ⟨rfl, rf, (h1 | ⟨-, n, rfl, h1⟩ | h1 | h1), ty, h2, rfl⟩
        · exact absurd h1.1 hd'.1
        · refine ⟨(n, v), h1, ?_⟩
          simp only
          cases h with
          | false =>
            cases h2
            simp [refOut, offsetOf_eq, dotTag]
          | true =>
            simp only [Bool.true_and]
            simp only [typeOf, Bool.true_eq_false, if_false] at h2
            by_cases hx : x.types.rhs = []
            · rw [if_pos hx] at h2
              cases h2
              replace hx : x.rhsTags = [] := hx
              rw [if_neg (by simp [ActCtx.n, hx])]
              simp [refOut, offsetOf_eq, dotTag]
            · rw [if_neg hx] at h2
              replace hx : x.rhsTags ≠ [] := hx
              rw [if_pos (by simpa [ActCtx.n] using hx)]
              by_cases hn0 : n = 0
              · rw [if_pos hn0] at h2; cases h2
              · rw [if_neg hn0] at h2
                replace h2 : (x.rhsTags[n - 1]?.bind fun y => y.map some) = some ty := h2
                cases hg : x.rhsTags[n - 1]? with
                | none => rw [hg] at h2; cases h2
                | some y =>
                  rw [hg] at h2
                  cases y with
                  | none => cases h2
                  | some tag =>
                    cases h2
                    have hlt := (List.getElem?_eq_some_iff.1 hg).1
                    have hle : ¬ x.rhsTags.length < n := by omega
                    have hb : (n == 0 || decide (x.n < n)) = false := by
                      have h5 : decide (x.n < n) = false := decide_eq_false hle
                      simp [hn0, h5]
                    rw [hb]
                    simp [refOut, offsetOf_eq]
        · exact absurd h1.1 hd'.2.1
        · rcases h1.2.1 with h1 | h1
          · exact absurd h1 hd'.2.2.2.2
          · exact absurd h1 hd'.2.2.2.1
    rw [if_neg (by rw [isDigit_iff]; exact hd)]
    by_cases hm : c = 45
    · subst hm
      rw [if_pos (by rfl), bind_ok]
      constructor
      · rintro ⟨⟨n, w⟩, h1, h2⟩
        simp only at h2
        cases ht with
        | true => cases h2
        | false =>
          cases h2
          exact ⟨rfl, .neg n, .inr (.inr (.inl ⟨rfl, n, rfl, h1⟩)), none, rfl, by simp [refOut, dotTag]⟩
      · rintro ⟨rfl, rf, (h1 | h1 | ⟨-, n, rfl, h1⟩ | h1), ty, h2, rfl⟩
        · exact absurd h1.1 (by decide)
        · exact absurd h1.1 (by unfold Digit; omega)
        · refine ⟨(n, v), h1, ?_⟩
          cases h with
          | true => cases h2
          | false => cases h2; simp [refOut, dotTag]
        · exact absurd h1.2.1 (by unfold Letter; omega)
    rw [if_neg (by simpa using hm)]
    by_cases hl : Letter c ∨ c = 95
    · have hl' := letter_not hl
      rw [if_pos (by simpa [isAlpha_iff] using hl)]
      constructor
      · intro h1
        cases h1
        refine ⟨rfl, .name, .inr (.inr (.inr ⟨trivial, hl, rfl, rfl⟩)), none, ?_, by simp [refOut, dotTag]⟩
        simp [typeOf]
      · rintro ⟨rfl, rf, (h1 | h1 | h1 | ⟨-, -, rfl, rfl⟩), ty, h2, rfl⟩
        · exact absurd h1.1 hl'.1
        · exact absurd h1.1 hl'.2.2.2
        · exact absurd h1.1 hl'.2.1
        · have : ty = none := by
            cases h <;> simp [typeOf] at h2 <;> exact h2.symm
          subst this
          simp [refOut, dotTag]
    · rw [if_neg (by simpa [isAlpha_iff] using hl)]
      constructor
      · intro h1; cases h1
      · rintro ⟨-, rf, (h1 | h1 | h1 | h1), -⟩
        · exact absurd h1.1 hc
        · exact absurd h1.1 hd
        · exact absurd h1.1 hm
        · exact absurd h1.2.1 hl

theorem dollarRef_none (x : ActCtx) (ht : Bool) (t : List Nat) : dollarRef x ht (36 :: t) = .ok none ↔ ¬ DollarStart t := by
  cases t with
  | nil =>
    simp only [dollarRef, List.drop_succ_cons, List.drop_zero, true_iff]
    rintro ⟨c, u, h, -⟩; cases h
  | cons c r =>
    rw [dollarStart_cons]
    simp only [dollarRef, List.drop_succ_cons, List.drop_zero]
    by_cases h1 : c = 60
    · simp only [h1, beq_self_eq_true, if_true, map_ok]
      constructor
      · rintro ⟨_, -, h⟩; cases h
      · intro h; exact absurd (.inl trivial) h
    rw [if_neg (by simpa using h1)]
    by_cases h2 : c = 36
    · subst h2
      rw [if_pos (by rfl)]
      refine iff_of_false ?_ (by simp)
      split
      · split
        · intro h; cases h
        · intro h; cases h
      · intro h; cases h
    rw [if_neg (by simpa using h2)]
    by_cases h3 : Digit c
    · rw [if_pos ((isDigit_iff c).2 h3), bind_ok]
      refine iff_of_false ?_ (by simp [h3])
      rintro ⟨⟨n, w⟩, -, h⟩
      simp only at h
      split at h
      · split at h
        · cases h
        · split at h <;> cases h
      · cases h
    rw [if_neg (by rw [isDigit_iff]; exact h3)]
    by_cases h4 : c = 45
    · rw [if_pos (by simpa using h4), bind_ok]
      refine iff_of_false ?_ (by simp [h4])
      rintro ⟨⟨n, w⟩, -, h⟩
      simp only at h
      split at h <;> cases h
    rw [if_neg (by simpa using h4)]
    by_cases h5 : Letter c ∨ c = 95
    · rw [if_pos (by simpa [isAlpha_iff] using h5)]
      refine iff_of_false (fun h => by cases h) (by simp [h5])
    · rw [if_neg (by simpa [isAlpha_iff] using h5)]
      simp [h1, h2, h3, h4, not_or.1 h5]

theorem atRef_some (x : ActCtx) (ht : Bool) (t o v : List Nat) (h : Bool) : atRef x ht (64 :: t) = .ok (some (o, v, h)) ↔
    ∃ p, IsRef p ∧ PartAt p (64 :: t) v ∧ PartOut x.types ht p o h := by
  have key : (∃ p, IsRef p ∧ PartAt p (64 :: t) v ∧ PartOut x.types ht p o h) ↔
      h = ht ∧ ∃ rf, RefAt false rf t v ∧ o = placeOut x.n rf := by
    constructor
    · rintro ⟨p, h1, h2, h3⟩
      obtain ⟨rf, rfl, h4⟩ := (partAt_at p h1 t v).1 h2
      obtain ⟨h6, h7⟩ := (placeOut_iff _ _ _ _ _).1 h3
      exact ⟨h6, rf, h4, h7⟩
    · rintro ⟨h6, rf, h4, h7⟩
      exact ⟨.place rf, trivial, (partAt_at (.place rf) trivial t v).2 ⟨rf, rfl, h4⟩, (placeOut_iff _ _ _ _ _).2 ⟨h6, h7⟩⟩
  rw [key]
  cases t with
  | nil =>
    simp only [atRef, List.drop_succ_cons, List.drop_zero]
    constructor
    · intro h; cases h
    · rintro ⟨-, rf, h, -⟩
      exact absurd h (refAt_nil _ _ _)
  | cons c r =>
    simp only [atRef, List.drop_succ_cons, List.drop_zero, refAt_cons]
    by_cases hc : c = 36
    · subst hc
      rw [if_pos (by rfl)]
      constructor
      · intro h1; cases h1; exact ⟨rfl, .lhs, .inl ⟨rfl, rfl, rfl⟩, rfl⟩
      · rintro ⟨rfl, rf, (⟨-, rfl, rfl⟩ | h1 | h1 | h1), rfl⟩
        · rfl
        · exact absurd h1.1 (by unfold Digit; omega)
        · exact absurd h1.1 (by decide)
        · exact absurd h1.1 (by decide)
    rw [if_neg (by simpa using hc)]
    by_cases hd : Digit c
    · have hd' := digit_not hd
      rw [if_pos ((isDigit_iff c).2 hd), bind_ok]
      constructor
      · rintro ⟨⟨n, w⟩, h1, h2⟩
        cases h2
        exact ⟨rfl, .pos n, .inr (.inl ⟨hd, n, rfl, h1⟩), by simp [placeOut, offsetOf_eq]⟩
      · rintro ⟨rfl, rf, (h1 | ⟨-, n, rfl, h1⟩ | h1 | h1), rfl⟩
        · exact absurd h1.1 hd'.1
        · exact ⟨(n, v), h1, by simp [placeOut, offsetOf_eq]⟩
        · exact absurd h1.1 hd'.2.1
        · exact absurd h1.1 (by decide)
    rw [if_neg (by rw [isDigit_iff]; exact hd)]
    by_cases hm : c = 45
    · subst hm
      rw [if_pos (by rfl), bind_ok]
      constructor
      · rintro ⟨⟨n, w⟩, h1, h2⟩
        cases h2
        exact ⟨rfl, .neg n, .inr (.inr (.inl ⟨rfl, n, rfl, h1⟩)), rfl⟩
      · rintro ⟨rfl, rf, (h1 | h1 | ⟨-, n, rfl, h1⟩ | h1), rfl⟩
        · exact absurd h1.1 (by decide)
        · exact absurd h1.1 (by unfold Digit; omega)
        · exact ⟨(n, v), h1, rfl⟩
        · exact absurd h1.1 (by decide)
    · rw [if_neg (by simpa using hm)]
      constructor
      · intro h1; cases h1
      · rintro ⟨-, rf, (h1 | h1 | h1 | h1), -⟩
        · exact absurd h1.1 hc
        · exact absurd h1.1 hd
        · exact absurd h1.1 hm
        · exact absurd h1.1 (by decide)

theorem atRef_none (x : ActCtx) (ht : Bool) (t : List Nat) : atRef x ht (64 :: t) = .ok none ↔ ¬ AtStart t := by
  cases t with
  | nil =>
    simp only [atRef, List.drop_succ_cons, List.drop_zero, true_iff]
    rintro ⟨c, u, h, -⟩; cases h
  | cons c r =>
    rw [atStart_cons]
    simp only [atRef, List.drop_succ_cons, List.drop_zero]
    by_cases h2 : c = 36
    · subst h2
      rw [if_pos (by rfl)]
      exact iff_of_false (fun h => by cases h) (by simp)
    rw [if_neg (by simpa using h2)]
    by_cases h3 : Digit c
    · rw [if_pos ((isDigit_iff c).2 h3), bind_ok]
      refine iff_of_false ?_ (by simp [h3])
      rintro ⟨⟨n, w⟩, -, h⟩
      cases h
    rw [if_neg (by rw [isDigit_iff]; exact h3)]
    by_cases h4 : c = 45
    · rw [if_pos (by simpa using h4), bind_ok]
      refine iff_of_false ?_ (by simp [h4])
      rintro ⟨⟨n, w⟩, -, h⟩
      cases h
    · rw [if_neg (by simpa using h4)]
      simp [h2, h3, h4]

theorem PartAt.head {p : Part} {t u : List Nat} (h : PartAt p t u) (hp : IsRef p) : ∃ r, t = 36 :: r ∨ t = 64 :: r := by
  cases h with
  | value r t _ _ => exact ⟨t, .inl rfl⟩
  | tagged tag r t u _ _ _ => exact ⟨t, .inl rfl⟩
  | place r t _ _ => exact ⟨t, .inr rfl⟩
  | ident => exact absurd hp (by simp [IsRef])
  | copied => exact absurd hp (by simp [IsRef])

theorem anyRef_some (x : ActCtx) (ht : Bool) (t o v : List Nat) (h : Bool) : anyRef x ht t = .ok (some (o, v, h)) ↔
    ∃ p, IsRef p ∧ PartAt p t v ∧ PartOut x.types ht p o h := by
  by_cases h1 : ∃ r, t = 36 :: r
  · obtain ⟨r, rfl⟩ := h1
    exact dollarRef_some x ht r o v h
  by_cases h2 : ∃ r, t = 64 :: r
  · obtain ⟨r, rfl⟩ := h2
    exact atRef_some x ht r o v h
  · have : anyRef x ht t = .ok none := by
      unfold anyRef
      cases t with
      | nil => rfl
      | cons c r =>
        simp only [List.head?_cons]
        split
        · rename_i h; cases h; exact absurd ⟨r, rfl⟩ h1
        · rename_i h; cases h; exact absurd ⟨r, rfl⟩ h2
        · rfl
    rw [this]
    refine iff_of_false (fun h => by cases h) ?_
    rintro ⟨p, hp, h3, -⟩
    obtain ⟨r, h4 | h4⟩ := PartAt.head h3 hp
    · exact h1 ⟨r, h4⟩
    · exact h2 ⟨r, h4⟩

theorem anyRef_none (x : ActCtx) (ht : Bool) (t : List Nat) : anyRef x ht t = .ok none ↔
    (∀ r, t = 36 :: r → ¬ DollarStart r) ∧ (∀ r, t = 64 :: r → ¬ AtStart r) := by
  by_cases h1 : ∃ r, t = 36 :: r
  · obtain ⟨r, rfl⟩ := h1
    rw [show anyRef x ht (36 :: r) = dollarRef x ht (36 :: r) from rfl, dollarRef_none]
    constructor
    · intro h; exact ⟨fun r' hr => by cases hr; exact h, fun r' hr => by cases hr⟩
    · intro h; exact h.1 r rfl
  by_cases h2 : ∃ r, t = 64 :: r
  · obtain ⟨r, rfl⟩ := h2
    rw [show anyRef x ht (64 :: r) = atRef x ht (64 :: r) from rfl, atRef_none]
    constructor
    · intro h; exact ⟨fun r' hr => (by cases hr), fun r' hr => by cases hr; exact h⟩
    · intro h; exact h.2 r rfl
  · have : anyRef x ht t = .ok none := by
      unfold anyRef
      cases t with
      | nil => rfl
      | cons c r =>
        simp only [List.head?_cons]
        split
        · rename_i h; cases h; exact absurd ⟨r, rfl⟩ h1
        · rename_i h; cases h; exact absurd ⟨r, rfl⟩ h2
        · rfl
    rw [this]
    exact iff_of_true rfl ⟨fun r hr => absurd ⟨r, hr⟩ h1, fun r hr => absurd ⟨r, hr⟩ h2⟩

end Verif.Byacc.Rd
