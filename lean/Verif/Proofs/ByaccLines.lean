import Verif.Proofs.ByaccText
/-
Helper lemmas: lines of the grammar file.
-/
set_option autoImplicit false
namespace Verif.Byacc.Rd
open Spec.YText

theorem dropWhile_app {p : Nat → Bool} {P : Nat → Prop} (hp : ∀ c, p c = true ↔ P c) {a b : List Nat}
    (ha : ∀ x ∈ a, P x) (hb : NotNext P b) : (a ++ b).dropWhile p = b :=
  ((span_iff p P hp (a ++ b) a b).2 ⟨rfl, ha, hb⟩).2

theorem takeWhile_app {p : Nat → Bool} {P : Nat → Prop} (hp : ∀ c, p c = true ↔ P c) {a b : List Nat}
    (ha : ∀ x ∈ a, P x) (hb : NotNext P b) : (a ++ b).takeWhile p = a :=
  ((span_iff p P hp (a ++ b) a b).2 ⟨rfl, ha, hb⟩).1

theorem notNext_cons {P : Nat → Prop} {c : Nat} {r : List Nat} (h : ¬ P c) : NotNext P (c :: r) := by
  intro d u hd; cases hd; exact h

theorem notNext_nil {P : Nat → Prop} : NotNext P [] := by
  intro d u hd; cases hd

theorem quote_iff (c : Nat) : (c != 34) = true ↔ c ≠ 34 := by simp

theorem ldFile_spec (n : Nat) (r : List Nat) (x : Ld) (hx : x ≠ .none) : ldFile n r = x ↔
    ∃ d rest, r = d ++ rest ∧ (∀ c ∈ d, Space c) ∧
      ((∃ f v, rest = 34 :: (f ++ 34 :: v) ∧ 34 ∉ f ∧ f ≠ [] ∧ x = .skip n f) ∨
       ((rest = [] ∨ ∃ f, rest = 34 :: f ∧ 34 ∉ f) ∧ x = .number n)) := by
  have hbrk : ∀ f : List Nat, (∃ w v, f = w ++ 34 :: v ∧ 34 ∉ w) ∨ 34 ∉ f := by
    intro f
    induction f with
    | nil => right; simp
    | cons c f ih =>
      by_cases hc : c = 34
      · left; exact ⟨[], f, by rw [hc]; rfl, by simp⟩
      · rcases ih with ⟨w, v, rfl, hw⟩ | h
        · left; exact ⟨c :: w, v, rfl, by simp [hw, Ne.symm hc]⟩
        · right; simp [h, Ne.symm hc]
  have h34 : ¬ Space 34 := by unfold Space; omega
  have hval : ∀ (d rest : List Nat), (∀ c ∈ d, Space c) → NotNext Space rest → ldFile n (d ++ rest) = ldFile n rest := by
    intro d rest hd hr
    unfold ldFile
    rw [dropWhile_app isSpace_iff hd hr]
    have := dropWhile_app isSpace_iff (a := []) (b := rest) (by simp) hr
    rw [List.nil_append] at this
    rw [this]
  have hskip : ∀ f v, 34 ∉ f → f ≠ [] → ldFile n (34 :: (f ++ 34 :: v)) = .skip n f := by
    intro f v hf hne
    have e1 : (f ++ 34 :: v).takeWhile (· != 34) = f := takeWhile_app (P := (· ≠ 34)) quote_iff (fun x hx h => hf (h ▸ hx)) (notNext_cons (by simp))
    have e2 : (f ++ 34 :: v).dropWhile (· != 34) = 34 :: v := dropWhile_app (P := (· ≠ 34)) quote_iff (fun x hx h => hf (h ▸ hx)) (notNext_cons (by simp))
    unfold ldFile
    rw [List.dropWhile_cons, if_neg (by decide)]
    simp only [e1, e2]
    cases f with
    | nil => exact absurd rfl hne
    | cons c f =>
      have : c ≠ 34 := fun h => hf (by simp [h])
      simp [this]
  have hnum : ∀ f, 34 ∉ f → ldFile n (34 :: f) = .number n := by
    intro f hf
    have e2 : (f ++ []).dropWhile (· != 34) = [] := dropWhile_app (P := (· ≠ 34)) quote_iff (fun x hx h => hf (h ▸ hx)) notNext_nil
    rw [List.append_nil] at e2
    unfold ldFile
    rw [List.dropWhile_cons, if_neg (by decide)]
    simp only [e2]
    cases f with
    | nil => rfl
    | cons c f =>
      have : c ≠ 34 := fun h => hf (by simp [h])
      simp [this]
  constructor
  · intro h
    obtain ⟨e1, e2, e3⟩ := (span_iff isSpace Space isSpace_iff r _ _).1 ⟨rfl, rfl⟩
    refine ⟨_, _, e1, e2, ?_⟩
    rw [e1, hval _ _ e2 e3] at h
    generalize r.dropWhile isSpace = rest at e3 h
    cases rest with
    | nil => right; exact ⟨.inl rfl, h.symm⟩
    | cons c f =>
      by_cases hc : c = 34
      · subst hc
        rcases hbrk f with ⟨w, v, rfl, hw⟩ | hf
        · by_cases hw0 : w = []
          · subst hw0
            exfalso
            apply hx; rw [← h]
            unfold ldFile
            rw [List.dropWhile_cons, if_neg (by decide)]
            rfl
          · left
            exact ⟨w, v, rfl, hw, hw0, by rw [← h, hskip w v hw hw0]⟩
        · right
          exact ⟨.inr ⟨f, rfl, hf⟩, by rw [← h, hnum f hf]⟩
      · exfalso
        apply hx; rw [← h]
        unfold ldFile
        rw [List.dropWhile_cons, if_neg (by rw [isSpace_iff]; exact e3 c f rfl)]
        split
        · contradiction
        · rename_i heq; cases heq; exact absurd rfl hc
        · rfl
  · rintro ⟨d, rest, rfl, hd, h⟩
    rcases h with ⟨f, v, rfl, hf, hne, rfl⟩ | ⟨hr, rfl⟩
    · rw [hval d _ hd (notNext_cons h34), hskip f v hf hne]
    · rcases hr with rfl | ⟨f, rfl, hf⟩
      · rw [hval d _ hd notNext_nil]; rfl
      · rw [hval d _ hd (notNext_cons h34), hnum f hf]


theorem digit_not_space {c : Nat} (h : Digit c) : ¬ Space c := by
  unfold Digit at h; unfold Space; omega

theorem space_not_digit {c : Nat} (h : Space c) : ¬ Digit c := fun hd => digit_not_space hd h

theorem first_of {P : Nat → Prop} {a b : List Nat} (h : a ≠ []) (ha : ∀ x ∈ a, ¬ P x) : NotNext P (a ++ b) := by
  cases a with
  | nil => exact absurd rfl h
  | cons c a => exact notNext_cons (ha c (by simp))

theorem ldNum_spec (r : List Nat) (x : Ld) (hx : x ≠ .none) : ldNum r = x ↔
    ∃ c ds, (∀ y ∈ c, Space y) ∧ (∀ y ∈ ds, Digit y) ∧ ds ≠ [] ∧
      ((r = c ++ ds ∧ x = .number (value ds)) ∨ ∃ e d, r = c ++ (ds ++ e :: d) ∧ Space e ∧ ldFile (value ds) d = x) := by
  constructor
  · intro h
    unfold ldNum at h
    simp only at h
    obtain ⟨e1, e2, e3⟩ := (span_iff isSpace Space isSpace_iff r _ _).1 ⟨rfl, rfl⟩
    generalize r.dropWhile isSpace = r1 at *
    generalize r.takeWhile isSpace = c at *
    obtain ⟨f1, f2, f3⟩ := (span_iff isDigit Digit isDigit_iff r1 _ _).1 ⟨rfl, rfl⟩
    generalize r1.takeWhile isDigit = ds at *
    generalize r1.dropWhile isDigit = r2 at *
    subst f1 e1
    by_cases hds : ds = []
    · subst hds; simp only [List.isEmpty_nil, if_true] at h; exact absurd h.symm hx
    · have : ds.isEmpty = false := by simpa using hds
      simp only [this, Bool.false_eq_true, if_false] at h
      refine ⟨c, ds, e2, f2, hds, ?_⟩
      cases r2 with
      | nil => left; exact ⟨by simp, by rw [← h, decValue_eq]⟩
      | cons e d =>
        right
        simp only at h
        split at h
        · rename_i he
          rw [decValue_eq] at h
          exact ⟨e, d, rfl, (isSpace_iff e).1 he, h⟩
        · exact absurd h.symm hx
  · rintro ⟨c, ds, hc, hds, hne, h⟩
    have hemp : ds.isEmpty = false := by simpa using hne
    have hsp : ∀ v, NotNext Space (ds ++ v) := fun v => first_of hne fun y hy => digit_not_space (hds y hy)
    rcases h with ⟨rfl, rfl⟩ | ⟨e, d, rfl, he, rfl⟩
    · have h1 := dropWhile_app isSpace_iff hc (hsp [])
      have h2 := takeWhile_app isDigit_iff hds (notNext_nil (P := Digit))
      have h3 := dropWhile_app isDigit_iff hds (notNext_nil (P := Digit))
      rw [List.append_nil] at h1 h2 h3
      unfold ldNum
      simp only [h1, h2, h3, hemp, Bool.false_eq_true, if_false, decValue_eq]
    · have h1 := dropWhile_app isSpace_iff hc (hsp (e :: d))
      have h2 := takeWhile_app isDigit_iff hds (notNext_cons (r := d) (space_not_digit he))
      have h3 := dropWhile_app isDigit_iff hds (notNext_cons (r := d) (space_not_digit he))
      unfold ldNum
      simp only [h1, h2, h3, hemp, Bool.false_eq_true, if_false, decValue_eq, (isSpace_iff e).2 he, if_true]

theorem lineDirective_spec (l : List Nat) (x : Ld) (hx : x ≠ .none) : lineDirective l = x ↔
    ∃ a b e r, l = a ++ 35 :: (b ++ (txt "line" ++ e :: r)) ∧ (∀ y ∈ a, Space y) ∧ (∀ y ∈ b, Space y) ∧ Space e ∧ ldNum r = x := by
  have ht : txt "line" = [108, 105, 110, 101] := by decide
  rw [ht]
  constructor
  · intro h
    unfold lineDirective at h
    obtain ⟨e1, e2, e3⟩ := (span_iff isSpace Space isSpace_iff l _ _).1 ⟨rfl, rfl⟩
    generalize l.dropWhile isSpace = l1 at *
    generalize l.takeWhile isSpace = a at *
    split at h
    · rename_i r
      obtain ⟨f1, f2, f3⟩ := (span_iff isSpace Space isSpace_iff r _ _).1 ⟨rfl, rfl⟩
      generalize r.dropWhile isSpace = r1 at *
      generalize r.takeWhile isSpace = b at *
      split at h
      · rename_i c r'
        split at h
        · rename_i hc
          exact ⟨a, b, c, r', by rw [e1, f1]; rfl, e2, f2, (isSpace_iff c).1 hc, h⟩
        · exact absurd h.symm hx
      · exact absurd h.symm hx
    · exact absurd h.symm hx
  · rintro ⟨a, b, e, r, rfl, ha, hb, he, rfl⟩
    have h1 := dropWhile_app isSpace_iff ha (notNext_cons (c := 35) (r := b ++ ([108, 105, 110, 101] ++ e :: r)) (by unfold Space; omega))
    have h2 := dropWhile_app isSpace_iff hb (notNext_cons (c := 108) (r := 105 :: 110 :: 101 :: e :: r) (by unfold Space; omega))
    unfold lineDirective
    rw [h1]
    simp only [List.cons_append, List.nil_append]
    rw [h2]
    simp only [(isSpace_iff e).2 he, if_true]

theorem lineDirective_skip (l : List Nat) (n : Nat) (f : List Nat) : lineDirective l = .skip n f ↔ LineDirective l n f := by
  rw [lineDirective_spec l _ (by simp)]
  unfold LineDirective
  constructor
  · rintro ⟨a, b, e, r, rfl, ha, hb, he, h⟩
    obtain ⟨c, ds, hc, hds, hne, h⟩ := (ldNum_spec r _ (by simp)).1 h
    rcases h with ⟨-, h⟩ | ⟨e', d, rfl, he', h⟩
    · cases h
    · obtain ⟨d', rest, rfl, hd', h⟩ := (ldFile_spec _ d _ (by simp)).1 h
      rcases h with ⟨f', v, rfl, hf, hfne, h⟩ | ⟨-, h⟩
      · cases h
        refine ⟨a, b, e :: c, ds, e' :: d', v, by simp, ha, hb, ?_, by simp, hds, hne, ?_, by simp, hf, hfne, rfl⟩
        · intro y hy
          rcases List.mem_cons.1 hy with rfl | hy
          · exact he
          · exact hc y hy
        · intro y hy
          rcases List.mem_cons.1 hy with rfl | hy
          · exact he'
          · exact hd' y hy
      · cases h
  · rintro ⟨a, b, c, ds, d, rest, rfl, ha, hb, hc, hcne, hds, hdsne, hd, hdne, hf, hfne, rfl⟩
    cases c with
    | nil => exact absurd rfl hcne
    | cons e c =>
      cases d with
      | nil => exact absurd rfl hdne
      | cons e' d =>
        refine ⟨a, b, e, _, by simp; rfl, ha, hb, hc e (by simp), ?_⟩
        refine (ldNum_spec _ _ (by simp)).2 ⟨c, ds, fun y hy => hc y (by simp [hy]), hds, hdsne, .inr ⟨e', _, rfl, hd e' (by simp), ?_⟩⟩
        exact (ldFile_spec _ _ _ (by simp)).2 ⟨d, _, rfl, fun y hy => hd y (by simp [hy]), .inl ⟨f, rest, rfl, hf, hfne, rfl⟩⟩

theorem lineDirective_number (l : List Nat) (hl : ∃ m, l = m ++ [10]) (n : Nat) : lineDirective l = .number n ↔ HalfDirective l n := by
  rw [lineDirective_spec l _ (by simp)]
  unfold HalfDirective
  constructor
  · rintro ⟨a, b, e, r, rfl, ha, hb, he, h⟩
    obtain ⟨c, ds, hc, hds, hne, h⟩ := (ldNum_spec r _ (by simp)).1 h
    rcases h with ⟨rfl, h⟩ | ⟨e', d, rfl, he', h⟩
    · exfalso
      obtain ⟨m, hm⟩ := hl
      have h1 : 10 ∈ ds := by
        have := congrArg List.getLast? hm
        have hl : ∃ x, ds.getLast? = some x := by
          rcases hd : ds.getLast? with _ | x
          · rw [List.getLast?_eq_none_iff] at hd; exact absurd hd hne
          · exact ⟨x, rfl⟩
        obtain ⟨x, hx⟩ := hl
        have e2 : (a ++ 35 :: (b ++ (txt "line" ++ e :: (c ++ ds)))) = (a ++ 35 :: (b ++ (txt "line" ++ e :: c))) ++ ds := by simp
        rw [e2, List.getLast?_append, hx] at this
        simp at this
        rw [this] at hx
        exact List.mem_of_getLast? hx
      have := hds 10 h1
      unfold Digit at this; omega
    · obtain ⟨d', rest, rfl, hd', h⟩ := (ldFile_spec _ d _ (by simp)).1 h
      rcases h with ⟨f', v, rfl, hf, hfne, h⟩ | ⟨hr, h⟩
      · cases h
      · cases h
        refine ⟨a, b, e :: c, ds, e' :: d', rest, by simp, ha, hb, ?_, by simp, hds, hne, ?_, by simp, rfl, hr⟩
        · intro y hy
          rcases List.mem_cons.1 hy with rfl | hy
          · exact he
          · exact hc y hy
        · intro y hy
          rcases List.mem_cons.1 hy with rfl | hy
          · exact he'
          · exact hd' y hy
  · rintro ⟨a, b, c, ds, d, rest, rfl, ha, hb, hc, hcne, hds, hdsne, hd, hdne, rfl, hr⟩
    cases c with
    | nil => exact absurd rfl hcne
    | cons e c =>
      cases d with
      | nil => exact absurd rfl hdne
      | cons e' d =>
        refine ⟨a, b, e, _, by simp; rfl, ha, hb, hc e (by simp), ?_⟩
        refine (ldNum_spec _ _ (by simp)).2 ⟨c, ds, fun y hy => hc y (by simp [hy]), hds, hdsne, .inr ⟨e', _, rfl, hd e' (by simp), ?_⟩⟩
        exact (ldFile_spec _ _ _ (by simp)).2 ⟨d, _, rfl, fun y hy => hd y (by simp [hy]), .inr ⟨hr, rfl⟩⟩

/-! Lines -/

theorem takeLine_line (l t : List Nat) (h : 10 ∉ l) : takeLine (l ++ 10 :: t) = (l ++ [10], t, false) := by
  induction l with
  | nil => simp [takeLine]
  | cons c l ih =>
    have hc : (c == 10) = false := by
      simp only [beq_eq_false_iff_ne]; intro hc; exact h (by simp [hc])
    simp only [List.cons_append, takeLine, hc, Bool.false_eq_true, if_false, ih (fun hm => h (by simp [hm]))]

theorem takeLine_last (l : List Nat) (h : 10 ∉ l) : takeLine l = (l ++ [10], [], true) := by
  induction l with
  | nil => simp [takeLine]
  | cons c l ih =>
    have hc : (c == 10) = false := by
      simp only [beq_eq_false_iff_ne]; intro hc; exact h (by simp [hc])
    simp only [takeLine, hc, Bool.false_eq_true, if_false, ih (fun hm => h (by simp [hm])), List.cons_append]

theorem takeLine_length (t : List Nat) (h : t ≠ []) : (takeLine t).2.1.length < t.length := by
  induction t with
  | nil => exact absurd rfl h
  | cons c t ih =>
    rw [takeLine]
    by_cases hc : (c == 10) = true
    · simp [hc]
    · rw [if_neg hc]
      by_cases ht : t = []
      · subst ht; simp [takeLine]
      · have := ih ht
        simp only [List.length_cons]; omega

theorem ldApply_inp (s : LineSt) (d : Ld) : (ldApply s d).inp = s.inp := by cases d <;> rfl

theorem getLine_fuel (k k' : Nat) (s : LineSt) (h : s.inp.length < k) (h' : s.inp.length < k') : getLine k s = getLine k' s := by
  induction k generalizing k' s with
  | zero => omega
  | succ k ih =>
    cases k' with
    | zero => omega
    | succ k' =>
      rw [getLine, getLine]
      by_cases he : (s.eof || s.inp.isEmpty) = true
      · rw [if_pos he, if_pos he]
      · rw [if_neg he, if_neg he]
        simp only
        have hne : s.inp ≠ [] := by
          intro h0; apply he; simp [h0]
        have := takeLine_length s.inp hne
        split
        · exact ih k' _ (by rw [ldApply_inp]; simp only; omega) (by rw [ldApply_inp]; simp only; omega)
        · rfl

/-- a line as the specification has it -/
def nline (l : Line) : NLine := ⟨l.text, l.lineno, l.file⟩

/-- one line read -/
theorem allLines_cons (k : Nat) (s : LineSt) (hk : s.inp.length < k) (l t : List Nat) (e : Bool) (hs : s.eof = false) (hne : s.inp ≠ [])
    (ht : takeLine s.inp = (l, t, e)) : ∃ k', t.length < k' ∧
    (allLines k s).map nline =
      match lineDirective l with
      | .none => ⟨l, s.lineno + 1, s.file⟩ :: (allLines k' ⟨t, e, s.lineno + 1, s.file⟩).map nline
      | .number n => ⟨l, n - 1, s.file⟩ :: (allLines k' ⟨t, e, n - 1, s.file⟩).map nline
      | .skip n f => (allLines k' ⟨t, e, n - 1, f⟩).map nline := by
  cases k with
  | zero => omega
  | succ k =>
    have hlen := takeLine_length s.inp hne
    rw [ht] at hlen
    simp only at hlen
    have h0 : ¬ (s.eof || s.inp.isEmpty) = true := by
      simp [hs, hne]
    rcases hd : lineDirective l with _ | n | ⟨n, f⟩
    · refine ⟨k, by omega, ?_⟩
      rw [allLines, getLine, if_neg h0]
      simp only [ht, hd, ldApply, List.map_cons, nline]
    · refine ⟨k, by omega, ?_⟩
      rw [allLines, getLine, if_neg h0]
      simp only [ht, hd, ldApply, List.map_cons, nline]
    · refine ⟨k + 1, by omega, ?_⟩
      rw [allLines, getLine, if_neg h0]
      simp only [ht, hd, ldApply]
      rw [getLine_fuel _ (t.length + 1) _ (by simpa using hlen) (by simp)]
      rw [allLines]

theorem linesOf_of (t : List Nat) (ls : List (List Nat)) (out : List NLine) (n : Int) (f : List Nat) (hs : Splits t ls)
    (hr : ReadLines n f ls out) (e : Bool) (he : e = true → t = []) (k : Nat) (hk : t.length < k) :
    (allLines k ⟨t, e, n, f⟩).map nline = out := by
  induction hs generalizing n f out e k with
  | nil =>
    cases hr
    cases k with
    | zero => omega
    | succ k => simp [allLines, getLine]
  | line l t ls hl _ ih =>
    have he' : e = false := by
      cases e with
      | false => rfl
      | true => have := he rfl; simp at this
    obtain ⟨k', hk', h⟩ := allLines_cons k ⟨l ++ 10 :: t, e, n, f⟩ hk (l ++ [10]) t false he' (by simp) (takeLine_line l t hl)
    rw [h]
    cases hr with
    | directive _ _ _ _ _ m g h1 h2 =>
      rw [(lineDirective_skip _ _ _).2 h1]
      exact ih _ _ _ h2 _ (by simp) _ hk'
    | half _ _ _ _ out m h1 h2 =>
      rw [(lineDirective_number _ ⟨l, rfl⟩ _).2 h1]
      simp only
      rw [ih _ _ _ h2 _ (by simp) _ hk']
    | line _ _ _ _ out h1 h2 h3 =>
      have : lineDirective (l ++ [10]) = .none := by
        rcases hd : lineDirective (l ++ [10]) with _ | m | ⟨m, g⟩
        · rfl
        · exact absurd ((lineDirective_number _ ⟨l, rfl⟩ _).1 hd) (h2 m)
        · exact absurd ((lineDirective_skip _ _ _).1 hd) (h1 m g)
      rw [this]
      simp only
      rw [ih _ _ _ h3 _ (by simp) _ hk']
  | last l hl hne =>
    have he' : e = false := by
      cases e with
      | false => rfl
      | true => exact absurd (he rfl) hne
    obtain ⟨k', hk', h⟩ := allLines_cons k ⟨l, e, n, f⟩ hk (l ++ [10]) [] true he' hne (takeLine_last l hl)
    rw [h]
    have hend : ∀ m g, (allLines k' ⟨[], true, m, g⟩).map nline = [] := by
      intro m g
      cases k' with
      | zero => omega
      | succ k' => simp [allLines, getLine]
    cases hr with
    | directive _ _ _ _ _ m g h1 h2 =>
      rw [(lineDirective_skip _ _ _).2 h1]
      cases h2
      exact hend _ _
    | half _ _ _ _ out m h1 h2 =>
      rw [(lineDirective_number _ ⟨l, rfl⟩ _).2 h1]
      cases h2
      simp only
      rw [hend]
    | line _ _ _ _ out h1 h2 h3 =>
      have : lineDirective (l ++ [10]) = .none := by
        rcases hd : lineDirective (l ++ [10]) with _ | m | ⟨m, g⟩
        · rfl
        · exact absurd ((lineDirective_number _ ⟨l, rfl⟩ _).1 hd) (h2 m)
        · exact absurd ((lineDirective_skip _ _ _).1 hd) (h1 m g)
      rw [this]
      cases h3
      simp only
      rw [hend]

theorem splits_exists (t : List Nat) : ∃ ls, Splits t ls ∧ (t ≠ [] → ls ≠ []) := by
  induction t with
  | nil => exact ⟨[], .nil, by simp⟩
  | cons c t ih =>
    obtain ⟨ls, h, -⟩ := ih
    by_cases hc : c = 10
    · subst hc; exact ⟨[10] :: ls, .line [] t ls (by simp) h, by simp⟩
    · cases h with
      | nil => exact ⟨_, .last [c] (by simp [Ne.symm hc]) (by simp), by simp⟩
      | line l t ls h1 h2 => exact ⟨_, .line (c :: l) t ls (by simp [h1, Ne.symm hc]) h2, by simp⟩
      | last l h1 h2 => exact ⟨_, .last (c :: _) (by simp [h1, Ne.symm hc]) (by simp), by simp⟩

theorem readLines_exists (ls : List (List Nat)) (n : Int) (f : List Nat) : ∃ out, ReadLines n f ls out := by
  induction ls generalizing n f with
  | nil => exact ⟨[], .nil n f⟩
  | cons l ls ih =>
    by_cases h1 : ∃ k g, LineDirective l k g
    · obtain ⟨k, g, h1⟩ := h1
      obtain ⟨out, h⟩ := ih (k - 1) g
      exact ⟨out, .directive n f l ls out k g h1 h⟩
    · by_cases h2 : ∃ k, HalfDirective l k
      · obtain ⟨k, h2⟩ := h2
        obtain ⟨out, h⟩ := ih (k - 1) f
        exact ⟨_, .half n f l ls out k h2 h⟩
      · obtain ⟨out, h⟩ := ih (n + 1) f
        exact ⟨_, .line n f l ls out (fun k g h => h1 ⟨k, g, h⟩) (fun k h => h2 ⟨k, h⟩) h⟩

theorem linesOf_iff (file t : List Nat) (out : List NLine) :
    (linesOf file t).map nline = out ↔ ∃ ls, Splits t ls ∧ ReadLines 0 file ls out := by
  have key : ∀ out, (∃ ls, Splits t ls ∧ ReadLines 0 file ls out) → (linesOf file t).map nline = out := by
    rintro out ⟨ls, h1, h2⟩
    exact linesOf_of t ls out 0 file h1 h2 false (by simp) _ (by omega)
  constructor
  · rintro rfl
    obtain ⟨ls, h1, -⟩ := splits_exists t
    obtain ⟨out, h2⟩ := readLines_exists ls 0 file
    rw [key out ⟨ls, h1, h2⟩]
    exact ⟨ls, h1, h2⟩
  · exact key out

end Verif.Byacc.Rd
