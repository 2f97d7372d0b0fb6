import Verif.Proofs.ByaccText
/-
Helper lemmas: names, numbers, literals and tags are read as they are written.
-/
set_option autoImplicit false
namespace Verif.Byacc.Rd
open Spec.YText

theorem NameFirst.nameChar {c : Nat} (h : NameFirst c) : NameChar c := by
  unfold NameFirst NameChar at *; tauto

theorem isReserved_iff (name : List Nat) : isReserved name = true ↔ Reserved name := by
  unfold isReserved Reserved
  simp only [Bool.or_eq_true, beq_iff_eq, str_eq_txt, or_assoc]
  refine or_congr Iff.rfl (or_congr Iff.rfl (or_congr Iff.rfl ?_))
  constructor
  · intro h
    split at h
    · rename_i c r
      rw [Bool.and_eq_true, isDigit_iff, List.all_eq_true] at h
      refine ⟨c :: r, by simp, ?_, rfl⟩
      intro d hd
      rcases List.mem_cons.1 hd with rfl | hd
      · exact h.1
      · exact (isDigit_iff d).1 (h.2 d hd)
    · cases h
  · rintro ⟨ds, h1, h2, rfl⟩
    cases ds with
    | nil => exact absurd rfl h1
    | cons c r =>
      simp only [Bool.and_eq_true, isDigit_iff, List.all_eq_true]
      exact ⟨h2 c (by simp), fun d hd => h2 d (by simp [hd])⟩

theorem getName_iff (t n u : List Nat) (ht : ∃ c r, t = c :: r ∧ NameFirst c) :
    getName t = .ok (n, u) ↔ NameAt n t u ∧ ¬ Reserved n := by
  unfold getName NameAt
  constructor
  · intro h
    split at h
    · cases h
    · rename_i hr
      simp only [Except.ok.injEq, Prod.mk.injEq] at h
      have hs := (span_iff isIdent NameChar isIdent_iff t n u).1 h
      rw [h.1, isReserved_iff] at hr
      refine ⟨⟨hs.1, hs.2.1, ?_, hs.2.2⟩, hr⟩
      obtain ⟨c, r, rfl, hc⟩ := ht
      refine ⟨c, r.takeWhile isIdent, ?_, hc⟩
      rw [← h.1, List.takeWhile_cons, if_pos ((isIdent_iff c).2 (NameFirst.nameChar hc))]
  · rintro ⟨⟨h1, h2, -, h3⟩, h4⟩
    obtain ⟨e1, e2⟩ := (span_iff isIdent NameChar isIdent_iff t n u).2 ⟨h1, h2, h3⟩
    rw [e1, e2, if_neg (by rw [isReserved_iff]; exact h4)]

theorem NameAt.first {n t u : List Nat} (h : NameAt n t u) : ∃ c r, t = c :: r ∧ NameFirst c := by
  obtain ⟨h1, -, ⟨c, r, h3, h4⟩, -⟩ := h
  exact ⟨c, r ++ u, by rw [h1, h3]; rfl, h4⟩

theorem getNumber_iff (t : List Nat) (n : Nat) (u : List Nat) (ht : ∃ c r, t = c :: r ∧ Digit c) :
    getNumber t = .ok (n, u) ↔ NumberAt n t u ∧ n ≤ 2147483647 := by
  unfold getNumber NumberAt
  constructor
  · intro h
    split at h
    · cases h
    · rename_i hn
      simp only [Except.ok.injEq, Prod.mk.injEq] at h
      have hs := (span_iff isDigit Digit isDigit_iff t _ _).1 ⟨rfl, rfl⟩
      rw [h.2] at hs
      refine ⟨⟨_, ?_, hs.2.1, hs.1, hs.2.2, by rw [← decValue_eq]; exact h.1.symm⟩, by rw [← h.1]; omega⟩
      obtain ⟨c, r, rfl, hc⟩ := ht
      rw [List.takeWhile_cons, if_pos ((isDigit_iff c).2 hc)]
      simp
  · rintro ⟨⟨ds, -, h2, h3, h4, rfl⟩, hn⟩
    obtain ⟨e1, e2⟩ := (span_iff isDigit Digit isDigit_iff t ds u).2 ⟨h3, h2, h4⟩
    rw [e1, e2, decValue_eq, if_neg (by omega)]

theorem NumberAt.first {n : Nat} {t u : List Nat} (h : NumberAt n t u) : ∃ c r, t = c :: r ∧ Digit c := by
  obtain ⟨ds, h1, h2, h3, -⟩ := h
  cases ds with
  | nil => exact absurd rfl h1
  | cons c r => exact ⟨c, r ++ u, by rw [h3]; rfl, h2 c (by simp)⟩

/-! Literals -/

theorem hexval_iff (c n : Nat) : hexval c = some n ↔ HexDigit c n := by
  unfold hexval HexDigit Digit
  simp only [Bool.and_eq_true, decide_eq_true_eq]
  constructor
  · intro h
    split at h
    · cases h; omega
    split at h
    · cases h; omega
    split at h
    · cases h; omega
    · cases h
  · intro h
    split
    · simp only [Option.some.injEq]; omega
    split
    · simp only [Option.some.injEq]; omega
    split
    · simp only [Option.some.injEq]; omega
    · omega

/-- further digits of a hexadecimal number -/
inductive HexFrom : Nat → List Nat → Nat → Prop
  | nil (n : Nat) : HexFrom n [] n
  | cons (n c d m : Nat) (ds : List Nat) : HexDigit c d → HexFrom (16 * n + d) ds m → HexFrom n (c :: ds) m

theorem HexFrom.snoc {n m c d : Nat} {ds : List Nat} (h : HexFrom n ds m) (hd : HexDigit c d) : HexFrom n (ds ++ [c]) (16 * m + d) := by
  induction h with
  | nil n => exact .cons n c d _ [] hd (.nil _)
  | cons n c' d' m ds h1 _ ih => exact .cons n c' d' _ _ h1 ih

theorem HexFrom.le {n m : Nat} {ds : List Nat} (h : HexFrom n ds m) : n ≤ m := by
  induction h with
  | nil => exact Nat.le_refl _
  | cons n c d m ds _ _ ih => omega

theorem hex_iff (ds : List Nat) (m : Nat) : Hex ds m ↔ HexFrom 0 ds m := by
  constructor
  · intro h
    induction h with
    | nil => exact .nil 0
    | snoc ds n c d _ hd ih => exact ih.snoc hd
  · intro h
    have key : ∀ (n : Nat) (ds : List Nat) (m : Nat), HexFrom n ds m → ∀ pre, Hex pre n → Hex (pre ++ ds) m := by
      intro n ds m h
      induction h with
      | nil n => intro pre hp; simpa using hp
      | cons n c d m ds hd _ ih =>
        intro pre hp
        have := ih _ (.snoc pre n c d hp hd)
        simpa using this
    simpa using key 0 ds m h [] .nil

theorem hexMore_iff (n : Nat) (t : List Nat) (m : Nat) (u : List Nat) (hn : n ≤ 255) :
    hexMore n t = some (m, u) ↔ ∃ ds, t = ds ++ u ∧ HexFrom n ds m ∧ NotNext (fun c => ∃ d, HexDigit c d) u ∧ m ≤ 255 := by
  induction t generalizing n with
  | nil =>
    rw [hexMore]
    constructor
    · intro h; cases h; exact ⟨[], rfl, .nil _, (fun _ _ h => by cases h), hn⟩
    · rintro ⟨ds, h1, h2, -, -⟩
      simp only [List.nil_eq, List.append_eq_nil_iff] at h1
      obtain ⟨rfl, rfl⟩ := h1
      cases h2; rfl
  | cons c r ih =>
    rw [hexMore]
    rcases hc : hexval c with _ | i
    · have hno : ¬ ∃ d, HexDigit c d := by
        rintro ⟨d, hd⟩
        rw [← hexval_iff, hc] at hd; cases hd
      simp only [Option.some.injEq, Prod.mk.injEq]
      constructor
      · rintro ⟨rfl, rfl⟩
        refine ⟨[], rfl, .nil _, ?_, hn⟩
        intro d v hv
        cases hv; exact hno
      · rintro ⟨ds, h1, h2, -, -⟩
        cases h2 with
        | nil => exact ⟨rfl, h1⟩
        | cons _ d e _ ds hd _ =>
          cases h1
          exact absurd ⟨_, hd⟩ hno
    · have hi := (hexval_iff c i).1 hc
      simp only
      have e : n * 16 + i = 16 * n + i := by omega
      constructor
      · intro h
        split at h
        · cases h
        · rename_i hlt
          rw [ih _ (by omega)] at h
          obtain ⟨ds, rfl, h2, h3, h4⟩ := h
          exact ⟨c :: ds, rfl, .cons n c i m ds hi (by rw [← e]; exact h2), h3, h4⟩
      · rintro ⟨ds, h1, h2, h3, h4⟩
        cases h2 with
        | nil =>
          exfalso
          exact h3 c r h1.symm ⟨i, hi⟩
        | cons _ c' d _ ds hd hr =>
          cases h1
          have : d = i := by
            rw [← hexval_iff, hc] at hd; cases hd; rfl
          subst this
          have := hr.le
          rw [if_neg (by omega), ih _ (by omega)]
          exact ⟨ds, rfl, by rw [e]; exact hr, h3, h4⟩

theorem octal_iff (d : Nat) (r : List Nat) (hd : Octal d) (n : Nat) (u : List Nat) : octal (d :: r) = (n, u) ↔
    ∃ ds, ds ≠ [] ∧ (∀ x ∈ ds, Octal x) ∧ d :: r = ds ++ u ∧ (ds.length = 3 ∨ (ds.length < 3 ∧ NotNext Octal u)) ∧
      n = ds.foldl (fun n d => 8 * n + (d - 48)) 0 := by
  -- the digits taken
  have huniq : ∀ ds u ds' u', ds ++ u = ds' ++ u' → (∀ x ∈ ds, Octal x) → (∀ x ∈ ds', Octal x) →
      (ds.length = 3 ∨ (ds.length < 3 ∧ NotNext Octal u)) → (ds'.length = 3 ∨ (ds'.length < 3 ∧ NotNext Octal u')) →
      ds = ds' ∧ u = u' := by
    intro ds u ds' u' h h1 h1' h2 h2'
    have hl : ds.length = ds'.length := by
      by_contra hne
      rcases Nat.lt_or_gt_of_ne hne with hlt | hlt
      · rw [List.append_eq_append_iff] at h
        rcases h with ⟨as, e1, e2⟩ | ⟨bs, e1, e2⟩
        · cases as with
          | nil => simp at e1; rw [e1] at hne; exact hne rfl
          | cons x as =>
            rcases h2 with h2 | h2
            · omega
            · exact h2.2 x (as ++ u') e2 (h1' x (by rw [e1]; simp))
        · rw [e1] at hlt; simp at hlt
      · rw [List.append_eq_append_iff] at h
        rcases h with ⟨as, e1, e2⟩ | ⟨bs, e1, e2⟩
        · rw [e1] at hlt; simp at hlt
        · cases bs with
          | nil => simp at e1; rw [e1] at hne; exact hne rfl
          | cons x bs =>
            rcases h2' with h2 | h2
            · omega
            · exact h2.2 x (bs ++ u) e2 (h1 x (by rw [e1]; simp))
    exact List.append_inj h hl
  have hex : ∃ ds, ds ≠ [] ∧ (∀ x ∈ ds, Octal x) ∧ d :: r = ds ++ (octal (d :: r)).2 ∧
      (ds.length = 3 ∨ (ds.length < 3 ∧ NotNext Octal (octal (d :: r)).2)) ∧
      (octal (d :: r)).1 = ds.foldl (fun n d => 8 * n + (d - 48)) 0 := by
    have nn : ∀ (c : Nat) (v : List Nat), ¬ isOctal c = true → NotNext Octal (c :: v) := by
      intro c v hc x w hx
      cases hx
      rw [← isOctal_iff]; exact hc
    cases r with
    | nil => exact ⟨[d], by simp, by simpa using hd, rfl, .inr ⟨by simp, fun _ _ h => by cases h⟩, by simp [octal]⟩
    | cons b r =>
      cases r with
      | nil =>
        by_cases hb : isOctal b = true
        · refine ⟨[d, b], by simp, by simp [hd, (isOctal_iff b).1 hb], by simp [octal, hb], .inr ⟨by simp, ?_⟩, by simp [octal, hb]; omega⟩
          simp only [octal, hb, if_true]
          exact fun _ _ h => by cases h
        · refine ⟨[d], by simp, by simpa using hd, by simp [octal, hb], .inr ⟨by simp, ?_⟩, by simp [octal, hb]⟩
          simp only [octal, hb]
          exact nn b [] hb
      | cons c r =>
        by_cases hb : isOctal b = true
        · by_cases hc : isOctal c = true
          · refine ⟨[d, b, c], by simp, by simp [hd, (isOctal_iff b).1 hb, (isOctal_iff c).1 hc], by simp [octal, hb, hc], .inl rfl,
              by simp [octal, hb, hc]; omega⟩
          · refine ⟨[d, b], by simp, by simp [hd, (isOctal_iff b).1 hb], by simp [octal, hb, hc], .inr ⟨by simp, ?_⟩,
              by simp [octal, hb, hc]; omega⟩
            simp only [octal, hb, hc, if_true]
            exact nn c r hc
        · refine ⟨[d], by simp, by simpa using hd, by simp [octal, hb], .inr ⟨by simp, ?_⟩, by simp [octal, hb]⟩
          simp only [octal, hb]
          exact nn b _ hb
  obtain ⟨ds, h1, h2, h3, h4, h5⟩ := hex
  constructor
  · intro h
    rw [h] at h3 h4 h5
    exact ⟨ds, h1, h2, h3, h4, h5⟩
  · rintro ⟨ds', g1, g2, g3, g4, g5⟩
    obtain ⟨rfl, e⟩ := huniq ds _ ds' u (by rw [← h3, g3]) h2 g2 h4 g4
    rw [← g5] at h5
    exact Prod.ext h5 e

theorem escapes_iff (c n : Nat) : (c, n) ∈ escapes ↔ escChar c = n ∧ (c = 97 ∨ c = 98 ∨ c = 102 ∨ c = 110 ∨ c = 114 ∨ c = 116 ∨ c = 118) := by
  constructor
  · intro h
    have : ∀ p ∈ escapes, escChar p.1 = p.2 ∧ (p.1 = 97 ∨ p.1 = 98 ∨ p.1 = 102 ∨ p.1 = 110 ∨ p.1 = 114 ∨ p.1 = 116 ∨ p.1 = 118) := by decide
    exact this _ h
  · rintro ⟨rfl, h⟩
    rcases h with rfl | rfl | rfl | rfl | rfl | rfl | rfl <;> decide

theorem escChar_other (c : Nat) (h : ∀ n, (c, n) ∉ escapes) : escChar c = c := by
  by_contra hne
  have hc : c = 97 ∨ c = 98 ∨ c = 102 ∨ c = 110 ∨ c = 114 ∨ c = 116 ∨ c = 118 := by
    by_contra hc
    simp only [not_or] at hc
    apply hne
    simp [escChar, hc]
  exact h _ ((escapes_iff c _).2 ⟨rfl, hc⟩)

theorem map_ok {α β : Type} (x : R α) (f : α → β) (b : β) : x.map f = .ok b ↔ ∃ a, x = .ok a ∧ f a = b := by
  cases x with
  | error e => simp [Except.map]
  | ok a => simp [Except.map]

theorem litLoop_iff (q : Nat) (hq : q = 39 ∨ q = 34) (a : List Nat) (k : Nat) (t : List Nat) (hk : t.length < k) (s u : List Nat) :
    litLoop q a k t = .ok (s, u) ↔ LitBody q s t u := by
  induction k generalizing t s with
  | zero => omega
  | succ k ih =>
    have h10 : q ≠ 10 := by rcases hq with rfl | rfl <;> decide
    have h92 : q ≠ 92 := by rcases hq with rfl | rfl <;> decide
    cases t with
    | nil =>
      rw [litLoop.eq_def]
      constructor
      · intro h; cases h
      · intro h; cases h
    | cons c r =>
      simp only [List.length_cons] at hk
      rw [litLoop.eq_def]
      simp only
      by_cases hcq : c = q
      · subst hcq
        simp only [beq_self_eq_true, if_true, Except.ok.injEq, Prod.mk.injEq]
        constructor
        · rintro ⟨rfl, rfl⟩; exact .close _
        · intro h
          cases h with
          | close => exact ⟨rfl, rfl⟩
          | plain _ _ _ _ h => exact absurd rfl h
          | join => exact absurd rfl h92
          | octal => exact absurd rfl h92
          | hex => exact absurd rfl h92
          | letter => exact absurd rfl h92
          | other => exact absurd rfl h92
      have hcq' : (c == q) = false := by simpa using hcq
      simp only [hcq', Bool.false_eq_true, if_false]
      by_cases hc10 : c = 10
      · subst hc10
        simp only [beq_self_eq_true, if_true]
        constructor
        · intro h; cases h
        · intro h
          cases h with
          | close => exact absurd rfl h10
          | plain _ _ _ _ _ h => exact absurd rfl h
      have hc10' : (c == 10) = false := by simpa using hc10
      simp only [hc10', Bool.false_eq_true, if_false]
      by_cases hc92 : c = 92
      swap
      · have hc92' : (c == 92) = false := by simpa using hc92
        simp only [hc92', Bool.false_eq_true, if_false]
        rw [map_ok]
        constructor
        · rintro ⟨⟨s', u'⟩, h1, h2⟩
          cases h2
          exact .plain c s' r _ hcq hc10 hc92 ((ih r (by omega) s').1 h1)
        · intro h
          cases h with
          | close => exact absurd rfl hcq
          | plain _ s' _ _ _ _ _ h => exact ⟨(s', u), (ih r (by omega) s').2 h, rfl⟩
          | join => exact absurd rfl hc92
          | octal => exact absurd rfl hc92
          | hex => exact absurd rfl hc92
          | letter => exact absurd rfl hc92
          | other => exact absurd rfl hc92
      subst hc92
      simp only [beq_self_eq_true, if_true]
      cases r with
      | nil =>
        constructor
        · intro h; cases h
        · intro h
          generalize hx : [92] = x at h
          cases h with
          | close => cases hx; exact absurd rfl h92
          | plain _ _ _ _ _ _ h => cases hx; exact absurd rfl h
          | join => cases hx
          | octal ds _ _ _ _ h =>
            simp only [List.cons.injEq, List.nil_eq, List.append_eq_nil_iff] at hx
            exact absurd hx.2.1 h
          | hex => cases hx
          | letter => cases hx
          | other => cases hx
      | cons d r =>
        simp only [List.length_cons] at hk
        by_cases hd10 : d = 10
        · subst hd10
          simp only [beq_self_eq_true, if_true]
          rw [ih r (by omega)]
          constructor
          · intro h; exact .join s r u h
          · intro h
            generalize hx : 92 :: 10 :: r = x at h
            cases h with
            | close => cases hx; exact absurd rfl h92
            | plain _ _ _ _ _ _ h => cases hx; exact absurd rfl h
            | join _ _ _ h => cases hx; exact h
            | octal ds _ _ _ _ h1 h2 =>
              cases ds with
              | nil => exact absurd rfl h1
              | cons e ds => cases hx; exact absurd (h2 10 (by simp)) (by unfold Octal; omega)
            | hex => cases hx
            | letter c n _ _ _ h =>
              cases hx
              rw [escapes_iff] at h; omega
            | other c _ _ _ h => cases hx; exact absurd rfl h
        have hd10' : (d == 10) = false := by simpa using hd10
        simp only [hd10', Bool.false_eq_true, if_false]
        by_cases hdo : isOctal d = true
        · rw [if_pos hdo]
          have hdo' := (isOctal_iff d).1 hdo
          have hlen : (octal (d :: r)).2.length < k := by
            obtain ⟨ds, h1, -, h3, -⟩ := (octal_iff d r hdo' _ _).1 (Prod.mk.eta (p := octal (d :: r))).symm
            have := congrArg List.length h3
            simp only [List.length_cons, List.length_append] at this
            have := List.length_pos_iff.2 h1
            omega
          constructor
          · intro h
            split at h
            · cases h
            · rename_i hle
              rw [map_ok] at h
              obtain ⟨⟨s', u'⟩, h1, h2⟩ := h
              cases h2
              obtain ⟨ds, g1, g2, g3, g4, g5⟩ := (octal_iff d r hdo' _ _).1 (Prod.mk.eta (p := octal (d :: r))).symm
              have := LitBody.octal (q := q) ds _ s' _ _ g1 g2 g4 g5 (by omega) ((ih _ hlen s').1 h1)
              rw [← g3] at this
              exact this
          · intro h
            generalize hx : 92 :: d :: r = x at h
            cases h with
            | close => cases hx; exact absurd rfl h92
            | plain _ _ _ _ _ _ h => cases hx; exact absurd rfl h
            | join => cases hx; exact absurd rfl hd10
            | octal ds n s' t _ h1 h2 h3 h4 h5 h6 =>
              simp only [List.cons.injEq, true_and] at hx
              have := (octal_iff d r hdo' n t).2 ⟨ds, h1, h2, hx, h3, h4⟩
              rw [this, if_neg (by simp only; omega), map_ok]
              rw [this] at hlen
              exact ⟨(s', u), (ih _ hlen s').2 h6, rfl⟩
            | hex => cases hx; exact absurd hdo' (by unfold Octal; omega)
            | letter c n _ _ _ h =>
              cases hx
              rw [escapes_iff] at h
              unfold Octal at hdo'; omega
            | other c _ _ _ _ h => cases hx; exact absurd hdo' h
        rw [if_neg hdo]
        have hdo' : ¬ Octal d := by rw [← isOctal_iff]; exact hdo
        by_cases hdx : d = 120
        · subst hdx
          simp only [beq_self_eq_true, if_true]
          constructor
          · intro h
            cases r with
            | nil => cases h
            | cons g r =>
              simp only at h
              rcases hg : hexval g with _ | n
              · simp only [hg] at h; cases h
              · simp only [hg] at h
                have hn : n ≤ 255 := by
                  rw [hexval_iff] at hg
                  unfold HexDigit Digit at hg; omega
                rcases hm : hexMore n r with _ | ⟨m, rest⟩
                · simp only [hm] at h; cases h
                · simp only [hm] at h
                  obtain ⟨ds, rfl, g2, g3, g4⟩ := (hexMore_iff n r m rest hn).1 hm
                  rw [map_ok] at h
                  obtain ⟨⟨s', u'⟩, h1, h2⟩ := h
                  cases h2
                  have hgd := (hexval_iff g n).1 hg
                  refine .hex (g :: ds) m s' rest _ (by simp) ?_ g3 g4 ((ih rest (by simp at hk; omega) s').1 h1)
                  rw [hex_iff]
                  exact .cons 0 g n m ds hgd (by simpa using g2)
          · intro h
            generalize hx : 92 :: 120 :: r = x at h
            cases h with
            | close => cases hx; exact absurd rfl h92
            | plain _ _ _ _ _ _ h => cases hx; exact absurd rfl h
            | join => cases hx
            | octal ds _ _ _ _ h1 h2 =>
              cases ds with
              | nil => exact absurd rfl h1
              | cons e ds => cases hx; exact absurd (h2 120 (by simp)) hdo'
            | hex ds m s' rest _ h1 h2 h3 h4 h5 =>
              cases ds with
              | nil => exact absurd rfl h1
              | cons g ds =>
                cases hx
                rw [hex_iff] at h2
                cases h2 with
                | cons _ _ n _ _ hg hr =>
                  have hg' := (hexval_iff g n).2 hg
                  have hn : n ≤ 255 := by unfold HexDigit Digit at hg; omega
                  have := (hexMore_iff n (ds ++ rest) m rest hn).2 ⟨ds, rfl, by simpa using hr, h3, h4⟩
                  simp only [List.cons_append, hg', this]
                  rw [map_ok]
                  exact ⟨(s', u), (ih rest (by simp at hk; omega) s').2 h5, rfl⟩
            | letter c n _ _ _ h =>
              cases hx
              rw [escapes_iff] at h; omega
            | other c _ _ _ _ _ h => cases hx; exact absurd rfl h
        have hdx' : (d == 120) = false := by simpa using hdx
        simp only [hdx', Bool.false_eq_true, if_false]
        rw [map_ok]
        constructor
        · rintro ⟨⟨s', u'⟩, h1, h2⟩
          cases h2
          have h1' := (ih r (by omega) s').1 h1
          by_cases he : ∃ n, (d, n) ∈ escapes
          · obtain ⟨n, hn⟩ := he
            have := ((escapes_iff d n).1 hn).1
            rw [this]
            exact .letter d n s' r _ hn h1'
          · rw [escChar_other d (fun n hn => he ⟨n, hn⟩)]
            exact .other d s' r _ hd10 hdo' hdx (fun n hn => he ⟨n, hn⟩) h1'
        · intro h
          generalize hx : 92 :: d :: r = x at h
          cases h with
          | close => cases hx; exact absurd rfl h92
          | plain _ _ _ _ _ _ h => cases hx; exact absurd rfl h
          | join => cases hx; exact absurd rfl hd10
          | octal ds _ _ _ _ h1 h2 =>
            cases ds with
            | nil => exact absurd rfl h1
            | cons e ds => cases hx; exact absurd (h2 d (by simp)) hdo'
          | hex => cases hx; exact absurd rfl hdx
          | letter c n s' _ _ h h' =>
            cases hx
            exact ⟨(s', u), (ih r (by omega) s').2 h', by rw [((escapes_iff d n).1 h).1]⟩
          | other c s' _ _ _ _ _ h h' =>
            cases hx
            exact ⟨(s', u), (ih r (by omega) s').2 h', by rw [escChar_other d h]⟩

theorem getLiteral_iff (t s u : List Nat) (ht : ∃ c r, t = c :: r ∧ (c = 39 ∨ c = 34)) :
    getLiteral t = .ok (s, u) ↔ LiteralAt s t u := by
  obtain ⟨q, r, rfl, hq⟩ := ht
  rw [getLiteral, litLoop_iff q hq _ _ _ (by omega)]
  unfold LiteralAt
  constructor
  · intro h; exact ⟨q, r, hq, rfl, h⟩
  · rintro ⟨q', r', -, h, h2⟩
    cases h; exact h2

/-! Tags and symbols -/

theorem bind_ok {α β : Type} (x : R α) (f : α → R β) (b : β) : (x >>= f) = .ok b ↔ ∃ a, x = .ok a ∧ f a = .ok b := by
  cases x with
  | error e => simp [bind, Except.bind]
  | ok a => simp [bind, Except.bind]

theorem stops_cons (c : Nat) (r : List Nat) (h1 : ¬ Blank c) (h2 : c ≠ 47) : Stops (c :: r) := by
  refine ⟨?_, ?_, ?_⟩
  · intro d u hd; cases hd; exact h1
  · rintro ⟨v, hv⟩; cases hv; exact h2 rfl
  · rintro ⟨v, hv⟩; cases hv; exact h2 rfl

theorem isName1_iff (c : Nat) : isName1 c = true ↔ NameFirst c ∧ c ≠ 46 := by
  simp only [isName1, Bool.or_eq_true, isAlpha_iff, beq_iff_eq, NameFirst]
  unfold Letter
  omega

theorem getTag_iff (t tag u : List Nat) (ht : ∃ r, t = 60 :: r) : getTag t = .ok (tag, u) ↔ TagAt tag t u := by
  obtain ⟨r, rfl⟩ := ht
  unfold getTag TagAt
  simp only [List.drop_succ_cons, List.drop_zero, bind_ok, nextc_iff]
  constructor
  · rintro ⟨v, h1, h2⟩
    rcases hp : peek v with _ | c
    · simp only [hp] at h2; cases h2
    · simp only [hp] at h2
      split at h2
      · cases h2
      · rename_i hc
        rw [Bool.not_eq_true, Bool.not_eq_false', isName1_iff] at hc
        have h37 : c ≠ 37 := by
          have := hc.1; unfold NameFirst Letter at this; omega
        obtain ⟨-, -, w, rfl⟩ := (peek_some v c h37).1 hp
        simp only [List.drop_succ_cons, List.drop_zero, bind_ok, nextc_iff] at h2
        obtain ⟨x, h3, h4⟩ := h2
        rcases hq : peek x with _ | d
        · simp only [hq] at h4; cases h4
        · simp only [hq] at h4
          split at h4
          · cases h4
          · rename_i hd
            simp only [bne_iff_ne, ne_eq, Decidable.not_not] at hd
            subst hd
            obtain ⟨-, -, y, rfl⟩ := (peek_some x 62 (by decide)).1 hq
            simp only [List.drop_succ_cons, List.drop_zero, Except.ok.injEq, Prod.mk.injEq] at h4
            obtain ⟨rfl, rfl⟩ := h4
            obtain ⟨e1, e2, e3⟩ := (span_iff isIdent NameChar isIdent_iff w _ _).1 ⟨rfl, rfl⟩
            refine ⟨r, c :: w, w.dropWhile isIdent, rfl, h1, ⟨by rw [List.cons_append, ← e1], ?_, ⟨c, _, rfl, hc.1⟩, e3⟩, ?_, h3⟩
            · intro z hz
              rcases List.mem_cons.1 hz with rfl | hz
              · exact NameFirst.nameChar hc.1
              · exact e2 z hz
            · intro z v hz; cases hz; exact hc.2
  · rintro ⟨t1, t2, t3, h0, h1, ⟨h2, h3, ⟨c, w, rfl, h4⟩, h5⟩, h6, h7⟩
    cases h0
    refine ⟨t2, h1, ?_⟩
    subst h2
    have hc : NameFirst c ∧ c ≠ 46 := ⟨h4, fun h => h6 c _ rfl h⟩
    have hp : peek (c :: w ++ t3) = some c := by
      have := hc.1
      unfold NameFirst Letter at this
      rw [List.cons_append, peek_some _ _ (by omega)]
      exact ⟨by omega, by omega, _, rfl⟩
    simp only [hp]
    rw [if_neg (by rw [(isName1_iff c).2 hc]; decide)]
    obtain ⟨e1, e2⟩ := (span_iff isIdent NameChar isIdent_iff (w ++ t3) w t3).2 ⟨rfl, fun z hz => h3 z (by simp [hz]), h5⟩
    simp only [List.cons_append, List.drop_succ_cons, List.drop_zero, bind_ok, nextc_iff, e1, e2]
    refine ⟨_, h7, ?_⟩
    simp [peek]

theorem peek_first (c : Nat) (r : List Nat) (h : NameFirst c ∨ c = 39 ∨ c = 34) : peek (c :: r) = some c := by
  have h' := h
  unfold NameFirst Letter at h'
  rw [peek_some _ _ (by omega)]
  exact ⟨by omega, by omega, _, rfl⟩

theorem symStart_iff (t : List Nat) : SymStart t ↔ ∃ c, peek t = some c ∧ (nameStart c = true ∨ c = 39 ∨ c = 34) := by
  constructor
  · rintro ⟨c, u, rfl, h⟩
    exact ⟨c, peek_first c u h, by rw [nameStart_iff]; exact h⟩
  · rintro ⟨c, h1, h2⟩
    rw [nameStart_iff] at h2
    have h' := h2
    unfold NameFirst Letter at h'
    obtain ⟨-, -, u, rfl⟩ := (peek_some t c (by omega)).1 h1
    exact ⟨c, u, rfl, h2⟩

/-- the name of a symbol -/
def symText : Sym → List Nat
  | .name n => n
  | .lit s => litName s

/-- the symbol is looked up, and made if it is new; a literal of one character gets its code -/
def useSym (syms : List BSym) : Sym → Nat × List BSym
  | .name n => lookupSym syms n
  | .lit s => ((lookupSym syms (litName s)).1, (lookupSym syms (litName s)).2.modify (lookupSym syms (litName s)).1 (litSym s))

theorem SymAt.start {x : Sym} {t u : List Nat} (h : SymAt x t u) : SymStart t := by
  cases x with
  | name n =>
    obtain ⟨c, r, h1, h2⟩ := NameAt.first h.1
    exact ⟨c, r, h1, .inl h2⟩
  | lit s =>
    obtain ⟨q, r, h1, h2, -⟩ := h
    exact ⟨q, r, h2, .inr h1⟩

theorem getSym_some (syms : List BSym) (t : List Nat) (i : Nat) (syms' : List BSym) (u : List Nat) :
    getSym syms t = .ok (some (i, syms', u)) ↔ ∃ x, SymAt x t u ∧ useSym syms x = (i, syms') := by
  constructor
  · intro h
    unfold getSym at h
    rcases hp : peek t with _ | c
    · simp only [hp] at h; cases h
    · simp only [hp] at h
      split at h
      · rename_i hc
        rw [bind_ok] at h
        obtain ⟨⟨n, v⟩, h1, h2⟩ := h
        have hs := (symStart_iff t).2 ⟨c, hp, .inl hc⟩
        obtain ⟨c', r, rfl, -⟩ := hs
        have hcf := (nameStart_iff c).1 hc
        have h' := hcf
        unfold NameFirst Letter at h'
        obtain ⟨-, -, w, hw⟩ := (peek_some _ c (by omega)).1 hp
        cases hw
        rw [getName_iff _ _ _ ⟨c, _, rfl, hcf⟩] at h1
        simp only [Except.ok.injEq, Option.some.injEq, Prod.mk.injEq] at h2
        obtain ⟨rfl, rfl, rfl⟩ := h2
        exact ⟨.name n, h1, rfl⟩
      split at h
      · rename_i hc
        rw [bind_ok] at h
        obtain ⟨⟨s, v⟩, h1, h2⟩ := h
        have hc' : c = 39 ∨ c = 34 := by simpa using hc
        obtain ⟨-, -, w, rfl⟩ := (peek_some t c (by omega)).1 hp
        rw [getLiteral_iff _ _ _ ⟨c, _, rfl, hc'⟩] at h1
        simp only [Except.ok.injEq, Option.some.injEq, Prod.mk.injEq] at h2
        obtain ⟨rfl, rfl, rfl⟩ := h2
        exact ⟨.lit s, h1, rfl⟩
      · cases h
  · rintro ⟨x, hx, hu⟩
    unfold getSym
    cases x with
    | name n =>
      obtain ⟨c, r, rfl, hc⟩ := NameAt.first hx.1
      rw [peek_first c r (.inl hc)]
      simp only [(nameStart_iff c).2 hc, if_true]
      rw [bind_ok]
      refine ⟨(n, u), (getName_iff _ _ _ ⟨c, r, rfl, hc⟩).2 hx, ?_⟩
      simp only [useSym] at hu
      simp [hu]
    | lit s =>
      have hx' := hx
      obtain ⟨q, r, hq, rfl, -⟩ := hx
      rw [peek_first q r (.inr hq)]
      have h1 : nameStart q = false := by rcases hq with rfl | rfl <;> decide
      have h2 : (q == 39 || q == 34) = true := by rcases hq with rfl | rfl <;> decide
      simp only [h1, h2, if_true, Bool.false_eq_true, if_false]
      rw [bind_ok]
      refine ⟨(s, u), (getLiteral_iff _ _ _ ⟨q, r, rfl, hq⟩).2 hx', ?_⟩
      simp only [useSym, Prod.mk.injEq] at hu
      simp only [hu.1, ← hu.2]

theorem getSym_none (syms : List BSym) (t : List Nat) : getSym syms t = .ok none ↔ ¬ SymStart t := by
  rw [symStart_iff]
  unfold getSym
  rcases hp : peek t with _ | c
  · simp
  · simp only [Option.some.injEq, exists_eq_left']
    by_cases hc : nameStart c = true
    · simp only [hc, if_true, bind_ok]
      simp
    · have hc' : nameStart c = false := by simpa using hc
      simp only [hc', Bool.false_eq_true, if_false, false_or]
      by_cases hq : c = 39 ∨ c = 34
      · have : (c == 39 || c == 34) = true := by simpa using hq
        simp only [this, if_true, bind_ok]
        simp [hq]
      · have : (c == 39 || c == 34) = false := by simpa using hq
        simp only [this, Bool.false_eq_true, if_false]
        simp [hq]

end Verif.Byacc.Rd
