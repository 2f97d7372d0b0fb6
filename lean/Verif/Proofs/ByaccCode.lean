import Verif.Proofs.ByaccWords
import Verif.Proofs.ByaccLines
import Mathlib.Data.List.Induction
import Verif.Spec.ByaccCode
/-
Helper lemmas: code in the grammar file is copied and translated as specified.
-/
set_option autoImplicit false
namespace Verif.Byacc.Rd
open Spec.YText

/-! Strings and comments -/

theorem copyString_iff (q : Nat) (hq : q ≠ 92 ∧ q ≠ 10) (a t o u : List Nat) :
    copyString q a t = .ok (o, u) ↔ ∃ s, StrBody q s ∧ o = s ++ [q] ∧ t = s ++ q :: u := by
  constructor
  · intro h
    fun_induction copyString q a t generalizing o with
    | case1 => cases h
    | case2 c r hc =>
      cases h
      have : c = q := by simpa using hc
      subst this
      exact ⟨[], .nil, rfl, rfl⟩
    | case3 => cases h
    | case4 => cases h
    | case5 c h1 h2 h3 d r' ih =>
      rw [map_ok] at h
      obtain ⟨⟨o', u'⟩, h4, h5⟩ := h
      cases h5
      obtain ⟨s, hs, rfl, rfl⟩ := ih _ h4
      have : c = 92 := by simpa using h3
      subst this
      exact ⟨92 :: d :: s, .esc d s hs, rfl, rfl⟩
    | case6 c r h1 h2 h3 ih =>
      rw [map_ok] at h
      obtain ⟨⟨o', u'⟩, h4, h5⟩ := h
      cases h5
      obtain ⟨s, hs, rfl, rfl⟩ := ih _ h4
      exact ⟨c :: s, .plain c s (by simpa using h1) (by simpa using h2) (by simpa using h3) hs, rfl, rfl⟩
  · rintro ⟨s, hs, rfl, rfl⟩
    induction hs with
    | nil => rw [List.nil_append, List.nil_append, copyString.eq_def]; simp
    | plain c s h1 h2 h3 _ ih =>
      have e1 : (c == q) = false := by simpa using h1
      have e2 : (c == 10) = false := by simpa using h2
      have e3 : (c == 92) = false := by simpa using h3
      simp only [List.cons_append]
      rw [copyString.eq_def]
      simp only [e1, e2, e3, Bool.false_eq_true, if_false]
      rw [ih]; rfl
    | esc c s _ ih =>
      have e1 : (92 == q) = false := by simpa using Ne.symm hq.1
      simp only [List.cons_append]
      rw [copyString.eq_def]
      simp only [e1, Bool.false_eq_true, if_false, beq_self_eq_true, if_true]
      rw [show ((92 : Nat) == 10) = false by decide]
      simp only [Bool.false_eq_true, if_false]
      rw [ih]; rfl

theorem blockComment_iff (a t o u : List Nat) : blockComment a t = .ok (o, u) ↔
    ∃ s, ¬ [42, 47] <:+: s ++ [42] ∧ o = s ++ [42, 47] ∧ t = s ++ 42 :: 47 :: u := by
  constructor
  · intro h
    fun_induction blockComment a t generalizing o with
    | case1 r => cases h; exact ⟨[], by decide, rfl, rfl⟩
    | case2 c r hn ih =>
      rw [map_ok] at h
      obtain ⟨⟨o', u'⟩, h4, h5⟩ := h
      cases h5
      obtain ⟨s, hs, rfl, rfl⟩ := ih _ h4
      refine ⟨c :: s, ?_, rfl, rfl⟩
      intro hi
      rw [List.cons_append, List.infix_cons_iff] at hi
      rcases hi with hp | hi
      · rw [List.cons_prefix_cons] at hp
        obtain ⟨rfl, hp⟩ := hp
        cases s with
        | nil => exact absurd hp (by decide)
        | cons d s =>
          rw [List.cons_append, List.cons_prefix_cons] at hp
          exact hn _ rfl (by rw [← hp.1]; rfl)
      · exact hs hi
    | case3 => cases h
  · rintro ⟨s, hs, rfl, rfl⟩
    induction s with
    | nil => rfl
    | cons c s ih =>
      have hs' : ¬ [42, 47] <:+: s ++ [42] := by
        intro hi; apply hs
        rw [List.cons_append]
        exact List.infix_cons hi
      have hn : ∀ r, c = 42 → s ++ 42 :: 47 :: u = 47 :: r → False := by
        rintro r rfl h
        cases s with
        | nil => cases h
        | cons d s =>
          cases h
          apply hs
          exact ⟨[], s ++ [42], by simp⟩
      rw [List.cons_append, blockComment, ih hs']
      · rfl
      · intro r h1 h2; exact hn r h1 h2

theorem lineComment_spec (t : List Nat) : ∃ s, t = s ++ (lineComment t).2 ∧ 10 ∉ s ∧ NotNext (· ≠ 10) (lineComment t).2 ∧
    Spaced s (lineComment t).1 := by
  suffices H : ∀ (n : Nat) (t : List Nat), t.length ≤ n → ∃ s, t = s ++ (lineComment t).2 ∧ 10 ∉ s ∧ NotNext (· ≠ 10) (lineComment t).2 ∧
      Spaced s (lineComment t).1 from H _ t (Nat.le_refl _)
  intro n
  induction n with
  | zero =>
    intro t ht
    have : t = [] := List.length_eq_zero_iff.1 (by omega)
    subst this
    exact ⟨[], by simp [lineComment], by simp, by rw [lineComment]; exact notNext_nil, by simpa [lineComment] using Spaced.nil⟩
  | succ n ih =>
    intro t ht
    cases t with
    | nil => exact ⟨[], by simp [lineComment], by simp, by rw [lineComment]; exact notNext_nil, by simpa [lineComment] using Spaced.nil⟩
    | cons c r =>
      simp only [List.length_cons] at ht
      rw [lineComment]
      by_cases h1 : c = 10
      · subst h1
        rw [if_pos (by rfl)]
        refine ⟨[], rfl, by simp, ?_, .nil⟩
        intro d v hd; cases hd; simp
      · rw [if_neg (by simpa using h1)]
        by_cases h2 : (c == 42 && r.head? == some 47) = true
        · rw [if_pos h2]
          simp only [Bool.and_eq_true, beq_iff_eq] at h2
          obtain ⟨rfl, h2⟩ := h2
          cases r with
          | nil => cases h2
          | cons d r =>
            simp only [List.head?_cons, Option.some.injEq] at h2
            subst h2
            simp only [List.length_cons] at ht
            have e : lineComment (47 :: r) = (47 :: (lineComment r).1, (lineComment r).2) := by
              rw [lineComment]
              rfl
            rw [e]
            obtain ⟨s, h3, h4, h5, h6⟩ := ih r (by omega)
            exact ⟨42 :: 47 :: s, by simp only [List.cons_append]; rw [← h3], by simp [h4], h5, .close s _ h6⟩
        · rw [if_neg h2]
          obtain ⟨s, h3, h4, h5, h6⟩ := ih r (by omega)
          refine ⟨c :: s, by simp only [List.cons_append]; rw [← h3], by simp [h4, Ne.symm h1], h5, .other c s _ ?_ h6⟩
          intro hp
          rw [List.cons_prefix_cons] at hp
          apply h2
          obtain ⟨rfl, hp⟩ := hp
          cases s with
          | nil => exact absurd hp (by decide)
          | cons d s =>
            rw [List.cons_prefix_cons] at hp
            rw [h3, ← hp.1]; rfl

theorem _root_.Verif.Spec.YText.Spaced.unique {s a b : List Nat} (h1 : Spaced s a) (h2 : Spaced s b) : a = b := by
  induction h1 generalizing b with
  | nil => cases h2; rfl
  | close s s' _ ih =>
    cases h2 with
    | close _ b h => rw [ih h]
    | other _ _ _ h => exact absurd ⟨s, rfl⟩ h
  | other c s s' h _ ih =>
    cases h2 with
    | close s _ _ => exact absurd ⟨s, rfl⟩ h
    | other _ _ b _ h => rw [ih h]

theorem line_unique {s u s' u' : List Nat} (h : s ++ u = s' ++ u') (h1 : 10 ∉ s) (h1' : 10 ∉ s') (h2 : NotNext (· ≠ 10) u) (h2' : NotNext (· ≠ 10) u') :
    s = s' ∧ u = u' := by
  induction s generalizing s' with
  | nil =>
    cases s' with
    | nil => exact ⟨rfl, h⟩
    | cons c s' =>
      simp only [List.nil_append] at h
      have := h2 c (s' ++ u') h
      simp at this
      exact absurd (by simp [this]) h1'
  | cons c s ih =>
    cases s' with
    | nil =>
      simp only [List.nil_append] at h
      have := h2' c (s ++ u) h.symm
      simp at this
      exact absurd (by simp [this]) h1
    | cons d s' =>
      simp only [List.cons_append, List.cons.injEq] at h
      obtain ⟨rfl, h⟩ := h
      obtain ⟨rfl, rfl⟩ := ih h (fun hm => h1 (by simp [hm])) (fun hm => h1' (by simp [hm]))
      exact ⟨rfl, rfl⟩

theorem lineComment_iff (t o u : List Nat) : lineComment t = (o, u) ↔ ∃ s, t = s ++ u ∧ 10 ∉ s ∧ NotNext (· ≠ 10) u ∧ Spaced s o := by
  obtain ⟨s, h1, h2, h3, h4⟩ := lineComment_spec t
  constructor
  · intro h
    rw [h] at h1 h3 h4
    exact ⟨s, h1, h2, h3, h4⟩
  · rintro ⟨s', g1, g2, g3, g4⟩
    obtain ⟨rfl, e⟩ := line_unique (h1.symm.trans g1) h2 g2 h3 g3
    exact Prod.ext (h4.unique g4) e

/-! Pieces of code -/

theorem quote_piece (c : Nat) (hc : c = 39 ∨ c = 34) (a r o u : List Nat) :
    copyString c a r = .ok (o, u) ↔ PieceAt (c :: o) (c :: r) u := by
  rw [copyString_iff c (by omega)]
  constructor
  · rintro ⟨s, h1, rfl, rfl⟩
    exact .string c s u hc h1
  · intro h
    generalize hx : c :: o = x at h
    generalize hy : c :: r = y at h
    cases h with
    | string q s _ hq hs => cases hx; cases hy; exact ⟨s, hs, rfl, rfl⟩
    | block => cases hy; omega
    | line => cases hy; omega
    | char c' _ h1 h2 => cases hy; omega

theorem slash_piece (a r o u : List Nat) : copyComment a r = .ok (o, u) ↔ PieceAt (47 :: o) (47 :: r) u := by
  constructor
  · intro h
    fun_cases copyComment a r with
    | case1 r =>
      cases h
      obtain ⟨s, h1, h2, h3, h4⟩ := (lineComment_iff r _ _).1 Prod.mk.eta.symm
      have := PieceAt.line s _ _ h2 h3 h4
      rw [← h1] at this
      simpa using this
    | case2 r =>
      rw [copyComment, map_ok] at h
      obtain ⟨⟨o', u'⟩, h1, h2⟩ := h
      cases h2
      obtain ⟨s, h3, rfl, rfl⟩ := (blockComment_iff a r _ _).1 h1
      exact .block s _ h3
    | case3 t h1 h2 =>
      rw [copyComment] at h
      · cases h
        refine .char 47 _ (by decide) (by decide) ?_ ?_
        · rintro ⟨v, hv⟩; cases hv; exact h2 _ rfl
        · rintro ⟨v, hv⟩; cases hv; exact h1 _ rfl
      · exact h1
      · exact h2
  · intro h
    generalize hx : 47 :: o = x at h
    generalize hy : 47 :: r = y at h
    cases h with
    | string q s _ hq hs => cases hx; omega
    | block s _ hs =>
      cases hx; cases hy
      rw [copyComment, map_ok]
      exact ⟨_, (blockComment_iff a _ _ _).2 ⟨s, hs, rfl, rfl⟩, rfl⟩
    | line s s' _ h1 h2 h3 =>
      cases hx; cases hy
      have := (lineComment_iff (s ++ u) s' u).2 ⟨s, rfl, h1, h2, h3⟩
      rw [copyComment, this]
    | char c _ h1 h2 h3 h4 =>
      cases hx; cases hy
      rw [copyComment]
      · rintro v rfl; exact h4 ⟨v, rfl⟩
      · rintro v rfl; exact h3 ⟨v, rfl⟩

theorem char_piece (c : Nat) (h1 : c ≠ 39) (h2 : c ≠ 34) (h3 : c ≠ 47) (r o u : List Nat) : PieceAt o (c :: r) u ↔ o = [c] ∧ u = r := by
  constructor
  · intro h
    generalize hy : c :: r = y at h
    cases h with
    | string q s _ hq hs => cases hy; omega
    | block => cases hy; exact absurd rfl h3
    | line => cases hy; exact absurd rfl h3
    | char c' _ => cases hy; exact ⟨rfl, rfl⟩
  · rintro ⟨rfl, rfl⟩
    refine .char c u h1 h2 ?_ ?_
    · rintro ⟨v, hv⟩; cases hv; exact h3 rfl
    · rintro ⟨v, hv⟩; cases hv; exact h3 rfl

theorem _root_.Verif.Spec.YText.PieceAt.length {o t u : List Nat} (h : PieceAt o t u) : u.length < t.length := by
  cases h <;> simp <;> omega

/-- how a piece starts -/
theorem _root_.Verif.Spec.YText.PieceAt.head {o t u : List Nat} (h : PieceAt o t u) : ∃ c o' r, o = c :: o' ∧ t = c :: r := by
  cases h <;> exact ⟨_, _, _, rfl, rfl⟩

/-- only a newline itself is copied as something that ends with a newline -/
theorem _root_.Verif.Spec.YText.PieceAt.last {o t u : List Nat} (h : PieceAt o t u) : ∃ x, o.getLast? = some x ∧ (x = 10 ↔ ∃ r, t = 10 :: r) := by
  cases h with
  | string q s _ hq => exact ⟨q, by rw [← List.cons_append, List.getLast?_concat], by constructor <;> intro h <;> [omega; (obtain ⟨r, hr⟩ := h; cases hr; omega)]⟩
  | block s => exact ⟨47, by rw [show 47 :: 42 :: (s ++ [42, 47]) = (47 :: 42 :: s ++ [42]) ++ [47] by simp, List.getLast?_concat], by simp⟩
  | line s s' => exact ⟨47, by rw [show 47 :: 42 :: (s' ++ [42, 47]) = (47 :: 42 :: s' ++ [42]) ++ [47] by simp, List.getLast?_concat], by simp⟩
  | char c r => exact ⟨c, by simp, by simp⟩

/-- the newline added at the end -/
def textNl (nl : Bool) (o : List Nat) : List Nat := if o.getLast?.elim nl (· != 10) then [10] else []

theorem textNl_append (nl nl' : Bool) (o os : List Nat) (x : Nat) (h : o.getLast? = some x) (hn : nl' = (x != 10)) :
    textNl nl (o ++ os) = textNl nl' os := by
  unfold textNl
  rw [List.getLast?_append, h]
  cases hos : os.getLast? with
  | none => simp [hn]
  | some y => simp

theorem textEnd_iff (c : Nat) (r : List Nat) : (∃ w, TextEnd (c :: r) w) ↔ ((c == 37 || c == 92) && r.head? == some 125) = true := by
  unfold TextEnd Percent
  simp only [Bool.and_eq_true, Bool.or_eq_true, beq_iff_eq]
  constructor
  · rintro ⟨w, p, hp, h⟩
    cases h
    exact ⟨hp, rfl⟩
  · rintro ⟨h1, h2⟩
    cases r with
    | nil => cases h2
    | cons d r =>
      simp at h2
      subst h2
      exact ⟨r, c, h1, rfl⟩

theorem textLoop_iff (a : List Nat) (k : Nat) (nl : Bool) (t o u : List Nat) (hk : t.length < k) :
    textLoop a k nl t = .ok (o, u) ↔ ∃ o', TextAt o' t u ∧ o = o' ++ textNl nl o' := by
  induction k generalizing nl t o with
  | zero => omega
  | succ k ih =>
    cases t with
    | nil =>
      rw [textLoop]
      constructor
      · intro h; cases h
      · rintro ⟨o', h, -⟩
        cases h with
        | done _ _ h => obtain ⟨p, -, h⟩ := h; cases h
        | piece _ _ _ _ _ _ h =>
          have := h.length
          simp at this
    | cons c r =>
      simp only [List.length_cons] at hk
      -- one piece, then the rest
      have step : ∀ (o1 v : List Nat) (nl' : Bool) (x : Nat), (∀ w, ¬ TextEnd (c :: r) w) → PieceAt o1 (c :: r) v →
          (∀ o2 v2, PieceAt o2 (c :: r) v2 → o2 = o1 ∧ v2 = v) → o1.getLast? = some x → nl' = (x != 10) → 
          (((textLoop a k nl' v).map fun y => (o1 ++ y.1, y.2)) = .ok (o, u) ↔ ∃ o', TextAt o' (c :: r) u ∧ o = o' ++ textNl nl o') := by
        intro o1 v nl' x he hp huniq hlast hnl
        have hlen := hp.length
        simp only [List.length_cons] at hlen
        rw [map_ok]
        constructor
        · rintro ⟨⟨o2, u2⟩, h1, h2⟩
          cases h2
          obtain ⟨o', h3, rfl⟩ := (ih nl' v _ (by omega)).1 h1
          exact ⟨o1 ++ o', .piece o1 o' _ v _ he hp h3, by rw [textNl_append nl nl' o1 o' x hlast hnl]; simp⟩
        · rintro ⟨o', h, rfl⟩
          cases h with
          | done _ _ h => exact absurd h (he u)
          | piece o2 os _ v2 _ _ h1 h2 =>
            obtain ⟨rfl, rfl⟩ := huniq _ _ h1
            exact ⟨(os ++ textNl nl' os, u), (ih nl' v2 _ (by omega)).2 ⟨os, h2, rfl⟩, by
              rw [textNl_append nl nl' o2 os x hlast hnl]; simp⟩
      have noend : ∀ c', c = c' → c' ≠ 37 → c' ≠ 92 → ∀ w, ¬ TextEnd (c :: r) w := by
        rintro c' rfl h1 h2 w ⟨p, hp, h⟩
        cases h
        unfold Percent at hp; omega
      rw [textLoop.eq_def]
      simp only
      by_cases h10 : c = 10
      · subst h10
        rw [if_pos (by rfl)]
        exact step [10] r false 10 (noend 10 rfl (by decide) (by decide)) ((char_piece 10 (by decide) (by decide) (by decide) r _ _).2 ⟨rfl, rfl⟩)
          (fun o2 v2 h => (char_piece 10 (by decide) (by decide) (by decide) r _ _).1 h) rfl rfl
      rw [if_neg (by simpa using h10)]
      by_cases hq : c = 39 ∨ c = 34
      · rw [if_pos (by simpa using hq)]
        have he := noend c rfl (by omega) (by omega)
        rcases hcs : copyString c (c :: r) r with e | ⟨s1, s2⟩
        · simp only [bind, Except.bind]
          constructor
          · intro h; cases h
          · rintro ⟨o', h, -⟩
            cases h with
            | done _ _ h => exact absurd h (he u)
            | piece o2 os _ v2 _ _ h1 h2 =>
              obtain ⟨c', o3, r', rfl, hr⟩ := h1.head
              cases hr
              rw [(quote_piece c hq (c :: r) r o3 v2).2 h1] at hcs
              cases hcs
        · simp only [bind, Except.bind]
          have hp := (quote_piece c hq (c :: r) r s1 s2).1 hcs
          obtain ⟨x, hx1, hx2⟩ := hp.last
          refine step (c :: s1) s2 true x he hp ?_ hx1 ?_
          · intro o2 v2 h
            obtain ⟨c', o3, r', rfl, hr⟩ := h.head
            cases hr
            rw [(quote_piece c hq (c :: r) r o3 v2).2 h] at hcs
            cases hcs; exact ⟨rfl, rfl⟩
          · have : x ≠ 10 := by rw [ne_eq, hx2]; rintro ⟨r', hr⟩; cases hr; omega
            simpa using this
      rw [if_neg (by simpa using hq)]
      by_cases h47 : c = 47
      · subst h47
        rw [if_pos (by rfl)]
        have he := noend 47 rfl (by omega) (by omega)
        rcases hcs : copyComment (47 :: r) r with e | ⟨s1, s2⟩
        · simp only [bind, Except.bind]
          constructor
          · intro h; cases h
          · rintro ⟨o', h, -⟩
            cases h with
            | done _ _ h => exact absurd h (he u)
            | piece o2 os _ v2 _ _ h1 h2 =>
              obtain ⟨c', o3, r', rfl, hr⟩ := h1.head
              cases hr
              rw [(slash_piece (47 :: r) r o3 v2).2 h1] at hcs
              cases hcs
        · simp only [bind, Except.bind]
          have hp := (slash_piece (47 :: r) r s1 s2).1 hcs
          obtain ⟨x, hx1, hx2⟩ := hp.last
          refine step (47 :: s1) s2 true x he hp ?_ hx1 ?_
          · intro o2 v2 h
            obtain ⟨c', o3, r', rfl, hr⟩ := h.head
            cases hr
            rw [(slash_piece (47 :: r) r o3 v2).2 h] at hcs
            cases hcs; exact ⟨rfl, rfl⟩
          · have : x ≠ 10 := by rw [ne_eq, hx2]; rintro ⟨r', hr⟩; cases hr
            simpa using this
      rw [if_neg (by simpa using h47)]
      by_cases hend : ((c == 37 || c == 92) && r.head? == some 125) = true
      · rw [if_pos hend]
        obtain ⟨w, hw⟩ := (textEnd_iff c r).2 hend
        have hw' := hw
        obtain ⟨p, hp, h⟩ := hw'
        cases h
        simp only [List.drop_succ_cons, List.drop_zero, Except.ok.injEq, Prod.mk.injEq]
        constructor
        · rintro ⟨rfl, rfl⟩
          exact ⟨[], .done _ _ hw, rfl⟩
        · rintro ⟨o', h, rfl⟩
          cases h with
          | done _ _ h =>
            obtain ⟨p', -, h⟩ := h
            cases h
            exact ⟨rfl, rfl⟩
          | piece _ _ _ _ _ h => exact absurd hw (h w)
      · rw [if_neg hend]
        simp only [not_or] at hq
        refine step [c] r true c ?_ ((char_piece c hq.1 hq.2 h47 r _ _).2 ⟨rfl, rfl⟩) (fun o2 v2 h => (char_piece c hq.1 hq.2 h47 r _ _).1 h) rfl ?_
        · intro w hw; exact hend ((textEnd_iff c r).1 ⟨w, hw⟩)
        · simpa using h10

theorem unionLoop_iff (a : List Nat) (k : Nat) (d : Int) (t u : List Nat) (hk : t.length < k) :
    unionLoop a k d t = .ok u ↔ UnionAt d t u := by
  induction k generalizing d t with
  | zero => omega
  | succ k ih =>
    cases t with
    | nil =>
      rw [unionLoop]
      constructor
      · intro h; cases h
      · intro h
        cases h with
        | piece _ _ _ _ _ _ h =>
          have := h.length
          simp at this
    | cons c r =>
      simp only [List.length_cons] at hk
      rw [unionLoop.eq_def]
      simp only
      by_cases h1 : c = 123
      · subst h1
        rw [if_pos (by rfl), ih _ _ (by omega)]
        constructor
        · exact .opening d r u
        · intro h
          cases h with
          | opening _ _ _ h => exact h
          | piece _ _ _ _ _ h => exact absurd (.inl rfl) (h 123 r rfl)
      rw [if_neg (by simpa using h1)]
      by_cases h2 : c = 125
      · subst h2
        rw [if_pos (by rfl)]
        by_cases hd : d = 1
        · subst hd
          rw [if_pos (by decide)]
          constructor
          · intro h; cases h; exact .last u
          · intro h
            cases h with
            | last => rfl
            | closing _ _ _ h => exact absurd rfl h
            | piece _ _ _ _ _ h => exact absurd (.inr rfl) (h 125 r rfl)
        · rw [if_neg (by simp; omega), ih _ _ (by omega)]
          constructor
          · exact .closing d r u hd
          · intro h
            cases h with
            | last => exact absurd rfl hd
            | closing _ _ _ _ h => exact h
            | piece _ _ _ _ _ h => exact absurd (.inr rfl) (h 125 r rfl)
      rw [if_neg (by simpa using h2)]
      have hnn : NotNext (fun c => c = 123 ∨ c = 125) (c :: r) := by
        intro e v he; cases he; omega
      have hpiece : UnionAt d (c :: r) u ↔ ∃ o v, PieceAt o (c :: r) v ∧ UnionAt d v u := by
        constructor
        · intro h
          cases h with
          | last => exact absurd rfl h2
          | opening => exact absurd rfl h1
          | closing => exact absurd rfl h2
          | piece _ o _ v _ _ h h' => exact ⟨o, v, h, h'⟩
        · rintro ⟨o, v, h, h'⟩
          exact .piece d o _ v u hnn h h'
      rw [hpiece]
      by_cases hq : c = 39 ∨ c = 34
      · rw [if_pos (by simpa using hq), bind_ok]
        constructor
        · rintro ⟨⟨s1, s2⟩, h3, h4⟩
          have hp := (quote_piece c hq _ r s1 s2).1 h3
          have := hp.length
          simp only [List.length_cons] at this
          exact ⟨_, _, hp, (ih _ _ (by omega)).1 h4⟩
        · rintro ⟨o, v, h3, h4⟩
          have := h3.length
          simp only [List.length_cons] at this
          obtain ⟨c', o3, r', rfl, hr⟩ := h3.head
          cases hr
          exact ⟨(o3, v), (quote_piece c hq _ r o3 v).2 h3, (ih d v (by omega)).2 h4⟩
      rw [if_neg (by simpa using hq)]
      by_cases h47 : c = 47
      · subst h47
        rw [if_pos (by rfl), bind_ok]
        constructor
        · rintro ⟨⟨s1, s2⟩, h3, h4⟩
          have hp := (slash_piece _ r s1 s2).1 h3
          have := hp.length
          simp only [List.length_cons] at this
          exact ⟨_, _, hp, (ih _ _ (by omega)).1 h4⟩
        · rintro ⟨o, v, h3, h4⟩
          have := h3.length
          simp only [List.length_cons] at this
          obtain ⟨c', o3, r', rfl, hr⟩ := h3.head
          cases hr
          exact ⟨(o3, v), (slash_piece _ r o3 v).2 h3, (ih d v (by omega)).2 h4⟩
      rw [if_neg (by simpa using h47), ih _ _ (by omega)]
      simp only [not_or] at hq
      constructor
      · intro h; exact ⟨[c], r, (char_piece c hq.1 hq.2 h47 r _ _).2 ⟨rfl, rfl⟩, h⟩
      · rintro ⟨o, v, h3, h4⟩
        obtain ⟨-, rfl⟩ := (char_piece c hq.1 hq.2 h47 r _ _).1 h3
        exact h4

/-! Numbers in the output -/

theorem decDigits_eq (n : Nat) : decDigits n = if n < 10 then [48 + n] else decDigits (n / 10) ++ [48 + n % 10] := by
  have hd : ∀ d, d < 10 → (Nat.digitChar d).toNat = 48 + d := by decide
  unfold decDigits
  split
  · rename_i h
    rw [Nat.toDigits_of_lt_base h]
    simp [hd n h]
  · rename_i h
    rw [Nat.toDigits_of_base_le (by omega) (by omega)]
    simp [hd (n % 10) (by omega)]

theorem value_snoc (ds : List Nat) (d : Nat) : value (ds ++ [d]) = 10 * value ds + (d - 48) := by
  rw [← decValue_eq, ← decValue_eq]
  simp [decValue, List.foldl_append]

theorem decDigits_spec (n : Nat) : decDigits n ≠ [] ∧ (∀ d ∈ decDigits n, Digit d) ∧ ((decDigits n).head? = some 48 → decDigits n = [48]) ∧
    value (decDigits n) = n := by
  induction n using Nat.strongRecOn with
  | ind n ih =>
    rw [decDigits_eq]
    split
    · rename_i h
      refine ⟨by simp, ?_, ?_, ?_⟩
      · intro d hd; simp at hd; unfold Digit; omega
      · simp
      · simp [value]
    · rename_i h
      obtain ⟨h1, h2, h3, h4⟩ := ih (n / 10) (by omega)
      refine ⟨by simp, ?_, ?_, ?_⟩
      · intro d hd
        rcases List.mem_append.1 hd with hd | hd
        · exact h2 d hd
        · simp at hd; unfold Digit; omega
      · intro hh
        exfalso
        rw [List.head?_append_of_ne_nil _ h1] at hh
        rw [h3 hh] at h4
        simp [value] at h4
        omega
      · rw [value_snoc, h4]; omega

theorem value_pos (c : Nat) (r : List Nat) (h : Digit c) (h0 : c ≠ 48) : 1 ≤ value (c :: r) := by
  rw [value]
  unfold Digit at h
  have : 1 ≤ (c - 48) * 10 ^ r.length := Nat.mul_pos (by omega) (Nat.pow_pos (by omega))
  omega

theorem decDigits_value (ds : List Nat) (h1 : ds ≠ []) (h2 : ∀ d ∈ ds, Digit d) (h3 : ds.head? = some 48 → ds = [48]) :
    decDigits (value ds) = ds := by
  induction ds using List.reverseRecOn with
  | nil => exact absurd rfl h1
  | append_singleton ds d ih =>
    have hd := h2 d (by simp)
    unfold Digit at hd
    by_cases hds : ds = []
    · subst hds
      rw [decDigits_eq, value_snoc]
      simp only [List.nil_append]
      rw [if_pos (by simp [value]; omega)]
      simp [value]; omega
    · have hh : ds.head? ≠ some 48 := by
        intro hh
        have := h3 (by rw [List.head?_append_of_ne_nil _ hds]; exact hh)
        have := congrArg List.length this
        simp at this
        exact hds this
      have hv : 1 ≤ value ds := by
        cases ds with
        | nil => exact absurd rfl hds
        | cons c r => exact value_pos c r (h2 c (by simp)) (by simpa using hh)
      have ih' := ih hds (fun x hx => h2 x (by simp [hx])) (fun h => absurd h hh)
      rw [decDigits_eq, value_snoc, if_neg (by omega)]
      rw [show (10 * value ds + (d - 48)) / 10 = value ds by omega, ih', show 48 + (10 * value ds + (d - 48)) % 10 = d by omega]

theorem decInt_iff (i : Int) (s : List Nat) : Decimal i s ↔ s = decInt i := by
  unfold Decimal decInt
  constructor
  · rintro ⟨ds, h1, h2, h3, h4, rfl⟩
    rw [← h4, decDigits_value ds h1 h2 h3]
  · rintro rfl
    obtain ⟨h1, h2, h3, h4⟩ := decDigits_spec i.natAbs
    exact ⟨_, h1, h2, h3, h4, rfl⟩

theorem lMark_iff (i : Int) (s : List Nat) : Indexed "yystack.l_mark" i s ↔ s = lMark i := by
  have e : txt "yystack.l_mark" ++ [91] = str "yystack.l_mark[" := by decide
  unfold Indexed lMark
  constructor
  · rintro ⟨d, h, rfl⟩
    rw [(decInt_iff i d).1 h, ← e]; simp
  · rintro rfl
    exact ⟨_, (decInt_iff i _).2 rfl, by rw [← e]; simp⟩

theorem pMark_iff (i : Int) (s : List Nat) : Indexed "yystack.p_mark" i s ↔ s = pMark i := by
  have e : txt "yystack.p_mark" ++ [91] = str "yystack.p_mark[" := by decide
  unfold Indexed pMark
  constructor
  · rintro ⟨d, h, rfl⟩
    rw [(decInt_iff i d).1 h, ← e]; simp
  · rintro rfl
    exact ⟨_, (decInt_iff i _).2 rfl, by rw [← e]; simp⟩

end Verif.Byacc.Rd
