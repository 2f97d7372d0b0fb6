import Verif.Lemon.Scan
import Verif.Spec.LemonScan
import Mathlib.Tactic.SplitIfs
import Mathlib.Tactic.Tauto
/-
Helper lemmas for C71: the scanner of lemon.
-/
set_option autoImplicit false
namespace Verif.Lemon
open Verif.Spec.Words

theorem bump_count (c line : Nat) (b : List Nat) : bump c line + b.count 10 = line + (c :: b).count 10 := by
  unfold bump
  rw [List.count_cons]
  split_ifs with h h' h' <;> simp at h' <;> omega

/-! ### comments -/

/-- `prev :: b` has its first `*/` at the end -/
theorem infix_cons_iff (p : Nat) (a : List Nat) : [42, 47] <:+: p :: a ↔ (p = 42 ∧ a.head? = some 47) ∨ [42, 47] <:+: a := by
  rw [List.infix_cons_iff]
  constructor
  · rintro (h | h)
    · left
      obtain ⟨t, ht⟩ := h
      simp only [List.cons_append, List.nil_append, List.cons.injEq] at ht
      exact ⟨ht.1.symm, by rw [← ht.2]; rfl⟩
    · exact .inr h
  · rintro (⟨rfl, h⟩ | h)
    · left
      cases a with
      | nil => cases h
      | cons x a =>
        simp only [List.head?_cons, Option.some.injEq] at h
        subst h
        exact ⟨a, rfl⟩
    · exact .inr h

/-- every text has a first `*/` or none -/
theorem comment_cases (s : List Nat) : (∃ b t, s = b ++ t ∧ CommentRest b) ∨ ¬ [42, 47] <:+: s := by
  induction s with
  | nil => exact .inr (by simp)
  | cons c s ih =>
    rcases ih with ⟨b, t, rfl, a, rfl, ha⟩ | h
    · by_cases hc : [42, 47] <:+: c :: (a ++ [42])
      · rw [infix_cons_iff] at hc
        rcases hc with ⟨rfl, hc⟩ | hc
        · left
          cases a with
          | nil => simp at hc
          | cons x a =>
            simp only [List.cons_append, List.head?_cons, Option.some.injEq] at hc
            subst hc
            exact ⟨[42, 47], a ++ [42, 47] ++ t, by simp, [], rfl, by decide⟩
        · exact absurd hc ha
      · exact .inl ⟨c :: (a ++ [42, 47]), t, by simp, c :: a, rfl, hc⟩
    · by_cases hc : [42, 47] <:+: c :: s
      · rw [infix_cons_iff] at hc
        rcases hc with ⟨rfl, hc⟩ | hc
        · cases s with
          | nil => cases hc
          | cons x s =>
            simp only [List.head?_cons, Option.some.injEq] at hc
            subst hc
            exact .inl ⟨[42, 47], s, rfl, [], rfl, by decide⟩
        · exact absurd hc h
      · exact .inr hc

theorem scanComment_end {a : List Nat} : ∀ (prev : Nat) (t : List Nat) (line : Nat), ¬ [42, 47] <:+: prev :: (a ++ [42]) →
    scanComment prev (a ++ [42, 47] ++ t) line = (t, line + (a ++ [42, 47]).count 10) := by
  induction a with
  | nil =>
    intro prev t line h
    simp [scanComment, bump]
  | cons c a ih =>
    intro prev t line h
    rw [List.cons_append, infix_cons_iff] at h
    simp only [List.cons_append, List.head?_cons, Option.some.injEq, not_or] at h
    simp only [List.cons_append, scanComment]
    rw [if_neg (fun hc => h.1 ⟨hc.2, hc.1⟩), ih c t _ h.2, bump_count]

theorem scanComment_open {s : List Nat} : ∀ (prev line : Nat), ¬ [42, 47] <:+: prev :: s →
    scanComment prev s line = ([], line + s.count 10) := by
  induction s with
  | nil => intros; rfl
  | cons c s ih =>
    intro prev line h
    rw [infix_cons_iff] at h
    simp only [List.head?_cons, Option.some.injEq, not_or] at h
    rw [scanComment, if_neg (fun hc => h.1 ⟨hc.2, hc.1⟩), ih c _ h.2, bump_count]

theorem scanString_spec (s : List Nat) : ∀ line : Nat, scanString s line =
    (s.takeWhile (· != 34), s.dropWhile (· != 34), line + (s.takeWhile (· != 34)).count 10) := by
  induction s with
  | nil => intro; rfl
  | cons c s ih =>
    intro line
    rw [scanString]
    split_ifs with h
    · subst h; rfl
    · rw [ih, List.takeWhile_cons_of_pos (by simpa), List.dropWhile_cons_of_pos (by simpa), bump_count]

/-! ### code -/

theorem scanCode_cons (level c : Nat) (t : List Nat) (line : Nat) : scanCode .code level (c :: t) line =
    if c = 125 ∧ level ≤ 1 then some ([], c :: t, line)
    else if c = 10 then (scanCode .code level t (line + 1)).map fun r => (c :: r.1, r.2)
    else if c = 123 then (scanCode .code (level + 1) t line).map fun r => (c :: r.1, r.2)
    else if c = 125 then (scanCode .code (level - 1) t line).map fun r => (c :: r.1, r.2)
    else if c = 39 ∨ c = 34 then (scanCode (.literal c 0) level t line).map fun r => (c :: r.1, r.2)
    else
      match t with
      | [] => (scanCode .code level [] line).map fun r => (c :: r.1, r.2)
      | d :: u =>
        if c = 47 ∧ d = 42 then (scanCode (.comment 0) level u line).map fun r => (c :: d :: r.1, r.2)
        else if c = 47 ∧ d = 47 then (scanCode .line level u line).map fun r => (c :: d :: r.1, r.2)
        else (scanCode .code level (d :: u) line).map fun r => (c :: r.1, r.2) := by
  cases t <;> (conv_lhs => rw [scanCode])

theorem split_at {x : Nat} {s : List Nat} (h : x ∈ s) : ∃ a t, s = a ++ x :: t ∧ x ∉ a := by
  induction s with
  | nil => cases h
  | cons c s ih =>
    by_cases hc : c = x
    · exact ⟨[], s, by rw [hc]; rfl, by simp⟩
    · obtain ⟨a, t, rfl, ha⟩ := ih (by rcases List.mem_cons.mp h with h | h; exacts [absurd h.symm hc, h])
      exact ⟨c :: a, t, rfl, by simp [ha, Ne.symm hc]⟩

theorem scanCode_comment {a : List Nat} : ∀ (prev level : Nat) (t : List Nat) (line : Nat), ¬ [42, 47] <:+: prev :: (a ++ [42]) →
    scanCode (.comment prev) level (a ++ [42, 47] ++ t) line =
      (scanCode .code level t (line + (a ++ [42, 47]).count 10)).map fun r => (a ++ [42, 47] ++ r.1, r.2) := by
  induction a with
  | nil =>
    intro prev level t line h
    simp only [List.nil_append, List.cons_append, scanCode]
    simp [bump, Option.map_map, Function.comp_def]
  | cons c a ih =>
    intro prev level t line h
    rw [List.cons_append, infix_cons_iff] at h
    simp only [List.cons_append, List.head?_cons, Option.some.injEq, not_or] at h
    simp only [List.cons_append, scanCode]
    rw [if_neg (fun hc => h.1 ⟨hc.2, hc.1⟩), ih c level t _ h.2, bump_count]
    simp [Option.map_map, Function.comp_def]

theorem scanCode_comment_open {s : List Nat} : ∀ (prev level line : Nat), ¬ [42, 47] <:+: prev :: s →
    scanCode (.comment prev) level s line = none := by
  induction s with
  | nil => intros; rfl
  | cons c s ih =>
    intro prev level line h
    rw [infix_cons_iff] at h
    simp only [List.head?_cons, Option.some.injEq, not_or] at h
    rw [scanCode, if_neg (fun hc => h.1 ⟨hc.2, hc.1⟩), ih c level _ h.2]
    rfl

theorem scanCode_line {b : List Nat} : ∀ (level : Nat) (t : List Nat) (line : Nat), 10 ∉ b →
    scanCode .line level (b ++ 10 :: t) line = (scanCode .code level t (line + (b ++ [10]).count 10)).map fun r => (b ++ 10 :: r.1, r.2) := by
  induction b with
  | nil => intro level t line _; simp [scanCode]
  | cons c b ih =>
    intro level t line h
    rw [List.mem_cons, not_or] at h
    rw [List.cons_append, scanCode, if_neg (fun hc => h.1 hc.symm), ih level t line h.2, Option.map_map]
    have : (c :: b ++ [10]).count 10 = (b ++ [10]).count 10 := by
      rw [List.cons_append, List.count_cons, if_neg (by simpa using fun hc => h.1 hc.symm)]
      rfl
    rw [this]
    rfl

theorem scanCode_line_open {b : List Nat} : ∀ (level line : Nat), 10 ∉ b → scanCode .line level b line = none := by
  induction b with
  | nil => intros; rfl
  | cons c b ih =>
    intro level line h
    rw [List.mem_cons, not_or] at h
    rw [scanCode, if_neg (fun hc => h.1 hc.symm), ih level line h.2]
    rfl

theorem scanCode_literal {q : Nat} (hq : q = 34 ∨ q = 39) {b : List Nat} (h : LiteralText q b) : ∀ (p level : Nat) (t : List Nat) (line : Nat), p ≠ 92 →
    scanCode (.literal q p) level (b ++ q :: t) line =
      (scanCode .code level t (line + (b ++ [q]).count 10)).map fun r => (b ++ q :: r.1, r.2) := by
  have hqn : [q].count 10 = 0 := by rcases hq with rfl | rfl <;> decide
  induction h with
  | nil =>
    intro p level t line hp
    rw [List.nil_append, scanCode, if_pos ⟨rfl, hp⟩]
    simp only [List.nil_append, hqn, Nat.add_zero]
  | @char c b hc hb ih =>
    intro p level t line hp
    rw [List.cons_append, scanCode, if_neg (fun h => hc.1 h.1), if_neg hp, ih c level t _ hc.2, bump_count, Option.map_map]
    rfl
  | @escape c b hb ih =>
    intro p level t line hp
    rw [List.cons_append, scanCode, if_neg (fun h => by rcases hq with rfl | rfl <;> omega), if_neg hp]
    rw [List.cons_append, scanCode, if_neg (fun h => h.2 rfl), if_pos rfl, ih 0 level t _ (by decide), bump_count]
    simp [Option.map_map, Function.comp_def, bump, List.count_cons]

/-- a literal is ended or not -/
theorem literal_cases (q : Nat) (hq : q = 34 ∨ q = 39) (n : Nat) : ∀ s : List Nat, s.length ≤ n →
    (∃ b t, s = b ++ q :: t ∧ LiteralText q b) ∨
    (∀ a t, s = a ++ q :: t → ¬ LiteralText q a) ∧ ∀ p level line, p ≠ 92 → scanCode (.literal q p) level s line = none := by
  induction n with
  | zero =>
    intro s hs
    have : s = [] := List.length_eq_zero_iff.mp (by omega)
    subst this
    exact .inr ⟨by simp, fun _ _ _ _ => rfl⟩
  | succ n ih =>
    intro s hs
    cases s with
    | nil => exact .inr ⟨by simp, fun _ _ _ _ => rfl⟩
    | cons c s =>
      by_cases hcq : c = q
      · subst hcq; exact .inl ⟨[], s, rfl, .nil⟩
      · by_cases hc : c = 92
        · subst hc
          cases s with
          | nil =>
            refine .inr ⟨?_, ?_⟩
            · intro a t ht hl
              cases a with
              | nil => simp at ht; omega
              | cons x a => simp at ht
            · intro p level line hp
              rw [scanCode, if_neg (fun h => hcq h.1)]
              rfl
          | cons d s =>
            rcases ih s (by simp at hs; omega) with ⟨b, t, rfl, hb⟩ | ⟨h1, h2⟩
            · exact .inl ⟨92 :: d :: b, t, rfl, .escape d hb⟩
            · refine .inr ⟨?_, ?_⟩
              · intro a t ht hl
                cases hl with
                | nil => simp at ht; omega
                | char hc' hb => simp only [List.cons_append, List.cons.injEq] at ht; exact hc'.2 ht.1.symm
                | escape c hb =>
                  simp only [List.cons_append, List.cons.injEq] at ht
                  exact h1 _ t ht.2.2 hb
              · intro p level line hp
                rw [scanCode, if_neg (fun h => hcq h.1), if_neg hp, scanCode, if_neg (fun h => h.2 rfl), if_pos rfl, h2 0 _ _ (by decide)]
                rfl
        · rcases ih s (by simp at hs; omega) with ⟨b, t, rfl, hb⟩ | ⟨h1, h2⟩
          · exact .inl ⟨c :: b, t, rfl, .char ⟨hcq, hc⟩ hb⟩
          · refine .inr ⟨?_, ?_⟩
            · intro a t ht hl
              cases hl with
              | nil => simp at ht; omega
              | char hc' hb => simp only [List.cons_append, List.cons.injEq] at ht; exact h1 _ t ht.2 hb
              | escape c' hb => simp only [List.cons_append, List.cons.injEq] at ht; exact hc ht.1
            · intro p level line hp
              rw [scanCode, if_neg (fun h => hcq h.1), if_neg hp, h2 c _ _ hc]
              rfl

theorem noInfix {b : List Nat} (h : CommentRest b) : ∃ a, b = a ++ [42, 47] ∧ ¬ [42, 47] <:+: 0 :: (a ++ [42]) := by
  obtain ⟨a, rfl, h⟩ := h
  refine ⟨a, rfl, ?_⟩
  rw [infix_cons_iff]
  simpa using h

/-- the scanner passes pieces of code -/
theorem scanCode_to {z e : List Nat} (h : CodeTo z e) : ∃ p, z = p ++ e ∧ ∀ level line, 1 ≤ level →
    scanCode .code level z line = (scanCode .code level e (line + p.count 10)).map fun r => (p ++ r.1, r.2) := by
  induction h with
  | nil e => exact ⟨[], rfl, by simp⟩
  | @char c t e hc hs ht ih =>
    obtain ⟨p, rfl, ih⟩ := ih
    refine ⟨c :: p, rfl, fun level line hl => ?_⟩
    have key : scanCode .code level (c :: (p ++ e)) line = (scanCode .code level (p ++ e) (bump c line)).map fun r => (c :: r.1, r.2) := by
      rw [scanCode_cons, if_neg (fun h => hc.2.1 h.1)]
      by_cases h10 : c = 10
      · rw [if_pos h10]; simp [bump, h10]
      · rw [if_neg h10, if_neg hc.1, if_neg hc.2.1, if_neg (by omega), bump, if_neg h10]
        split
        · rename_i heq; rw [heq]
        · rename_i d u heq
          rw [heq] at hs
          rw [if_neg, if_neg, heq]
          · rintro ⟨h1, rfl⟩; exact (hs h1).1 rfl
          · rintro ⟨h1, rfl⟩; exact (hs h1).2 rfl
    rw [key, ih level _ hl, bump_count, Option.map_map]
    rfl
  | @comment b t e hb ht ih =>
    obtain ⟨p, rfl, ih⟩ := ih
    obtain ⟨a, rfl, ha⟩ := noInfix hb
    refine ⟨47 :: 42 :: (a ++ [42, 47] ++ p), by simp, fun level line hl => ?_⟩
    rw [scanCode_cons]
    simp only [Nat.reduceEqDiff, false_and, if_false, false_or, and_self, if_true]
    rw [scanCode_comment 0 level _ line ha, ih level _ hl, Option.map_map, Option.map_map]
    have : line + (a ++ [42, 47]).count 10 + p.count 10 = line + (47 :: 42 :: (a ++ [42, 47] ++ p)).count 10 := by
      simp [List.count_append, List.count_cons]
      omega
    rw [this]
    congr 1
    funext r
    simp
  | @line b t e hb ht ih =>
    obtain ⟨p, rfl, ih⟩ := ih
    refine ⟨47 :: 47 :: (b ++ 10 :: p), by simp, fun level line hl => ?_⟩
    rw [scanCode_cons]
    simp only [Nat.reduceEqDiff, false_and, and_false, if_false, false_or, and_self, if_true]
    rw [scanCode_line level _ line hb, ih level _ hl, Option.map_map, Option.map_map]
    have : line + (b ++ [10]).count 10 + p.count 10 = line + (47 :: 47 :: (b ++ 10 :: p)).count 10 := by
      simp [List.count_append, List.count_cons]
      omega
    rw [this]
    congr 1
    funext r
    simp
  | @literal q b t e hq hb ht ih =>
    obtain ⟨p, rfl, ih⟩ := ih
    refine ⟨q :: (b ++ q :: p), by simp, fun level line hl => ?_⟩
    have hq' : q ≠ 125 ∧ q ≠ 10 ∧ q ≠ 123 := by omega
    rw [scanCode_cons, if_neg (fun h => hq'.1 h.1), if_neg hq'.2.1, if_neg hq'.2.2, if_neg hq'.1, if_pos hq.symm]
    rw [scanCode_literal hq hb 0 level _ line (by decide), ih level _ hl, Option.map_map, Option.map_map]
    have : line + (b ++ [q]).count 10 + p.count 10 = line + (q :: (b ++ q :: p)).count 10 := by
      simp only [List.count_append, List.count_cons, List.count_nil, beq_iff_eq, if_neg hq'.2.1]
      omega
    rw [this]
    congr 1
    funext r
    simp
  | @block t u e hb ht ih1 ih2 =>
    obtain ⟨p1, rfl, ih1⟩ := ih1
    obtain ⟨p2, rfl, ih2⟩ := ih2
    refine ⟨123 :: (p1 ++ 125 :: p2), by simp, fun level line hl => ?_⟩
    rw [scanCode_cons]
    simp only [Nat.reduceEqDiff, false_and, if_false, if_true]
    rw [ih1 (level + 1) line (by omega), scanCode_cons, if_neg (by omega)]
    simp only [Nat.reduceEqDiff, if_false, if_true, Nat.add_sub_cancel]
    rw [ih2 level _ hl, Option.map_map, Option.map_map, Option.map_map]
    have : line + p1.count 10 + p2.count 10 = line + (123 :: (p1 ++ 125 :: p2)).count 10 := by
      simp [List.count_append, List.count_cons]
      omega
    rw [this]
    congr 1
    funext r
    simp

theorem scanCode_closed {b u : List Nat} (h : CodeTo (b ++ 125 :: u) (125 :: u)) (line : Nat) :
    scanCode .code 1 (b ++ 125 :: u) line = some (b, 125 :: u, line + b.count 10) := by
  obtain ⟨p, h1, h2⟩ := scanCode_to h
  obtain rfl := List.append_cancel_right h1
  rw [h2 1 line (by omega), scanCode_cons]
  simp

theorem scanCode_open {z : List Nat} (h : OpenCode z) : ∀ level line : Nat, 1 ≤ level → scanCode .code level z line = some (z, [], line + z.count 10) := by
  induction h with
  | text h =>
    intro level line hl
    obtain ⟨p, h1, h2⟩ := scanCode_to h
    rw [List.append_nil] at h1
    subst h1
    rw [h2 level line hl, scanCode]
    simp
  | @block z t h ht ih =>
    intro level line hl
    obtain ⟨p, rfl, h2⟩ := scanCode_to h
    rw [h2 level line hl, scanCode_cons]
    simp only [Nat.reduceEqDiff, false_and, if_false, if_true]
    rw [ih (level + 1) _ (by omega)]
    simp [List.count_append, List.count_cons]
    omega

theorem scanCode_stuck {z : List Nat} (h : StuckCode z) : ∀ level line : Nat, 1 ≤ level → scanCode .code level z line = none := by
  induction h with
  | @comment z b h hb =>
    intro level line hl
    obtain ⟨p, rfl, h2⟩ := scanCode_to h
    rw [h2 level line hl, scanCode_cons]
    simp only [Nat.reduceEqDiff, false_and, if_false, false_or, and_self, if_true]
    rw [scanCode_comment_open 0 level _ (by rw [infix_cons_iff]; simpa using hb)]
    rfl
  | @line z b h hb =>
    intro level line hl
    obtain ⟨p, rfl, h2⟩ := scanCode_to h
    rw [h2 level line hl, scanCode_cons]
    simp only [Nat.reduceEqDiff, false_and, and_false, if_false, false_or, and_self, if_true]
    rw [scanCode_line_open level _ hb]
    rfl
  | @literal q z b h hq hb =>
    intro level line hl
    obtain ⟨p, rfl, h2⟩ := scanCode_to h
    have hq' : q ≠ 125 ∧ q ≠ 10 ∧ q ≠ 123 := by omega
    rw [h2 level line hl, scanCode_cons, if_neg (fun h => hq'.1 h.1), if_neg hq'.2.1, if_neg hq'.2.2, if_neg hq'.1, if_pos hq.symm]
    rcases literal_cases q hq _ b le_rfl with ⟨a, t, rfl, ha⟩ | ⟨_, h3⟩
    · exact absurd ha (hb a t rfl)
    · rw [h3 0 _ _ (by decide)]
      rfl
  | @block z t h ht ih =>
    intro level line hl
    obtain ⟨p, rfl, h2⟩ := scanCode_to h
    rw [h2 level line hl, scanCode_cons]
    simp only [Nat.reduceEqDiff, false_and, if_false, if_true]
    rw [ih (level + 1) _ (by omega)]
    rfl

/-- every text begins with code and a closing brace, or is code that is not ended -/
theorem code_cases (n : Nat) : ∀ s : List Nat, s.length ≤ n → (∃ u, CodeTo s (125 :: u)) ∨ OpenCode s ∨ StuckCode s := by
  induction n with
  | zero =>
    intro s hs
    have : s = [] := List.length_eq_zero_iff.mp (by omega)
    subst this
    exact .inr (.inl (.text (.nil _)))
  | succ n ih =>
    have step : ∀ s t : List Nat, t.length ≤ n → (∀ e, CodeTo t e → CodeTo s e) → (∃ u, CodeTo s (125 :: u)) ∨ OpenCode s ∨ StuckCode s := by
      intro s t ht hst
      rcases ih t ht with ⟨u, h⟩ | h | h
      · exact .inl ⟨u, hst _ h⟩
      · refine .inr (.inl ?_)
        cases h with
        | text h => exact .text (hst _ h)
        | block h h' => exact .block (hst _ h) h'
      · refine .inr (.inr ?_)
        cases h with
        | comment h h' => exact .comment (hst _ h) h'
        | line h h' => exact .line (hst _ h) h'
        | literal h h' h'' => exact .literal (hst _ h) h' h''
        | block h h' => exact .block (hst _ h) h'
    intro s hs
    cases s with
    | nil => exact .inr (.inl (.text (.nil _)))
    | cons c s =>
      have hsn : s.length ≤ n := by simp at hs; omega
      by_cases h1 : c = 125
      · subst h1; exact .inl ⟨s, .nil _⟩
      by_cases h2 : c = 123
      · subst h2
        rcases ih s hsn with ⟨u, h⟩ | h | h
        · obtain ⟨p, hp, _⟩ := scanCode_to h
          exact step _ u (by rw [hp] at hsn; simp at hsn; omega) fun e he => .block h he
        · exact .inr (.inl (.block (.nil _) h))
        · exact .inr (.inr (.block (.nil _) h))
      by_cases h3 : c = 34 ∨ c = 39
      · rcases literal_cases c h3 _ s le_rfl with ⟨a, t, rfl, ha⟩ | ⟨h4, _⟩
        · exact step _ t (by simp at hsn; omega) fun e he => .literal h3 ha he
        · exact .inr (.inr (.literal (.nil _) h3 h4))
      by_cases h4 : c = 47 ∧ (s.head? = some 47 ∨ s.head? = some 42)
      · obtain ⟨rfl, h4⟩ := h4
        cases s with
        | nil => simp at h4
        | cons d s =>
          simp only [List.head?_cons, Option.some.injEq] at h4
          simp only [List.length_cons] at hsn
          rcases h4 with rfl | rfl
          · by_cases h5 : 10 ∈ s
            · obtain ⟨a, t, rfl, ha⟩ := split_at h5
              exact step _ t (by simp at hsn; omega) fun e he => .line ha he
            · exact .inr (.inr (.line (.nil _) h5))
          · rcases comment_cases s with ⟨b, t, rfl, hb⟩ | hb
            · exact step _ t (by simp at hsn; omega) fun e he => .comment hb he
            · exact .inr (.inr (.comment (.nil _) hb))
      · exact step _ s hsn fun e he => .char ⟨h2, h1, fun h => h3 (.inl h), fun h => h3 (.inr h)⟩
          (fun h => ⟨fun h' => h4 ⟨h, .inl h'⟩, fun h' => h4 ⟨h, .inr h'⟩⟩) he

/-! ### words -/

theorem scanSpace_iff (c : Nat) : isSpace c = true ↔ blank c := by
  unfold isSpace blank; simp
theorem scanAlpha_iff (c : Nat) : isAlpha c = true ↔ letter c := by
  unfold isAlpha letter; simp
theorem isAlnum_iff (c : Nat) : isAlnum c = true ↔ letter c ∨ digit c := by
  unfold isAlnum digit; rw [Bool.or_eq_true, scanAlpha_iff]; simp
theorem scanName_iff (c : Nat) : nameChar c = true ↔ inName c := by
  unfold nameChar inName; rw [Bool.or_eq_true, isAlnum_iff, or_assoc]; simp

theorem not_nl_of_inName {c : Nat} (h : inName c) : c ≠ 10 := by
  unfold inName letter digit at h; omega

theorem count_names {b : List Nat} (h : ∀ d ∈ b, inName d) : b.count 10 = 0 :=
  List.count_eq_zero.mpr fun h' => not_nl_of_inName (h _ h') rfl

theorem span_name {b rest : List Nat} (hb : ∀ d ∈ b, inName d) (hr : ∀ d, rest.head? = some d → ¬ inName d) :
    (b ++ rest).takeWhile nameChar = b ∧ (b ++ rest).dropWhile nameChar = rest := by
  induction b with
  | nil =>
    cases rest with
    | nil => exact ⟨rfl, rfl⟩
    | cons d rest =>
      have : nameChar d = false := by
        rw [Bool.eq_false_iff, ne_eq, scanName_iff]; exact hr d rfl
      simp [this]
  | cons c b ih =>
    have := ih fun d hd => hb d (List.mem_cons_of_mem _ hd)
    have hc : nameChar c = true := (scanName_iff c).mpr (hb c (by simp))
    simp only [List.cons_append, List.takeWhile_cons, hc, if_true, List.dropWhile_cons, this]
    trivial

theorem span_ne {x : Nat} {b rest : List Nat} (hb : x ∉ b) (hr : rest.head? = some x ∨ rest = []) :
    (b ++ rest).takeWhile (· != x) = b ∧ (b ++ rest).dropWhile (· != x) = rest := by
  induction b with
  | nil =>
    rcases hr with hr | rfl
    · cases rest with
      | nil => cases hr
      | cons d rest =>
        simp only [List.head?_cons, Option.some.injEq] at hr
        simp [hr]
    · exact ⟨rfl, rfl⟩
  | cons c b ih =>
    rw [List.mem_cons, not_or] at hb
    have := ih hb.2
    have hc : (c != x) = true := by simpa using Ne.symm hb.1
    simp only [List.cons_append, List.takeWhile_cons, hc, if_true, List.dropWhile_cons, this]
    trivial

theorem scanGo_skip {w rest : List Nat} (h : Skips w rest) (f line : Nat) :
    scanGo (f + 1) (w ++ rest) line = scanGo f rest (line + w.count 10) := by
  cases h with
  | @blank c h =>
    rw [List.singleton_append, scanGo, if_pos ((scanSpace_iff c).mpr h), ← bump_count]
    rfl
  | @line b _ h hr =>
    have h47 : ¬ isSpace 47 = true := by decide
    rw [List.cons_append, scanGo, if_neg h47, if_pos ⟨rfl, rfl⟩]
    simp only [List.cons_append, List.drop_succ_cons, List.drop_zero]
    rw [(span_ne h hr).2]
    congr 1
    simp [List.count_cons, List.count_eq_zero.mpr h]
  | @comment b h =>
    have h47 : ¬ isSpace 47 = true := by decide
    obtain ⟨a, rfl, h⟩ := h
    rw [List.cons_append, scanGo, if_neg h47, if_neg (by simp), if_pos ⟨rfl, rfl⟩]
    have key : (if (42 :: (a ++ [42, 47] ++ rest))[1]? = some 47 then scanComment 47 ((42 :: (a ++ [42, 47] ++ rest)).drop 2) line
        else scanComment 42 ((42 :: (a ++ [42, 47] ++ rest)).drop 1) line) = (rest, line + (a ++ [42, 47]).count 10) := by
      split_ifs with h1
      · cases a with
        | nil => simp at h1
        | cons x a =>
          simp only [List.cons_append, List.getElem?_cons_succ, List.getElem?_cons_zero, Option.some.injEq] at h1
          subst h1
          simp only [List.cons_append, List.drop_succ_cons, List.drop_zero]
          rw [scanComment_end 47 rest line (by simpa using h)]
          simp [List.count_cons]
      · simp only [List.drop_succ_cons, List.drop_zero]
        refine scanComment_end 42 rest line ?_
        rw [infix_cons_iff]
        rintro (⟨_, h2⟩ | h2)
        · apply h1
          cases a with
          | nil => simp at h2
          | cons x a => simpa using h2
        · exact h h2
    simp only [List.cons_append] at key ⊢
    rw [key]
    simp [List.count_cons]
  | @openComment b h =>
    have h47 : ¬ isSpace 47 = true := by decide
    rw [List.append_nil, scanGo, if_neg h47, if_neg (by simp), if_pos ⟨rfl, rfl⟩]
    have key : (if (42 :: b)[1]? = some 47 then scanComment 47 ((42 :: b).drop 2) line
        else scanComment 42 ((42 :: b).drop 1) line) = ([], line + b.count 10) := by
      split_ifs with h1
      · cases b with
        | nil => simp at h1
        | cons x a =>
          simp only [List.getElem?_cons_succ, List.getElem?_cons_zero, Option.some.injEq] at h1
          subst h1
          simp only [List.drop_succ_cons, List.drop_zero]
          rw [scanComment_open 47 line h]
          simp [List.count_cons]
      · simp only [List.drop_succ_cons, List.drop_zero]
        refine scanComment_open 42 line ?_
        rw [infix_cons_iff]
        rintro (⟨_, h2⟩ | h2)
        · apply h1
          cases b with
          | nil => simp at h2
          | cons x a => simpa using h2
        · exact h h2
    simp only at key ⊢
    rw [key]
    simp [List.count_cons]

theorem scanGo_word {w x rest : List Nat} (h : IsWord w x rest) (f line : Nat) :
    scanGo (f + 1) (w ++ rest) line = (scanGo f rest (line + w.count 10)).map (.tok line x :: ·) := by
  cases h with
  | @string b h =>
    have h34 : ¬ isSpace 34 = true := by decide
    rw [List.cons_append, scanGo, if_neg h34, if_neg (by simp), if_neg (by simp), if_pos rfl, scanString_spec]
    have := span_ne (rest := 34 :: rest) h (.inl rfl)
    simp only [List.append_assoc, List.singleton_append, this]
    simp [List.count_cons, List.count_append]
  | @code b _ h =>
    have h34 : ¬ isSpace 123 = true := by decide
    rw [List.cons_append, scanGo, if_neg h34, if_neg (by simp), if_neg (by simp), if_neg (by simp), if_pos rfl]
    simp only [List.append_assoc, List.singleton_append]
    rw [scanCode_closed h]
    simp [List.count_cons, List.count_append]
  | @name c b _ hc hb hr =>
    have h1 : ¬ isSpace c = true := by rw [scanSpace_iff]; unfold blank letter digit at *; omega
    have h2 : c ≠ 47 ∧ c ≠ 34 ∧ c ≠ 123 ∧ c ≠ 10 := by unfold letter digit at hc; omega
    rw [List.cons_append, scanGo, if_neg h1, if_neg (fun h => h2.1 h.1), if_neg (fun h => h2.1 h.1), if_neg h2.2.1, if_neg h2.2.2.1,
      if_pos ((isAlnum_iff c).mpr hc), (span_name hb hr).1, (span_name hb hr).2]
    rw [List.count_cons, count_names hb]
    simp [h2.2.2.2]
  | arrow => simp [scanGo, isSpace, isAlnum, isAlpha, List.count_cons]
  | @alternative c d b _ hc hd hb hr =>
    have h1 : ¬ isSpace c = true := by rw [scanSpace_iff]; unfold blank; omega
    have h2 : d ≠ 47 ∧ d ≠ 42 ∧ d ≠ 10 := by unfold letter at hd; omega
    have h3 : c ≠ 34 ∧ c ≠ 123 ∧ c ≠ 58 ∧ c ≠ 10 := by omega
    have h4 : ¬ isAlnum c = true := by rw [isAlnum_iff]; unfold letter digit; omega
    rw [List.cons_append, scanGo, if_neg h1, if_neg (by simp; omega), if_neg (by simp; omega), if_neg h3.1, if_neg h3.2.1, if_neg h4,
      if_neg (fun h => h3.2.2.1 h.1), if_pos ⟨hc, by simpa using (scanAlpha_iff d).mpr hd⟩]
    simp only [List.cons_append, List.drop_succ_cons, List.drop_zero, (span_name hb hr).1, (span_name hb hr).2, List.take_succ_cons, List.take_zero]
    rw [List.count_cons, List.count_cons, count_names hb]
    simp [h3.2.2.2, h2.2.2]
  | @char c _ hc ha hb hs =>
    have h1 : ¬ isSpace c = true := by rw [scanSpace_iff]; exact hc.1
    have h4 : ¬ isAlnum c = true := by rw [isAlnum_iff]; tauto
    have h10 : c ≠ 10 := by rintro rfl; exact hc.1 (.inr ⟨by omega, by omega⟩)
    rw [List.singleton_append, scanGo, if_neg h1, if_neg (fun h => (hs h.1).1 h.2), if_neg (fun h => (hs h.1).2 h.2), if_neg hc.2.2.2.1,
      if_neg hc.2.2.2.2, if_neg h4, if_neg (fun h => ha h.1 h.2), if_neg]
    · simp [List.count_cons, h10]
    · rintro ⟨h5, h6⟩
      cases rest with
      | nil => simp at h6
      | cons d rest => exact hb h5 d rfl ((scanAlpha_iff d).mp (by simpa using h6))

theorem skips_pos {w rest : List Nat} (h : Skips w rest) : 1 ≤ w.length := by cases h <;> simp

theorem isWord_pos {w x rest : List Nat} (h : IsWord w x rest) : 1 ≤ w.length := by cases h <;> simp

/-- what the scanner has done when it gets to the end of some words -/
theorem scanGo_reads {line : Nat} {z e : List Nat} {ws : List (Nat × List Nat)} (h : Reads line z ws e) : ∀ f, z.length < f →
    ∃ f' p, z = p ++ e ∧ e.length < f' ∧ scanGo f z line = (scanGo f' e (line + p.count 10)).map ((ws.map fun w => ScanEv.tok w.1 w.2) ++ ·) := by
  induction h with
  | nil line z => intro f hf; exact ⟨f, [], rfl, hf, by simp⟩
  | @skip line w rest e ws hw h ih =>
    intro f hf
    have := skips_pos hw
    rw [List.length_append] at hf
    obtain ⟨f, rfl⟩ : ∃ f', f = f' + 1 := ⟨f - 1, by omega⟩
    obtain ⟨f', p, h1, h2, h3⟩ := ih f (by omega)
    refine ⟨f', w ++ p, by rw [h1, List.append_assoc], h2, ?_⟩
    rw [scanGo_skip hw, h3, List.count_append, Nat.add_assoc]
  | @word line w x rest e ws hw h ih =>
    intro f hf
    have := isWord_pos hw
    rw [List.length_append] at hf
    obtain ⟨f, rfl⟩ : ∃ f', f = f' + 1 := ⟨f - 1, by omega⟩
    obtain ⟨f', p, h1, h2, h3⟩ := ih f (by omega)
    refine ⟨f', w ++ p, by rw [h1, List.append_assoc], h2, ?_⟩
    rw [scanGo_word hw, h3, List.count_append, Nat.add_assoc, Option.map_map]
    rfl

theorem dropWhile_head_not {p : Nat → Bool} (s : List Nat) (d : Nat) (h : (s.dropWhile p).head? = some d) : p d = false := by
  induction s with
  | nil => cases h
  | cons c s ih =>
    rw [List.dropWhile_cons] at h
    split_ifs at h with hc
    · exact ih h
    · simp only [List.head?_cons, Option.some.injEq] at h
      subst h
      simpa using hc

theorem scanTake_all {p : Nat → Bool} (s : List Nat) (d : Nat) (h : d ∈ s.takeWhile p) : p d = true := by
  induction s with
  | nil => cases h
  | cons c s ih =>
    rw [List.takeWhile_cons] at h
    split_ifs at h with hc
    · rcases List.mem_cons.mp h with rfl | h
      · exact hc
      · exact ih h
    · cases h

theorem name_split (s : List Nat) : ∃ b rest, s = b ++ rest ∧ (∀ d ∈ b, inName d) ∧ ∀ d, rest.head? = some d → ¬ inName d := by
  refine ⟨s.takeWhile nameChar, s.dropWhile nameChar, (List.takeWhile_append_dropWhile).symm, ?_, ?_⟩
  · intro d hd
    exact (scanName_iff d).mp (scanTake_all s d hd)
  · intro d hd h
    rw [← scanName_iff, dropWhile_head_not s d hd] at h
    cases h

/-- every text is divided into words, up to its end or up to a string or code that is not ended -/
theorem words_cases (n : Nat) : ∀ (z : List Nat) (line : Nat), z.length ≤ n → ∃ ws e, Reads line z ws e ∧
    (e = [] ∨ (∃ b, e = 34 :: b ∧ 34 ∉ b) ∨ ∃ b, e = 123 :: b ∧ (OpenCode b ∨ StuckCode b)) := by
  induction n with
  | zero =>
    intro z line hz
    have : z = [] := List.length_eq_zero_iff.mp (by omega)
    subst this
    exact ⟨[], [], .nil _ _, .inl rfl⟩
  | succ n ih =>
    have hskip : ∀ (w rest : List Nat) (line : Nat), (w ++ rest).length ≤ n + 1 → Skips w rest → ∃ ws e, Reads line (w ++ rest) ws e ∧
        (e = [] ∨ (∃ b, e = 34 :: b ∧ 34 ∉ b) ∨ ∃ b, e = 123 :: b ∧ (OpenCode b ∨ StuckCode b)) := by
      intro w rest line hl hw
      have := skips_pos hw
      rw [List.length_append] at hl
      obtain ⟨ws, e, h1, h2⟩ := ih rest (line + w.count 10) (by omega)
      exact ⟨ws, e, .skip hw h1, h2⟩
    have hword : ∀ (w x rest : List Nat) (line : Nat), (w ++ rest).length ≤ n + 1 → IsWord w x rest → ∃ ws e, Reads line (w ++ rest) ws e ∧
        (e = [] ∨ (∃ b, e = 34 :: b ∧ 34 ∉ b) ∨ ∃ b, e = 123 :: b ∧ (OpenCode b ∨ StuckCode b)) := by
      intro w x rest line hl hw
      have := isWord_pos hw
      rw [List.length_append] at hl
      obtain ⟨ws, e, h1, h2⟩ := ih rest (line + w.count 10) (by omega)
      exact ⟨(line, x) :: ws, e, .word hw h1, h2⟩
    intro z line hz
    cases z with
    | nil => exact ⟨[], [], .nil _ _, .inl rfl⟩
    | cons c t =>
      by_cases h1 : blank c
      · exact hskip [c] t line (by simpa using hz) (.blank h1 t)
      by_cases h2 : c = 47 ∧ t.head? = some 47
      · obtain ⟨rfl, h2⟩ := h2
        cases t with
        | nil => cases h2
        | cons d t =>
          simp only [List.head?_cons, Option.some.injEq] at h2
          subst h2
          by_cases h3 : 10 ∈ t
          · obtain ⟨a, u, rfl, ha⟩ := split_at h3
            exact hskip (47 :: 47 :: a) (10 :: u) line (by simpa using hz) (.line ha (.inl rfl))
          · have := hskip (47 :: 47 :: t) [] line (by simpa using hz) (.line h3 (.inr rfl))
            simpa using this
      by_cases h3 : c = 47 ∧ t.head? = some 42
      · obtain ⟨rfl, h3⟩ := h3
        cases t with
        | nil => cases h3
        | cons d t =>
          simp only [List.head?_cons, Option.some.injEq] at h3
          subst h3
          rcases comment_cases t with ⟨b, u, rfl, hb⟩ | hb
          · exact hskip (47 :: 42 :: b) u line (by simpa using hz) (.comment hb u)
          · have := hskip (47 :: 42 :: t) [] line (by simpa using hz) (.openComment hb)
            simpa using this
      by_cases h4 : c = 34
      · subst h4
        by_cases h5 : 34 ∈ t
        · obtain ⟨a, u, rfl, ha⟩ := split_at h5
          have := hword (34 :: (a ++ [34])) _ u line (by simpa using hz) (.string ha u)
          simpa using this
        · exact ⟨[], _, .nil _ _, .inr (.inl ⟨t, rfl, h5⟩)⟩
      by_cases h5 : c = 123
      · subst h5
        rcases code_cases _ t le_rfl with ⟨u, h⟩ | h
        · obtain ⟨p, rfl, _⟩ := scanCode_to h
          have := hword (123 :: (p ++ [125])) _ u line (by simpa using hz) (.code h)
          simpa using this
        · exact ⟨[], _, .nil _ _, .inr (.inr ⟨t, rfl, h⟩)⟩
      by_cases h6 : letter c ∨ digit c
      · obtain ⟨b, u, rfl, hb, hr⟩ := name_split t
        exact hword (c :: b) _ u line (by simpa using hz) (.name h6 hb hr)
      by_cases h7 : c = 58 ∧ t.take 2 = [58, 61]
      · obtain ⟨rfl, h7⟩ := h7
        obtain ⟨u, rfl⟩ : ∃ u, t = [58, 61] ++ u := ⟨t.drop 2, by rw [← h7, List.take_append_drop]⟩
        exact hword [58, 58, 61] _ u line (by simpa using hz) (.arrow _)
      by_cases h8 : (c = 47 ∨ c = 124) ∧ ∃ d, t.head? = some d ∧ letter d
      · obtain ⟨h8, d, h9, h10⟩ := h8
        cases t with
        | nil => cases h9
        | cons d' t =>
          simp only [List.head?_cons, Option.some.injEq] at h9
          subst h9
          obtain ⟨b, u, rfl, hb, hr⟩ := name_split t
          exact hword (c :: d' :: b) _ u line (by simpa using hz) (.alternative h8 h10 hb hr)
      · refine hword [c] _ t line (by simpa using hz) (.char ⟨h1, fun h => h6 (.inl h), fun h => h6 (.inr h), h4, h5⟩ (fun a b => h7 ⟨a, b⟩) ?_ ?_)
        · intro ha d hd hl
          exact h8 ⟨ha, d, hd, hl⟩
        · intro ha
          exact ⟨fun hb => h2 ⟨ha, hb⟩, fun hb => h3 ⟨ha, hb⟩⟩

theorem scanGo_openString {b : List Nat} (h : 34 ∉ b) (f line : Nat) (hf : 0 < f) :
    scanGo (f + 1) (34 :: b) line = some [.noString, .tok line (34 :: b)] := by
  have h34 : ¬ isSpace 34 = true := by decide
  obtain ⟨f, rfl⟩ : ∃ f', f = f' + 1 := ⟨f - 1, by omega⟩
  rw [scanGo, if_neg h34, if_neg (by simp), if_neg (by simp), if_pos rfl, scanString_spec]
  have := span_ne (rest := []) h (.inr rfl)
  rw [List.append_nil] at this
  simp [this, scanGo]

theorem scanGo_openCode {b : List Nat} (h : OpenCode b) (f line : Nat) (hf : 0 < f) :
    scanGo (f + 1) (123 :: b) line = some [.noCode line, .tok line (123 :: b)] := by
  have h34 : ¬ isSpace 123 = true := by decide
  obtain ⟨f, rfl⟩ : ∃ f', f = f' + 1 := ⟨f - 1, by omega⟩
  rw [scanGo, if_neg h34, if_neg (by simp), if_neg (by simp), if_neg (by simp), if_pos rfl, scanCode_open h 1 line le_rfl]
  simp [scanGo]

theorem scanGo_stuckCode {b : List Nat} (h : StuckCode b) (f line : Nat) : scanGo (f + 1) (123 :: b) line = none := by
  have h34 : ¬ isSpace 123 = true := by decide
  rw [scanGo, if_neg h34, if_neg (by simp), if_neg (by simp), if_neg (by simp), if_pos rfl, scanCode_stuck h 1 line le_rfl]

end Verif.Lemon
