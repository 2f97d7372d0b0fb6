import Verif.Lemon.Preproc
import Verif.Spec.LemonPreproc
import Mathlib.Tactic.Basic
import Mathlib.Data.List.Basic
/-
Helper lemmas: `eval_preprocessor_boolean` accepts exactly the texts of `Taken`.
-/
set_option autoImplicit false
namespace Verif.Lemon

theorem takeWhile_length_le {α : Type} (p : α → Bool) (l : List α) : (l.takeWhile p).length ≤ l.length :=
  (List.takeWhile_prefix p).length_le

theorem dropWhile_length_le {α : Type} (p : α → Bool) (l : List α) : (l.dropWhile p).length ≤ l.length :=
  (List.dropWhile_suffix p).length_le

theorem takeWhile_all {α : Type} (p : α → Bool) (l : List α) : ∀ d ∈ l.takeWhile p, p d = true := by
  induction l with
  | nil => intro d hd; cases hd
  | cons c l ih =>
    intro d hd
    rw [List.takeWhile_cons] at hd
    split at hd
    · rename_i h
      rcases List.mem_cons.1 hd with rfl | hd
      · exact h
      · exact ih d hd
    · cases hd

theorem evalGo_fuel : ∀ (f₁ f₂ : Nat) (m : Macros) (s : List Nat) (i : Nat) (neg res ok : Bool),
    s.length < f₁ → s.length < f₂ → evalGo f₁ m s i neg res ok = evalGo f₂ m s i neg res ok := by
  intro f₁
  induction f₁ with
  | zero => intro f₂ m s i neg res ok h; omega
  | succ f₁ ih =>
    intro f₂ m s i neg res ok h₁ h₂
    cases f₂ with
    | zero => omega
    | succ f₂ =>
      cases s with
      | nil => simp only [evalGo]
      | cons c t =>
        simp only [List.length_cons] at h₁ h₂
        have e : ∀ s' : List Nat, s'.length ≤ t.length → ∀ m i n r o,
            evalGo f₁ m s' i n r o = evalGo f₂ m s' i n r o :=
          fun s' hs m i n r o => ih f₂ m s' i n r o (by omega) (by omega)
        have e1 := e t (Nat.le_refl _)
        have e2 := e (t.drop 1) (by simp)
        have e3 : ∀ k, ∀ m i n r o, evalGo f₁ m (t.take k) i n r o = evalGo f₂ m (t.take k) i n r o :=
          fun k => e (t.take k) (by simp; omega)
        have e4 : ∀ k, ∀ m i n r o, evalGo f₁ m (t.drop k) i n r o = evalGo f₂ m (t.drop k) i n r o :=
          fun k => e (t.drop k) (by simp)
        have e5 := e (t.dropWhile nameChar) (dropWhile_length_le _ _)
        simp only [evalGo, e1, e2, e3, e4, e5]

/-- the evaluator without fuel -/
def ev (m : Macros) (s : List Nat) (i : Nat) (neg res ok : Bool) : Except Nat (Bool × Macros) :=
  evalGo (s.length + 1) m s i neg res ok

theorem evalBool_ev (m : Macros) (z : List Nat) : evalBool m z = ev m z 0 false false true := rfl

theorem ev_nil (m : Macros) (i : Nat) (neg res ok : Bool) : ev m [] i neg res ok = .ok (res, m) := rfl

theorem ev_cons (m : Macros) (c : Nat) (t : List Nat) (i : Nat) (neg res ok : Bool) :
    ev m (c :: t) i neg res ok =
    (if isSpace c then ev m t (i + 1) neg res ok
    else if c = 33 then
      if ok then ev m t (i + 1) (!neg) res ok else .error i
    else if c = 124 ∧ t.head? = some 124 then
      if ok then .error i
      else if res then .ok (true, m)
      else ev m (t.drop 1) (i + 2) neg res true
    else if c = 38 ∧ t.head? = some 38 then
      if ok then .error i
      else if !res then .ok (false, m)
      else ev m (t.drop 1) (i + 2) neg res true
    else if c = 40 then
      if ok then
        match closer 1 t with
        | none => ev m t (i + 1) false (res ^^ neg) false
        | some k =>
          match ev m (t.take k) 0 false false true with
          | .error e => .error (i + (e + 1))
          | .ok (r, m') => ev m' (t.drop (k + 1)) (i + 1 + k + 1) false (r ^^ neg) false
      else .error i
    else if isAlpha c then
      if ok then
        ev (m.lookup (c :: t.takeWhile nameChar)).2 (t.dropWhile nameChar)
          (i + (c :: t.takeWhile nameChar).length) false
          ((m.lookup (c :: t.takeWhile nameChar)).1 ^^ neg) false
      else .error i
    else .error i) := by
  have e : ∀ s' : List Nat, s'.length ≤ t.length → ∀ m i n r o,
      evalGo (t.length + 1) m s' i n r o = ev m s' i n r o :=
    fun s' hs m i n r o => evalGo_fuel _ _ m s' i n r o (by omega) (by omega)
  have e1 := e t (Nat.le_refl _)
  have e2 := e (t.drop 1) (by simp)
  have e3 : ∀ k, ∀ m i n r o, evalGo (t.length + 1) m (t.take k) i n r o = ev m (t.take k) i n r o :=
    fun k => e (t.take k) (by simp; omega)
  have e4 : ∀ k, ∀ m i n r o, evalGo (t.length + 1) m (t.drop k) i n r o = ev m (t.drop k) i n r o :=
    fun k => e (t.drop k) (by simp)
  have e5 := e (t.dropWhile nameChar) (dropWhile_length_le _ _)
  rw [ev, List.length_cons]
  simp only [evalGo, e1, e2, e3, e4, e5]
  rfl

/-! ### characters -/

theorem isSpace_iff (c : Nat) : isSpace c = true ↔ c = 32 ∨ (9 ≤ c ∧ c ≤ 13) := by
  simp [isSpace]

theorem isAlpha_iff (c : Nat) : isAlpha c = true ↔ Letter c := by
  simp [isAlpha, Letter]

theorem nameChar_iff (c : Nat) : nameChar c = true ↔ WordChar c := by
  simp [nameChar, isAlnum, WordChar, isAlpha_iff, or_assoc]

/-! ### closing parentheses -/

theorem closer_append {q : List Nat} (h : Nested q) : ∀ (n : Nat) (r : List Nat),
    closer (n + 1) (q ++ r) = (closer (n + 1) r).map (· + q.length) := by
  induction h with
  | nil => intro n r; simp
  | char c s h1 h2 _ ih =>
    intro n r
    simp only [List.cons_append, closer, if_neg h2, if_neg h1, ih, List.length_cons, Option.map_map]
    congr 1
  | pair q s _ _ ihq ihs =>
    intro n r
    rw [List.cons_append, closer, if_neg (by decide), if_pos rfl, List.append_assoc, ihq, List.cons_append,
      closer, if_pos rfl, if_neg (by omega), Nat.add_sub_cancel, ihs]
    simp only [Option.map_map, List.length_cons, List.length_append]
    congr 1
    funext x
    simp only [Function.comp]
    omega

theorem closer_close {q : List Nat} (h : Nested q) (r : List Nat) :
    closer 1 (q ++ 41 :: r) = some q.length := by
  rw [closer_append h 0]
  simp [closer]

theorem closer_some_aux : ∀ (L : Nat) (r : List Nat) (n k : Nat), r.length ≤ L → closer (n + 1) r = some k →
    ∃ q r', Nested q ∧ r = q ++ 41 :: r' ∧
      (if n = 0 then k = q.length else ∃ k', closer n r' = some k' ∧ k = q.length + 1 + k') := by
  intro L
  induction L with
  | zero =>
    intro r n k hL h
    cases r with
    | nil => simp [closer] at h
    | cons c t => simp at hL
  | succ L ih =>
    intro r n k hL h
    cases r with
    | nil => simp [closer] at h
    | cons c t =>
      simp only [List.length_cons] at hL
      rw [closer] at h
      by_cases h1 : c = 41
      · rw [if_pos h1] at h
        refine ⟨[], t, .nil, by simp [h1], ?_⟩
        by_cases h0 : n = 0
        · rw [if_pos (by omega)] at h
          rw [if_pos h0]
          simpa using h.symm
        · rw [if_neg (by omega), Nat.add_sub_cancel] at h
          rw [if_neg h0]
          rw [Option.map_eq_some_iff] at h
          obtain ⟨k', hk, rfl⟩ := h
          exact ⟨k', hk, by simp; omega⟩
      · rw [if_neg h1] at h
        by_cases h2 : c = 40
        · rw [if_pos h2, Option.map_eq_some_iff] at h
          obtain ⟨k', hk, rfl⟩ := h
          obtain ⟨q, r', hq, rfl, hc⟩ := ih t (n + 1) k' (by omega) hk
          rw [if_neg (by omega)] at hc
          obtain ⟨k'', hk'', rfl⟩ := hc
          simp only [List.length_append, List.length_cons] at hL
          obtain ⟨q2, r2, hq2, rfl, hc2⟩ := ih r' n k'' (by omega) hk''
          refine ⟨40 :: (q ++ 41 :: q2), r2, .pair q q2 hq hq2, by simp [h2], ?_⟩
          by_cases h0 : n = 0
          · rw [if_pos h0] at hc2 ⊢
            simp [hc2]; omega
          · rw [if_neg h0] at hc2 ⊢
            obtain ⟨k3, h3, rfl⟩ := hc2
            exact ⟨k3, h3, by simp; omega⟩
        · rw [if_neg h2, Option.map_eq_some_iff] at h
          obtain ⟨k', hk, rfl⟩ := h
          obtain ⟨q, r', hq, rfl, hc⟩ := ih t n k' (by omega) hk
          refine ⟨c :: q, r', .char c q h2 h1 hq, by simp, ?_⟩
          by_cases h0 : n = 0
          · rw [if_pos h0] at hc ⊢
            simp [hc]
          · rw [if_neg h0] at hc ⊢
            obtain ⟨k'', h'', rfl⟩ := hc
            exact ⟨k'', h'', by simp; omega⟩

theorem closer_some {r : List Nat} {k : Nat} (h : closer 1 r = some k) :
    ∃ q r', Nested q ∧ r = q ++ 41 :: r' ∧ k = q.length := by
  obtain ⟨q, r', hq, hr, hk⟩ := closer_some_aux r.length r 0 k (Nat.le_refl _) h
  exact ⟨q, r', hq, hr, by simpa using hk⟩

theorem closer_none {r : List Nat} : closer 1 r = none ↔ ∀ q r', Nested q → r ≠ q ++ 41 :: r' := by
  constructor
  · intro h q r' hq hr
    rw [hr, closer_close hq] at h
    cases h
  · intro h
    cases hc : closer 1 r with
    | none => rfl
    | some k =>
      obtain ⟨q, r', hq, hr, _⟩ := closer_some hc
      exact absurd hr (h q r' hq)

/-! ### skipping blanks and signs -/

theorem Flips_cons (c : Nat) (w : List Nat) : Flips (c :: w) = (decide (c = 33) ^^ Flips w) := by
  unfold Flips
  rw [List.count_cons]
  by_cases h : c = 33
  · simp only [h, beq_self_eq_true, if_true, decide_true, Bool.true_xor]
    by_cases h2 : w.count 33 % 2 = 1
    · rw [decide_eq_true h2, decide_eq_false (by omega)]; rfl
    · rw [decide_eq_false h2, decide_eq_true (by omega)]; rfl
  · simp [h]

theorem Flips_append (v w : List Nat) : Flips (v ++ w) = (Flips v ^^ Flips w) := by
  induction v with
  | nil => simp [Flips]
  | cons c v ih => rw [List.cons_append, Flips_cons, ih, Flips_cons, Bool.xor_assoc]

theorem Blank.signs {w : List Nat} (h : Blank w) : Signs w := fun c hc => Or.inr (h c hc)

theorem Blank.flips {w : List Nat} (h : Blank w) : Flips w = false := by
  unfold Flips
  rw [List.count_eq_zero_of_not_mem]
  · rfl
  · intro h33
    have := h 33 h33
    omega

theorem ev_signs (m : Macros) (res : Bool) (s : List Nat) : ∀ (w : List Nat) (i : Nat) (neg : Bool), Signs w →
    ev m (w ++ s) i neg res true = ev m s (i + w.length) (neg ^^ Flips w) res true := by
  intro w
  induction w with
  | nil => intro i neg _; simp [Flips]
  | cons c w ih =>
    intro i neg h
    rw [List.cons_append, ev_cons, Flips_cons]
    have hw : Signs w := fun d hd => h d (by simp [hd])
    rcases h c (by simp) with h1 | h1
    · subst h1
      rw [if_neg (by decide), if_pos rfl, if_pos rfl, ih _ _ hw, List.length_cons]
      congr 1
      · omega
      · cases neg <;> cases Flips w <;> rfl
    · rw [if_pos ((isSpace_iff c).2 h1), ih _ _ hw, List.length_cons]
      congr 1
      · omega
      · rw [decide_eq_false (by omega), Bool.false_xor]

theorem ev_blank (m : Macros) (res : Bool) (s : List Nat) : ∀ (w : List Nat) (i : Nat) (neg : Bool), Blank w →
    ev m (w ++ s) i neg res false = ev m s (i + w.length) neg res false := by
  intro w
  induction w with
  | nil => intro i neg _; simp
  | cons c w ih =>
    intro i neg h
    rw [List.cons_append, ev_cons, if_pos ((isSpace_iff c).2 (h c (by simp))),
      ih _ _ (fun d hd => h d (by simp [hd])), List.length_cons]
    congr 1
    omega

/-! ### the macros looked up -/

/-- mark the macros looked up -/
def Macros.mark (m : Macros) (us : List (List Nat)) : Macros := us.foldl (fun m n => (m.lookup n).2) m

theorem lookup_names (m : Macros) (n : List Nat) : (m.lookup n).2.names = m.names := by
  unfold Macros.lookup
  split <;> rfl

theorem lookup_fst (m : Macros) (n : List Nat) : (m.lookup n).1 = decide (n ∈ m.names) := by
  unfold Macros.lookup
  split
  · rename_i h
    rw [List.findIdx?_eq_none_iff] at h
    symm
    apply decide_eq_false
    intro hn
    simpa using h n hn
  · rename_i j h
    obtain ⟨hj, h1, _⟩ := List.findIdx?_eq_some_iff_getElem.1 h
    symm
    apply decide_eq_true
    rw [← eq_of_beq h1]
    exact List.getElem_mem hj

theorem mark_names (us : List (List Nat)) : ∀ m : Macros, (m.mark us).names = m.names := by
  induction us with
  | nil => intro m; rfl
  | cons n us ih => intro m; exact (ih _).trans (lookup_names m n)

theorem mark_append (m : Macros) (us us' : List (List Nat)) : m.mark (us ++ us') = (m.mark us).mark us' := by
  simp [Macros.mark]

/-! ### names -/

theorem takeWhile_name {n r : List Nat} (hn : ∀ d ∈ n, WordChar d) (hr : ∀ c ∈ r.head?, ¬ WordChar c) :
    (n ++ r).takeWhile nameChar = n ∧ (n ++ r).dropWhile nameChar = r := by
  induction n with
  | nil =>
    cases r with
    | nil => simp
    | cons c r =>
      have : nameChar c = false := by
        rw [Bool.eq_false_iff]
        intro h
        exact hr c (by simp) ((nameChar_iff c).1 h)
      simp [this]
  | cons d n ih =>
    have := ih fun e he => hn e (by simp [he])
    simp [(nameChar_iff d).2 (hn d (by simp)), this]

theorem letter_ne {c : Nat} (h : Letter c) :
    isSpace c = false ∧ c ≠ 33 ∧ c ≠ 124 ∧ c ≠ 38 ∧ c ≠ 40 := by
  unfold Letter at h
  refine ⟨?_, by omega, by omega, by omega, by omega⟩
  rw [Bool.eq_false_iff]
  intro h2
  rw [isSpace_iff] at h2
  omega

/-! ### accepted texts evaluate -/

theorem ev_name (m : Macros) (n r : List Nat) (i : Nat) (neg res : Bool) (hn : IsName n)
    (hr : ∀ c ∈ r.head?, ¬ WordChar c) :
    ev m (n ++ r) i neg res true =
      ev (m.mark [n]) r (i + n.length) false (decide (n ∈ m.names) ^^ neg) false := by
  obtain ⟨c, t, rfl, hc, ht⟩ := hn
  obtain ⟨h1, h2, h3, h4, h5⟩ := letter_ne hc
  obtain ⟨e1, e2⟩ := takeWhile_name ht hr
  rw [List.cons_append, ev_cons, h1, if_neg (by simp), if_neg h2, if_neg (fun h => h3 h.1), if_neg (fun h => h4 h.1),
    if_neg h5, if_pos ((isAlpha_iff c).2 hc), if_pos rfl, e1, e2, lookup_fst]
  rfl

theorem ev_open (m : Macros) (t : List Nat) (i : Nat) (neg res : Bool) :
    ev m (40 :: t) i neg res true =
      match closer 1 t with
        | none => ev m t (i + 1) false (res ^^ neg) false
        | some k =>
          match ev m (t.take k) 0 false false true with
          | .error e => .error (i + (e + 1))
          | .ok (r, m') => ev m' (t.drop (k + 1)) (i + 1 + k + 1) false (r ^^ neg) false := by
  rw [ev_cons, if_neg (by decide), if_neg (by decide), if_neg (by simp), if_neg (by simp), if_pos rfl, if_pos rfl]

theorem ev_and (m : Macros) (r : List Nat) (i : Nat) (neg res : Bool) :
    ev m ([38, 38] ++ r) i neg res false =
      if !res then .ok (false, m) else ev m r (i + 2) neg res true := by
  rw [List.cons_append, ev_cons, if_neg (by decide), if_neg (by decide), if_neg (by simp), if_pos (by simp), if_neg (by simp)]
  simp

theorem ev_or (m : Macros) (r : List Nat) (i : Nat) (neg res : Bool) :
    ev m ([124, 124] ++ r) i neg res false =
      if res then .ok (true, m) else ev m r (i + 2) neg res true := by
  rw [List.cons_append, ev_cons, if_neg (by decide), if_neg (by decide), if_pos (by simp), if_neg (by simp)]
  simp

theorem ev_operand {m : Macros} {L : Nat} (ih : ∀ (m' : Macros) (s : List Nat) (p b : Bool) (us : List (List Nat)) (i : Nat),
      s.length < L → m'.names = m.names → Taken m.names p s b us → ev m' s i false p true = .ok (b, m'.mark us))
    {p b : Bool} {o r : List Nat} {us : List (List Nat)} (h : Operand m.names p o r b us) (hL : o.length ≤ L) (i : Nat) :
    ∃ j, ev m (o ++ r) i false p true = ev (m.mark us) r j false b false := by
  cases h with
  | name _ w n _ hw hn hr =>
    rw [List.append_assoc, ev_signs _ _ _ _ _ _ hw, ev_name _ _ _ _ _ _ hn hr]
    exact ⟨_, by rw [Bool.false_xor]⟩
  | paren _ w q _ b _ hw hq ht =>
    simp only [List.length_append, List.length_cons] at hL
    rw [List.append_assoc, ev_signs _ _ _ _ _ _ hw, List.cons_append, ev_open, List.append_assoc, List.singleton_append,
      closer_close hq]
    simp only [List.take_left]
    rw [ih m q false b us 0 (by omega) rfl ht]
    refine ⟨i + w.length + 1 + q.length + 1, ?_⟩
    have : (q ++ 41 :: r).drop (q.length + 1) = r := by
      rw [← List.drop_drop, List.drop_left]; rfl
    simp only [this, Bool.false_xor]
  | opened _ w _ hw hr =>
    rw [List.append_assoc, ev_signs _ _ _ _ _ _ hw, List.singleton_append, ev_open, closer_none.2 hr]
    exact ⟨_, by rw [Bool.false_xor]; rfl⟩

theorem ev_taken : ∀ (L : Nat) (m : Macros) (s : List Nat) (p b : Bool) (us : List (List Nat)) (i : Nat),
    s.length < L → Taken m.names p s b us → ev m s i false p true = .ok (b, m.mark us) := by
  intro L
  induction L with
  | zero => intro m s p b us i h; omega
  | succ L ih =>
    intro m s p b us i hL h
    have ihm : ∀ (m' : Macros) (s : List Nat) (p b : Bool) (us : List (List Nat)) (i : Nat),
        s.length < L → m'.names = m.names → Taken m.names p s b us → ev m' s i false p true = .ok (b, m'.mark us) :=
      fun m' s p b us i h1 h2 h3 => ih m' s p b us i h1 (h2 ▸ h3)
    cases h with
    | stop _ _ h =>
      have := ev_signs m p [] s i false h
      rw [List.append_nil] at this
      rw [this, ev_nil]
      rfl
    | last _ o w _ _ ho hw =>
      simp only [List.length_append] at hL
      obtain ⟨j, hj⟩ := ev_operand ihm ho (by omega) i
      rw [hj]
      have := ev_blank (m.mark us) b [] w j false hw
      rw [List.append_nil] at this
      rw [this, ev_nil]
    | andNo _ o w r _ hw ho =>
      simp only [List.length_append, List.length_cons] at hL
      obtain ⟨j, hj⟩ := ev_operand ihm ho (by omega) i
      rw [hj, List.append_assoc, ev_blank _ _ _ _ _ _ hw, ev_and]
      rfl
    | andGo _ o w r _ us us' hw ho hr =>
      simp only [List.length_append, List.length_cons] at hL
      obtain ⟨j, hj⟩ := ev_operand ihm ho (by omega) i
      rw [hj, List.append_assoc, ev_blank _ _ _ _ _ _ hw, ev_and, mark_append]
      exact ihm _ _ _ _ _ _ (by omega) (mark_names us m) hr
    | orYes _ o w r _ hw ho =>
      simp only [List.length_append, List.length_cons] at hL
      obtain ⟨j, hj⟩ := ev_operand ihm ho (by omega) i
      rw [hj, List.append_assoc, ev_blank _ _ _ _ _ _ hw, ev_or]
      rfl
    | orGo _ o w r _ us us' hw ho hr =>
      simp only [List.length_append, List.length_cons] at hL
      obtain ⟨j, hj⟩ := ev_operand ihm ho (by omega) i
      rw [hj, List.append_assoc, ev_blank _ _ _ _ _ _ hw, ev_or, mark_append]
      exact ihm _ _ _ _ _ _ (by omega) (mark_names us m) hr

/-! ### what evaluates is accepted -/

theorem ev_after {m : Macros} {v : Bool} {x : Bool × Macros} : ∀ (r : List Nat) (i : Nat),
    ev m r i false v false = .ok x →
    ∃ w r', r = w ++ r' ∧ Blank w ∧
      ((r' = [] ∧ x = (v, m)) ∨
       (∃ r'', r' = [38, 38] ++ r'' ∧ ((v = false ∧ x = (false, m)) ∨
          (v = true ∧ ∃ j, ev m r'' j false true true = .ok x))) ∨
       (∃ r'', r' = [124, 124] ++ r'' ∧ ((v = true ∧ x = (true, m)) ∨
          (v = false ∧ ∃ j, ev m r'' j false false true = .ok x)))) := by
  intro r
  induction r with
  | nil =>
    intro i h
    rw [ev_nil] at h
    cases h
    exact ⟨[], [], rfl, (by intro c hc; cases hc), Or.inl ⟨rfl, rfl⟩⟩
  | cons c t ih =>
    intro i h
    rw [ev_cons] at h
    by_cases h1 : isSpace c = true
    · rw [if_pos h1] at h
      obtain ⟨w, r', rfl, hw, hx⟩ := ih _ h
      refine ⟨c :: w, r', rfl, ?_, hx⟩
      intro d hd
      rcases List.mem_cons.1 hd with rfl | hd
      · exact (isSpace_iff _).1 h1
      · exact hw d hd
    rw [if_neg h1] at h
    have hb : Blank [] := by intro c hc; cases hc
    refine ⟨[], c :: t, rfl, hb, ?_⟩
    by_cases h2 : c = 33
    · rw [if_pos h2, if_neg (by simp)] at h; cases h
    rw [if_neg h2] at h
    by_cases h3 : c = 124 ∧ t.head? = some 124
    · obtain ⟨rfl, h3'⟩ := h3
      cases t with
      | nil => cases h3'
      | cons d t =>
        cases h3'
        rw [if_pos (by simp), if_neg (by simp)] at h
        refine Or.inr (Or.inr ⟨t, rfl, ?_⟩)
        cases v with
        | true => rw [if_pos rfl] at h; cases h; exact Or.inl ⟨rfl, rfl⟩
        | false => exact Or.inr ⟨rfl, _, by simpa using h⟩
    rw [if_neg h3] at h
    by_cases h4 : c = 38 ∧ t.head? = some 38
    · obtain ⟨rfl, h4'⟩ := h4
      cases t with
      | nil => cases h4'
      | cons d t =>
        cases h4'
        rw [if_pos (by simp), if_neg (by simp)] at h
        refine Or.inr (Or.inl ⟨t, rfl, ?_⟩)
        cases v with
        | false => rw [if_pos (by rfl)] at h; cases h; exact Or.inl ⟨rfl, rfl⟩
        | true => exact Or.inr ⟨rfl, _, by simpa using h⟩
    rw [if_neg h4] at h
    by_cases h5 : c = 40
    · rw [if_pos h5, if_neg (by simp)] at h; cases h
    rw [if_neg h5] at h
    by_cases h6 : isAlpha c = true
    · rw [if_pos h6, if_neg (by simp)] at h; cases h
    rw [if_neg h6] at h; cases h

theorem ev_before {m : Macros} {p : Bool} {x : Bool × Macros} : ∀ (s : List Nat) (i : Nat) (neg : Bool),
    ev m s i neg p true = .ok x →
    ∃ w s', s = w ++ s' ∧ Signs w ∧
      ((s' = [] ∧ x = (p, m)) ∨
       (∃ n r j, s' = n ++ r ∧ IsName n ∧ (∀ c ∈ r.head?, ¬ WordChar c) ∧
          ev (m.mark [n]) r j false (decide (n ∈ m.names) ^^ (neg ^^ Flips w)) false = .ok x) ∨
       (∃ q r a m' j, s' = 40 :: (q ++ 41 :: r) ∧ Nested q ∧ ev m q 0 false false true = .ok (a, m') ∧
          ev m' r j false (a ^^ (neg ^^ Flips w)) false = .ok x) ∨
       (∃ r j, s' = 40 :: r ∧ (∀ q r', Nested q → r ≠ q ++ 41 :: r') ∧
          ev m r j false (p ^^ (neg ^^ Flips w)) false = .ok x)) := by
  intro s
  induction s with
  | nil =>
    intro i neg h
    rw [ev_nil] at h
    cases h
    exact ⟨[], [], rfl, (by intro c hc; cases hc), Or.inl ⟨rfl, rfl⟩⟩
  | cons c t ih =>
    intro i neg h
    rw [ev_cons] at h
    by_cases h1 : isSpace c = true
    · rw [if_pos h1] at h
      obtain ⟨w, r', rfl, hw, hx⟩ := ih _ _ h
      have h1' := (isSpace_iff _).1 h1
      refine ⟨c :: w, r', rfl, ?_, ?_⟩
      · intro d hd
        rcases List.mem_cons.1 hd with rfl | hd
        · exact Or.inr h1'
        · exact hw d hd
      · rw [Flips_cons, decide_eq_false (by omega), Bool.false_xor]
        exact hx
    rw [if_neg h1] at h
    by_cases h2 : c = 33
    · rw [if_pos h2, if_pos rfl] at h
      obtain ⟨w, r', rfl, hw, hx⟩ := ih _ _ h
      refine ⟨c :: w, r', rfl, ?_, ?_⟩
      · intro d hd
        rcases List.mem_cons.1 hd with rfl | hd
        · exact Or.inl h2
        · exact hw d hd
      · have e : (neg ^^ Flips (c :: w)) = ((!neg) ^^ Flips w) := by
          rw [Flips_cons, decide_eq_true h2]
          cases neg <;> cases Flips w <;> rfl
        rw [e]
        exact hx
    rw [if_neg h2] at h
    have hb : Signs [] := by intro c hc; cases hc
    have hf : (neg ^^ Flips []) = neg := by simp [Flips]
    refine ⟨[], c :: t, rfl, hb, ?_⟩
    rw [hf]
    by_cases h3 : c = 124 ∧ t.head? = some 124
    · rw [if_pos h3, if_pos rfl] at h; cases h
    rw [if_neg h3] at h
    by_cases h4 : c = 38 ∧ t.head? = some 38
    · rw [if_pos h4, if_pos rfl] at h; cases h
    rw [if_neg h4] at h
    by_cases h5 : c = 40
    · rw [if_pos h5, if_pos rfl] at h
      cases hk : closer 1 t with
      | none =>
        rw [hk] at h
        exact Or.inr (Or.inr (Or.inr ⟨t, _, by rw [h5], closer_none.1 hk, h⟩))
      | some k =>
        obtain ⟨q, r', hq, rfl, rfl⟩ := closer_some hk
        rw [hk] at h
        simp only [List.take_left] at h
        have hd : (q ++ 41 :: r').drop (q.length + 1) = r' := by
          rw [← List.drop_drop, List.drop_left]; rfl
        rw [hd] at h
        cases hv : ev m q 0 false false true with
        | error e => rw [hv] at h; cases h
        | ok y =>
          obtain ⟨a, m'⟩ := y
          rw [hv] at h
          exact Or.inr (Or.inr (Or.inl ⟨q, r', a, m', _, by rw [h5], hq, hv, h⟩))
    rw [if_neg h5] at h
    by_cases h6 : isAlpha c = true
    · rw [if_pos h6, if_pos rfl, lookup_fst] at h
      refine Or.inr (Or.inl ⟨c :: t.takeWhile nameChar, t.dropWhile nameChar, _, ?_, ?_, ?_, h⟩)
      · rw [List.cons_append, List.takeWhile_append_dropWhile]
      · exact ⟨c, _, rfl, (isAlpha_iff c).1 h6, fun d hd => (nameChar_iff d).1 (takeWhile_all _ _ d hd)⟩
      · intro d hd hw
        have := List.head?_dropWhile_not nameChar t
        rw [Option.mem_def] at hd
        rw [hd] at this
        simp [(nameChar_iff d).2 hw] at this
    rw [if_neg h6] at h; cases h

theorem ev_sound : ∀ (L : Nat) (m : Macros) (s : List Nat) (p b : Bool) (m' : Macros) (i : Nat),
    s.length < L → ev m s i false p true = .ok (b, m') → ∃ us, Taken m.names p s b us ∧ m' = m.mark us := by
  intro L
  induction L with
  | zero => intro m s p b m' i h; omega
  | succ L ih =>
    intro m s p b m' i hL h
    -- what follows an operand
    have key : ∀ (o r : List Nat) (v : Bool) (us : List (List Nat)) (j : Nat), s = o ++ r → 0 < o.length →
        Operand m.names p o r v us → ev (m.mark us) r j false v false = .ok (b, m') →
        ∃ us, Taken m.names p s b us ∧ m' = m.mark us := by
      intro o r v us j hs ho hop hr
      subst hs
      obtain ⟨w, r', rfl, hw, hx⟩ := ev_after _ _ hr
      simp only [List.length_append] at hL
      rcases hx with ⟨rfl, hx⟩ | ⟨r'', rfl, hx⟩ | ⟨r'', rfl, hx⟩
      · cases hx
        rw [List.append_nil] at hop ⊢
        exact ⟨us, .last _ _ _ _ _ hop hw, rfl⟩
      · rw [← List.append_assoc w] at hop ⊢
        simp only [List.length_append] at hL
        rcases hx with ⟨rfl, hx⟩ | ⟨rfl, j', hx⟩
        · cases hx
          exact ⟨us, .andNo _ _ _ _ _ hw hop, rfl⟩
        · obtain ⟨us', ht, rfl⟩ := ih _ _ _ _ _ _ (by omega) hx
          rw [mark_names] at ht
          exact ⟨us ++ us', .andGo _ _ _ _ _ _ _ hw hop ht, (mark_append _ _ _).symm⟩
      · rw [← List.append_assoc w] at hop ⊢
        simp only [List.length_append] at hL
        rcases hx with ⟨rfl, hx⟩ | ⟨rfl, j', hx⟩
        · cases hx
          exact ⟨us, .orYes _ _ _ _ _ hw hop, rfl⟩
        · obtain ⟨us', ht, rfl⟩ := ih _ _ _ _ _ _ (by omega) hx
          rw [mark_names] at ht
          exact ⟨us ++ us', .orGo _ _ _ _ _ _ _ hw hop ht, (mark_append _ _ _).symm⟩
    obtain ⟨w, s', rfl, hw, hx⟩ := ev_before _ _ _ h
    simp only [List.length_append] at hL
    rcases hx with ⟨rfl, hx⟩ | ⟨n, r, j, rfl, hn, hr, hx⟩ | ⟨q, r, a, m₁, j, rfl, hq, hv, hx⟩ | ⟨r, j, rfl, hr, hx⟩
    · cases hx
      rw [List.append_nil]
      exact ⟨[], .stop _ _ hw, rfl⟩
    · rw [Bool.false_xor] at hx
      have : 0 < n.length := by obtain ⟨c, t, rfl, _⟩ := hn; simp
      exact key (w ++ n) r _ [n] j (by simp) (by simp only [List.length_append]; omega) (.name p w n r hw hn hr) hx
    · simp only [List.length_append, List.length_cons] at hL
      obtain ⟨us, ht, rfl⟩ := ih _ _ _ _ _ _ (by omega) hv
      rw [Bool.false_xor] at hx
      exact key (w ++ 40 :: (q ++ [41])) r _ us j (by simp) (by simp; omega) (.paren p w q r a us hw hq ht) hx
    · rw [Bool.false_xor] at hx
      exact key (w ++ [40]) r _ [] j (by simp) (by simp) (.opened p w r hw hr) hx

/-! ### where errors are reported -/

theorem ev_error : ∀ (L : Nat) (m : Macros) (s : List Nat) (i e : Nat) (neg res ok : Bool), s.length < L →
    ev m s i neg res ok = .error e → ∃ pre c post, s = pre ++ c :: post ∧ e = i + pre.length ∧ isSpace c = false := by
  intro L
  induction L with
  | zero => intro m s i e neg res ok h; omega
  | succ L ih =>
    intro m s i e neg res ok hL h
    cases s with
    | nil => rw [ev_nil] at h; cases h
    | cons c t =>
      simp only [List.length_cons] at hL
      rw [ev_cons] at h
      -- an error behind the piece `p`
      have later : ∀ (p t' : List Nat) (m' : Macros) (j : Nat) (n r o : Bool), c :: t = p ++ t' → 0 < p.length →
          j = i + p.length → ev m' t' j n r o = .error e →
          ∃ pre c' post, c :: t = pre ++ c' :: post ∧ e = i + pre.length ∧ isSpace c' = false := by
        intro p t' m' j n r o hp h0 hj he
        have hlen := congrArg List.length hp
        simp only [List.length_cons, List.length_append] at hlen
        obtain ⟨pre, c', post, rfl, rfl, hc⟩ := ih _ _ _ _ _ _ _ (by omega) he
        exact ⟨p ++ pre, c', post, by simp [hp], by simp; omega, hc⟩
      by_cases h1 : isSpace c = true
      · rw [if_pos h1] at h
        exact later [c] t _ _ _ _ _ rfl (by simp) rfl h
      rw [if_neg h1] at h
      have here : Except.error i = (Except.error e : Except Nat (Bool × Macros)) →
          ∃ pre c' post, c :: t = pre ++ c' :: post ∧ e = i + pre.length ∧ isSpace c' = false := by
        intro he
        cases he
        exact ⟨[], c, t, rfl, rfl, by simpa using h1⟩
      by_cases h2 : c = 33
      · rw [if_pos h2] at h
        cases ok with
        | true => exact later [c] t _ _ _ _ _ rfl (by simp) rfl (by simpa using h)
        | false => exact here (by simpa using h)
      rw [if_neg h2] at h
      by_cases h3 : c = 124 ∧ t.head? = some 124
      · rw [if_pos h3] at h
        cases ok with
        | true => exact here (by simpa using h)
        | false =>
          cases res with
          | true => simp at h
          | false =>
            obtain ⟨_, h3'⟩ := h3
            cases t with
            | nil => cases h3'
            | cons d t => exact later [c, d] t _ _ _ _ _ rfl (by simp) rfl (by simpa using h)
      rw [if_neg h3] at h
      by_cases h4 : c = 38 ∧ t.head? = some 38
      · rw [if_pos h4] at h
        cases ok with
        | true => exact here (by simpa using h)
        | false =>
          cases res with
          | false => simp at h
          | true =>
            obtain ⟨_, h4'⟩ := h4
            cases t with
            | nil => cases h4'
            | cons d t => exact later [c, d] t _ _ _ _ _ rfl (by simp) rfl (by simpa using h)
      rw [if_neg h4] at h
      by_cases h5 : c = 40
      · rw [if_pos h5] at h
        cases ok with
        | false => exact here (by simpa using h)
        | true =>
          rw [if_pos rfl] at h
          cases hk : closer 1 t with
          | none =>
            rw [hk] at h
            exact later [c] t _ _ _ _ _ rfl (by simp) rfl h
          | some k =>
            obtain ⟨q, r', hq, rfl, rfl⟩ := closer_some hk
            rw [hk] at h
            simp only [List.take_left] at h
            have hd : (q ++ 41 :: r').drop (q.length + 1) = r' := by
              rw [← List.drop_drop, List.drop_left]; rfl
            rw [hd] at h
            simp only [List.length_append, List.length_cons] at hL
            cases hv : ev m q 0 false false true with
            | error e' =>
              rw [hv] at h
              cases h
              obtain ⟨pre, c', post, rfl, rfl, hc⟩ := ih _ _ _ _ _ _ _ (by omega) hv
              exact ⟨c :: pre, c', post ++ 41 :: r', by simp, by simp, hc⟩
            | ok y =>
              obtain ⟨a, m'⟩ := y
              rw [hv] at h
              exact later (c :: q ++ [41]) r' _ _ _ _ _ (by simp) (by simp) (by simp; omega) h
      rw [if_neg h5] at h
      by_cases h6 : isAlpha c = true
      · rw [if_pos h6] at h
        cases ok with
        | false => exact here (by simpa using h)
        | true =>
          rw [if_pos rfl] at h
          exact later (c :: t.takeWhile nameChar) (t.dropWhile nameChar) _ _ _ _ _
            (by rw [List.cons_append, List.takeWhile_append_dropWhile]) (by simp) rfl h
      rw [if_neg h6] at h
      exact here h

/-! ### well-formed conditions are accepted -/

theorem Signs.append {v w : List Nat} (hv : Signs v) (hw : Signs w) : Signs (v ++ w) := by
  intro c hc
  rcases List.mem_append.1 hc with h | h
  · exact hv c h
  · exact hw c h

theorem Nested.append {q s : List Nat} (hq : Nested q) (hs : Nested s) : Nested (q ++ s) := by
  induction hq with
  | nil => exact hs
  | char c t h1 h2 _ ih => exact .char c _ h1 h2 ih
  | pair q t hq _ _ ih =>
    rw [List.cons_append, List.append_assoc, List.cons_append]
    exact .pair q _ hq ih

theorem nested_plain {w : List Nat} (h : ∀ c ∈ w, c ≠ 40 ∧ c ≠ 41) : Nested w := by
  induction w with
  | nil => exact .nil
  | cons c w ih =>
    exact .char c w (h c (by simp)).1 (h c (by simp)).2 (ih fun d hd => h d (by simp [hd]))

theorem Blank.nested {w : List Nat} (h : Blank w) : Nested w :=
  nested_plain fun c hc => by have := h c hc; omega

theorem wordChar_ne {c : Nat} (h : WordChar c) : c ≠ 40 ∧ c ≠ 41 ∧ c ≠ 38 ∧ c ≠ 124 ∧ c ≠ 32 ∧ ¬ (9 ≤ c ∧ c ≤ 13) := by
  unfold WordChar Letter at h
  omega

theorem head_append {w r : List Nat} {P : Nat → Prop} (hw : ∀ c ∈ w, P c) (hr : ∀ c ∈ r.head?, P c) :
    ∀ c ∈ (w ++ r).head?, P c := by
  cases w with
  | nil => exact hr
  | cons d w => intro c hc; cases hc; exact hw _ (by simp)

theorem Blank.notWord {w : List Nat} (h : Blank w) : ∀ c ∈ w, ¬ WordChar c := by
  intro c hc hw
  have := h c hc
  have := wordChar_ne hw
  omega

theorem Means.taken {defs : List (List Nat)} {k : Part} {s : List Nat} {b : Bool} {us : List (List Nat)}
    (h : Means defs k s b us) : Nested s ∧
    match k with
    | .operand => ∀ (p : Bool) (w r : List Nat), Signs w → (∀ c ∈ r.head?, ¬ WordChar c) →
        Operand defs p (w ++ s) r (b ^^ Flips w) us
    | .condition => ∀ p : Bool, Taken defs p s b us := by
  induction h with
  | name n hn =>
    refine ⟨?_, fun p w r hw hr => .name p w n r hw hn hr⟩
    obtain ⟨c, t, rfl, hc, ht⟩ := hn
    refine nested_plain fun d hd => ?_
    have : WordChar d := by
      rcases List.mem_cons.1 hd with rfl | hd
      · exact Or.inl hc
      · exact ht d hd
    have := wordChar_ne this
    omega
  | not w s b us hw _ ih =>
    refine ⟨.char _ _ (by decide) (by decide) (hw.nested.append ih.1), fun p v r hv hr => ?_⟩
    have hs : Signs (v ++ 33 :: w) := by
      refine hv.append ?_
      intro c hc
      rcases List.mem_cons.1 hc with rfl | hc
      · exact Or.inl rfl
      · exact hw.signs c hc
    have := ih.2 p (v ++ 33 :: w) r hs hr
    rw [List.append_assoc, List.cons_append, Flips_append, Flips_cons, hw.flips] at this
    have e : (b ^^ (Flips v ^^ (decide (33 = 33) ^^ false))) = ((!b) ^^ Flips v) := by
      cases b <;> cases Flips v <;> rfl
    rw [e] at this
    exact this
  | paren s b us _ ih =>
    refine ⟨.pair s [] ih.1 .nil, fun p w r hw _ => ?_⟩
    exact .paren p w s r b us hw ih.1 (ih.2 false)
  | only w s w' b us hw _ hw' ih =>
    refine ⟨(hw.nested.append ih.1).append hw'.nested, fun p => ?_⟩
    have := ih.2 p w w' hw.signs (fun c hc => hw'.notWord c (by cases w' <;> simp_all))
    rw [hw.flips, Bool.xor_false] at this
    exact .last p (w ++ s) w' b us this hw'
  | and w s w' r a b us us' hw _ hw' _ ih ihr =>
    have hn : Nested ([38, 38] : List Nat) := nested_plain (by decide)
    refine ⟨(((hw.nested.append ih.1).append hw'.nested).append hn).append ihr.1, fun p => ?_⟩
    have := ih.2 p w (w' ++ [38, 38] ++ r) hw.signs (by
      rw [List.append_assoc]
      refine head_append hw'.notWord ?_
      intro c hc
      cases hc
      intro h
      have := wordChar_ne h
      omega)
    rw [hw.flips, Bool.xor_false] at this
    have e : w ++ s ++ w' ++ [38, 38] ++ r = (w ++ s) ++ (w' ++ [38, 38] ++ r) := by simp
    rw [e]
    cases a with
    | false => simpa using Taken.andNo p (w ++ s) w' r us hw' this
    | true => simpa using Taken.andGo p (w ++ s) w' r b us us' hw' this (ihr.2 true)
  | or w s w' r a b us us' hw _ hw' _ ih ihr =>
    have hn : Nested ([124, 124] : List Nat) := nested_plain (by decide)
    refine ⟨(((hw.nested.append ih.1).append hw'.nested).append hn).append ihr.1, fun p => ?_⟩
    have := ih.2 p w (w' ++ [124, 124] ++ r) hw.signs (by
      rw [List.append_assoc]
      refine head_append hw'.notWord ?_
      intro c hc
      cases hc
      intro h
      have := wordChar_ne h
      omega)
    rw [hw.flips, Bool.xor_false] at this
    have e : w ++ s ++ w' ++ [124, 124] ++ r = (w ++ s) ++ (w' ++ [124, 124] ++ r) := by simp
    rw [e]
    cases a with
    | true => simpa using Taken.orYes p (w ++ s) w' r us hw' this
    | false => simpa using Taken.orGo p (w ++ s) w' r b us us' hw' this (ihr.2 false)

end Verif.Lemon
