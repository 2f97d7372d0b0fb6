import Verif.Proofs.LemonTextAll
import Verif.Spec.LemonTextRead
/-
Lemmas: numbers, strings and macros can be read from the C file made by lemon.
-/
set_option autoImplicit false
namespace Verif.Lemon.LT
open Verif.Spec.LText
open Verif.Spec.GFile (text)
open Verif.Spec.RuleCode (num)

theorem foldl_toDigits (l : List Char) : ∀ v : Nat, (l.map Char.toNat).foldl (fun v c => 10 * v + (c - 48)) v = Nat.ofDigitChars 10 l v := by
  intro v
  rw [Nat.ofDigitChars, List.foldl_map]
  rfl

theorem decimal_bytes (n : Nat) : decimal n ≠ [] ∧ ∀ c ∈ decimal n, 48 ≤ c ∧ c ≤ 57 := by
  constructor
  · intro e
    have : (Nat.toDigits 10 n) = [] := by simpa [decimal] using e
    have := congrArg List.length this
    have h2 : 0 < (Nat.toDigits 10 n).length := Nat.length_toDigits_pos
    simp only [List.length_nil] at this
    omega
  · intro c hc
    simp only [decimal, List.mem_map] at hc
    obtain ⟨d, hd, rfl⟩ := hc
    have := Nat.isDigit_of_mem_toDigits (by omega) (by omega) hd
    simp only [Char.isDigit, Bool.and_eq_true, decide_eq_true_eq] at this
    exact ⟨this.1, this.2⟩

theorem digits_decimal (n : Nat) : digits (decimal n) = some n := by
  rw [digits, if_pos (decimal_bytes n), decimal, foldl_toDigits, Nat.ofDigitChars_toDigits (by omega) (by omega)]

theorem number_nat (n : Nat) : number (decimal n) = some (n : Int) := by
  obtain ⟨hne, hd⟩ := decimal_bytes n
  unfold number
  split
  · rename_i t e
    have := hd 45 (by rw [e]; simp)
    omega
  · rw [digits_decimal]; rfl

theorem number_num (i : Int) : number (num i) = some i := by
  rw [num_int, decimalInt]
  split
  · have e : number (45 :: decimal i.natAbs) = (digits (decimal i.natAbs)).map fun n : Nat => -(n : Int) := by rw [number]
    rw [e, digits_decimal, Option.map_some]
    congr 1
    omega
  · rw [number_nat]
    congr 1
    omega

theorem num_bytes (i : Int) : num i ≠ [] ∧ ∀ c ∈ num i, c = 45 ∨ (48 ≤ c ∧ c ≤ 57) := by
  rw [num_int, decimalInt]
  obtain ⟨hne, hd⟩ := decimal_bytes i.natAbs
  split
  · refine ⟨by simp, ?_⟩
    intro c hc
    rcases List.mem_cons.1 hc with rfl | hc
    · exact .inl rfl
    · exact .inr (hd c hc)
  · exact ⟨hne, fun c hc => .inr (hd c hc)⟩

/-! ### arrays -/

theorem read_blank (n : Nat) (t : List Nat) : readGo .gap (List.replicate n 32 ++ t) = readGo .gap t := by
  induction n with
  | zero => rfl
  | succ n ih => rw [List.replicate_succ, List.cons_append, readGo, if_pos (.inl rfl), ih]

theorem read_space (t : List Nat) : readGo .gap (32 :: t) = readGo .gap t := by rw [readGo, if_pos (.inl rfl)]
theorem read_nl (t : List Nat) : readGo .gap (10 :: t) = readGo .gap t := by rw [readGo, if_pos (.inr rfl)]

theorem read_inComment (c t : List Nat) (h : 42 ∉ c) : readGo .comment (c ++ 42 :: 47 :: t) = readGo .gap t := by
  induction c with
  | nil => rw [List.nil_append, readGo, if_pos rfl, readGo, if_pos rfl]
  | cons x c ih =>
    simp only [List.mem_cons, not_or] at h
    rw [List.cons_append, readGo, if_neg (fun e => h.1 e.symm), ih h.2]

theorem read_comment (c t : List Nat) (h : 42 ∉ c) : readGo .gap (47 :: 42 :: (c ++ 42 :: 47 :: t)) = readGo .gap t := by
  rw [readGo, if_neg (by omega), if_pos rfl, readGo, read_inComment c t h]

theorem read_inNum (d t : List Nat) (h : 44 ∉ d) : ∀ s, readGo (.num s) (d ++ 44 :: t) = (number (s ++ d)).bind fun v => (readGo .gap t).map (.int v :: ·) := by
  induction d with
  | nil => intro s; rw [List.nil_append, readGo, if_pos rfl, List.append_nil]
  | cons x d ih =>
    intro s
    simp only [List.mem_cons, not_or] at h
    rw [List.cons_append, readGo, if_neg (fun e => h.1 e.symm), ih h.2]
    simp

theorem read_num (i : Int) (t : List Nat) : readGo .gap (num i ++ 44 :: t) = (readGo .gap t).map (.int i :: ·) := by
  obtain ⟨hne, hb⟩ := num_bytes i
  rcases hn : num i with _ | ⟨c, d⟩
  · exact absurd hn hne
  · have h1 := hb c (by rw [hn]; simp)
    rw [List.cons_append, readGo, if_neg (by omega), if_neg (by omega), if_neg (by omega), read_inNum d t ?_, List.singleton_append, ← hn, number_num]
    · rfl
    · intro hd
      have := hb 44 (by rw [hn]; simp [hd])
      omega

theorem read_right (n : Nat) (i : Int) (t : List Nat) : readGo .gap (right n (num i) ++ 44 :: t) = (readGo .gap t).map (.int i :: ·) := by
  rw [right, List.append_assoc, read_blank, read_num]

theorem read_inStr (d t : List Nat) (h : ∀ c ∈ d, c ≠ 34 ∧ c ≠ 92 ∧ c ≠ 10) : ∀ s, readGo (.str s) (d ++ 34 :: 44 :: t) = (readGo .gap t).map (.str (s ++ d) :: ·) := by
  induction d with
  | nil => intro s; rw [List.nil_append, readGo, if_pos rfl, readGo, List.append_nil]
  | cons x d ih =>
    intro s
    have hx := h x (by simp)
    rw [List.cons_append, readGo, if_neg hx.1, if_neg (by omega), ih (fun c hc => h c (by simp [hc]))]
    simp

theorem read_str (d t : List Nat) (h : ∀ c ∈ d, c ≠ 34 ∧ c ≠ 92 ∧ c ≠ 10) : readGo .gap (34 :: (d ++ 34 :: 44 :: t)) = (readGo .gap t).map (.str d :: ·) := by
  rw [readGo, if_neg (by omega), if_neg (by omega), if_pos rfl, read_inStr d t h, List.nil_append]

theorem right_safe (n : Nat) (t : List Nat) (c : Nat) (hc : c ≠ 32) (h : c ∉ t) : c ∉ right n t := by
  intro hm
  rw [right, List.mem_append] at hm
  rcases hm with hm | hm
  · exact hc (List.eq_of_mem_replicate hm)
  · exact h hm

theorem num_ne (i : Int) (c : Nat) (h : c ≠ 45) (h2 : ¬ (48 ≤ c ∧ c ≤ 57)) : c ∉ num i := by
  intro hm
  have := (num_bytes i).2 c hm
  omega

theorem read_entries (r : List Int) (t : List Nat) : readGo .gap ((r.flatMap fun v => text " " ++ right 4 (num v) ++ text ",") ++ t) = (readGo .gap t).map (r.map Entry.int ++ ·) := by
  induction r with
  | nil => simp
  | cons v r ih =>
    have e : ((v :: r).flatMap fun v => text " " ++ right 4 (num v) ++ text ",") ++ t = 32 :: (right 4 (num v) ++ 44 :: ((r.flatMap fun v => text " " ++ right 4 (num v) ++ text ",") ++ t)) := by
      simp [show text " " = [32] by decide, show text "," = [44] by decide]
    rw [e, read_space, read_right, ih]
    cases readGo .gap t <;> simp

theorem read_rows {i : Nat} {l : List Int} {t : List Nat} (h : Rows i l t) : readArray t = some (l.map Entry.int) := by
  unfold readArray
  induction h with
  | nil i => rfl
  | row i r l t _ _ _ _ ih =>
    have e : text " /* " ++ right 5 (num i) ++ text " */ " ++ (r.flatMap fun v => text " " ++ right 4 (num v) ++ text ",") ++ [10] ++ t =
        32 :: 47 :: 42 :: ((32 :: (right 5 (num i) ++ [32])) ++ 42 :: 47 :: 32 :: ((r.flatMap fun v => text " " ++ right 4 (num v) ++ text ",") ++ 10 :: t)) := by
      simp [show text " /* " = [32, 47, 42, 32] by decide, show text " */ " = [32, 42, 47, 32] by decide]
    rw [e, read_space, read_comment, read_space, read_entries, read_nl, ih]
    · simp
    · simp only [List.mem_cons, List.mem_append, List.not_mem_nil, or_false, not_or]
      exact ⟨by omega, right_safe _ _ _ (by omega) (num_ne _ _ (by omega) (by omega)), by omega⟩

theorem hasArray_of {type : List Nat} {name : String} {l : List Int} {t a p b : List Nat} (h : IsArray type name l p) (e : t = a ++ p ++ b) (ha : LineStart a) :
    HasArray t type name (l.map Entry.int) := by
  obtain ⟨body, hr, rfl⟩ := h
  exact ⟨a, body, b, e, ha, read_rows hr⟩

/-! ### lines with comments -/

/-- lines that are read as one entry each -/
theorem read_lines {α : Type} (f : α → List Nat) (e : α → Entry) (l : List α) (h : ∀ a ∈ l, ∀ t, readGo .gap (f a ++ 10 :: t) = (readGo .gap t).map (e a :: ·)) :
    readArray (lines (l.map f)) = some (l.map e) := by
  unfold readArray
  induction l with
  | nil => rfl
  | cons a l ih =>
    have e1 : lines ((a :: l).map f) = f a ++ 10 :: lines (l.map f) := by simp [lines]
    rw [e1, h a (by simp), ih (fun b hb => h b (by simp [hb]))]
    rfl

/-- a number with a comment behind it -/
theorem read_numComment (n : Nat) (i : Int) (c t : List Nat) (h : 42 ∉ c) :
    readGo .gap (right n (num i) ++ text ",  /* " ++ c ++ text " */" ++ 10 :: t) = (readGo .gap t).map (.int i :: ·) := by
  have e : right n (num i) ++ text ",  /* " ++ c ++ text " */" ++ 10 :: t = right n (num i) ++ 44 :: 32 :: 32 :: 47 :: 42 :: ((32 :: c ++ [32]) ++ 42 :: 47 :: 10 :: t) := by
    simp [show text ",  /* " = [44, 32, 32, 47, 42, 32] by decide, show text " */" = [32, 42, 47] by decide]
  rw [e, read_right, read_space, read_space, read_comment, read_nl]
  simp [h]

/-- a comment with a number, and a string -/
theorem read_commentStr (n : Nat) (i : Int) (d t : List Nat) (h : ∀ c ∈ d, c ≠ 34 ∧ c ≠ 92 ∧ c ≠ 10) :
    readGo .gap (text "/* " ++ right n (num i) ++ text " */ \"" ++ d ++ text "\"," ++ 10 :: t) = (readGo .gap t).map (.str d :: ·) := by
  have e : text "/* " ++ right n (num i) ++ text " */ \"" ++ d ++ text "\"," ++ 10 :: t = 47 :: 42 :: ((32 :: right n (num i) ++ [32]) ++ 42 :: 47 :: 32 :: 34 :: (d ++ 34 :: 44 :: 10 :: t)) := by
    simp [show text "/* " = [47, 42, 32] by decide, show text " */ \"" = [32, 42, 47, 32, 34] by decide, show text "\"," = [34, 44] by decide]
  rw [e, read_comment, read_space, read_str d _ h, read_nl]
  simp only [List.cons_append, List.mem_cons, List.mem_append, List.not_mem_nil, or_false, not_or]
  exact ⟨by omega, right_safe _ _ _ (by omega) (num_ne _ _ (by omega) (by omega)), by omega⟩

variable {I : LText}

theorem ruleText_mem (H : SafeNames I) {p : RRule × Trans × Bool} (hp : p ∈ I.rules) {c : Nat} (hc : c ∈ I.s.ruleText p.1) : c ≠ 34 ∧ c ≠ 92 ∧ c ≠ 10 ∧ c ≠ 42 := by
  simp only [RState.ruleText, List.mem_append, List.mem_flatMap, List.mem_cons] at hc
  rcases hc with (hc | hc) | ⟨r, hr, rfl | hc⟩
  · have := H.lhs p hp c hc; omega
  · revert hc c; decide
  · omega
  · have := H.rhs p hp r hr c hc; omega

theorem read_symbols (H : SafeNames I) : readArray (lines (symbolLines I)) = some ((List.range I.s.nsymbol).map fun i => .str (symbolName I i)) := by
  unfold symbolLines
  refine read_lines _ _ _ ?_
  intro i hi t
  have e : text "  /* " ++ right 4 (num i) ++ text " */ \"" ++ symbolName I i ++ text "\"," ++ 10 :: t =
      32 :: 32 :: (text "/* " ++ right 4 (num i) ++ text " */ \"" ++ symbolName I i ++ text "\"," ++ 10 :: t) := by
    simp [show text "  /* " = 32 :: 32 :: text "/* " by decide]
  rw [e, read_space, read_space, read_commentStr]
  intro c hc
  have := H.symbols i (by simpa using hi) c hc
  omega

theorem read_rules (H : SafeNames I) : readArray (lines (ruleLines I)) = some (I.rules.map fun p => .str (I.s.ruleText p.1)) := by
  unfold ruleLines
  rw [read_lines (fun p : (RRule × Trans × Bool) × Nat => text " /* " ++ right 3 (num p.2) ++ text " */ \"" ++ I.s.ruleText p.1.1 ++ text "\",") (fun p => .str (I.s.ruleText p.1.1))]
  · congr 1
    have : I.rules = I.rules.zipIdx.map Prod.fst := by simp
    conv => rhs; rw [this, List.map_map]
    rfl
  · intro p hp t
    have e : text " /* " ++ right 3 (num p.2) ++ text " */ \"" ++ I.s.ruleText p.1.1 ++ text "\"," ++ 10 :: t =
        32 :: (text "/* " ++ right 3 (num p.2) ++ text " */ \"" ++ I.s.ruleText p.1.1 ++ text "\"," ++ 10 :: t) := by
      simp [show text " /* " = 32 :: text "/* " by decide]
    rw [e, read_space, read_commentStr]
    intro c hc
    have := ruleText_mem H (List.fst_mem_of_mem_zipIdx hp) hc
    omega

theorem read_ruleNums (H : SafeNames I) (n : Nat) (f : RRule → Int) :
    readArray (lines (I.rules.zipIdx.map fun p => text "  " ++ right n (num (f p.1.1)) ++ text ",  /* (" ++ num p.2 ++ text ") " ++ I.s.ruleText p.1.1 ++ text " */")) = some (I.rules.map fun p => .int (f p.1)) := by
  rw [read_lines (fun p : (RRule × Trans × Bool) × Nat => text "  " ++ right n (num (f p.1.1)) ++ text ",  /* (" ++ num p.2 ++ text ") " ++ I.s.ruleText p.1.1 ++ text " */") (fun p => .int (f p.1.1))]
  · congr 1
    have : I.rules = I.rules.zipIdx.map Prod.fst := by simp
    conv => rhs; rw [this, List.map_map]
    rfl
  · intro p hp t
    have e : text "  " ++ right n (num (f p.1.1)) ++ text ",  /* (" ++ num p.2 ++ text ") " ++ I.s.ruleText p.1.1 ++ text " */" ++ 10 :: t =
        32 :: 32 :: (right n (num (f p.1.1)) ++ text ",  /* " ++ (40 :: num p.2 ++ text ") " ++ I.s.ruleText p.1.1) ++ text " */" ++ 10 :: t) := by
      simp [show text "  " = [32, 32] by decide, show text ",  /* (" = text ",  /* " ++ [40] by decide]
    rw [e, read_space, read_space, read_numComment]
    simp only [List.cons_append, List.mem_cons, List.mem_append, not_or]
    refine ⟨by omega, ⟨num_ne _ _ (by omega) (by omega), by decide⟩, ?_⟩
    intro hm
    have := ruleText_mem H (List.fst_mem_of_mem_zipIdx hp) hm
    omega

theorem read_lhs (H : SafeNames I) : readArray (lines (lhsLines I)) = some (I.rules.map fun p => .int (I.s.index p.1.lhs)) := read_ruleNums H 4 fun r => I.s.index r.lhs
theorem read_len (H : SafeNames I) : readArray (lines (lenLines I)) = some (I.rules.map fun p => .int (-(p.1.rhs.length : Int))) := read_ruleNums H 3 fun r => -(r.rhs.length : Int)

/-- the number of the fallback of a token, or 0 -/
theorem read_fallback (H : SafeNames I) (hn : I.s.nterminal ≤ I.s.nsymbol) (hf : I.s.hasFallback = true) : readArray (lines (fallbackLines I)) =
    some ((List.range I.s.nterminal).map fun i => .int (((I.s.symbols[i]?.bind Sym.fallback).map fun f => (I.s.index f : Int)).getD 0)) := by
  unfold fallbackLines
  rw [if_pos hf]
  refine read_lines _ _ _ ?_
  intro i hi t
  have hi' : i < I.s.nsymbol := by have := List.mem_range.1 hi; omega
  have hs : 42 ∉ right 10 (symbolName I i) := right_safe _ _ _ (by omega) (fun h => (H.symbols i hi' 42 h).2.2.2.1 rfl)
  unfold fallbackEntry
  cases hb : I.s.symbols[i]?.bind Sym.fallback with
  | none =>
    have e : text "    0,  /* " ++ right 10 (symbolName I i) ++ text " => nothing */" ++ 10 :: t =
        32 :: 32 :: (right 3 (num 0) ++ text ",  /* " ++ (right 10 (symbolName I i) ++ text " => nothing") ++ text " */" ++ 10 :: t) := by
      rw [show text "    0,  /* " = 32 :: 32 :: (right 3 (num 0) ++ text ",  /* ") by decide, show text " => nothing */" = text " => nothing" ++ text " */" by decide]
      simp
    dsimp only
    rw [e, read_space, read_space, read_numComment]
    · rfl
    · simp only [List.mem_append, not_or]
      exact ⟨hs, by decide⟩
  | some f =>
    have e : text "  " ++ right 3 (num (I.s.index f)) ++ text ",  /* " ++ right 10 (symbolName I i) ++ text " => " ++ f ++ text " */" ++ 10 :: t =
        32 :: 32 :: (right 3 (num (I.s.index f)) ++ text ",  /* " ++ (right 10 (symbolName I i) ++ text " => " ++ f) ++ text " */" ++ 10 :: t) := by
      simp [show text "  " = [32, 32] by decide]
    dsimp only
    rw [e, read_space, read_space, read_numComment]
    · rfl
    · simp only [List.mem_append, not_or]
      exact ⟨⟨hs, by decide⟩, fun h => (H.fallback i f hi' hb 42 h).2.2.2.1 rfl⟩

/-! ### macros -/

theorem dropWhile_blank (n : Nat) (t : List Nat) (h : t.head? ≠ some 32) : (List.replicate n 32 ++ t).dropWhile (· == 32) = t := by
  induction n with
  | zero =>
    cases t with
    | nil => rfl
    | cons c t =>
      have : c ≠ 32 := by simpa using h
      simp [this]
  | succ n ih => rw [List.replicate_succ, List.cons_append, List.dropWhile_cons_of_pos (by decide), ih]

/-- a macro: name, blanks, and a number -/
theorem readDefine_of (name v : List Nat) (n : Nat) (i : Int) (hn : 32 ∉ name) (hv : macroNumber v = some i) (hb : v.head? ≠ some 32) :
    readDefine (text "#define " ++ (name ++ 32 :: (List.replicate n 32 ++ v))) = some (name, i) := by
  unfold readDefine
  have h1 : (text "#define ").isPrefixOf (text "#define " ++ (name ++ 32 :: (List.replicate n 32 ++ v))) = true := by
    rw [List.isPrefixOf_iff_prefix]
    exact List.prefix_append _ _
  rw [if_pos h1]
  have h2 : (text "#define " ++ (name ++ 32 :: (List.replicate n 32 ++ v))).drop 8 = name ++ 32 :: (List.replicate n 32 ++ v) := by
    rw [List.drop_left' (by decide)]
  have h3 : ∀ c ∈ name, (c != 32) = true := by
    intro c hc
    have : c ≠ 32 := fun e => hn (e ▸ hc)
    simp [this]
  rw [h2, List.takeWhile_append_of_pos h3, List.dropWhile_append_of_pos h3]
  simp only [List.takeWhile_cons, List.dropWhile_cons, bne_self_eq_false, Bool.false_eq_true, if_false, beq_self_eq_true, if_true, List.append_nil]
  rw [dropWhile_blank _ _ hb, hv]
  rfl

theorem num_head (i : Int) (c : Nat) (h : c ≠ 45) (h2 : ¬ (48 ≤ c ∧ c ≤ 57)) : (num i).head? ≠ some c := fun e => num_ne i c h h2 (List.mem_of_mem_head? e)

theorem macroNumber_num (i : Int) : macroNumber (num i) = some i := by
  unfold macroNumber
  split
  · rename_i t e
    have := num_ne i 40 (by omega) (by omega)
    rw [e] at this
    simp at this
  · exact number_num i

theorem macroNumber_paren (i : Int) : macroNumber (40 :: (num i ++ [41])) = some i := by
  rw [macroNumber, if_pos (by simp), List.dropLast_concat, number_num]

end Verif.Lemon.LT
