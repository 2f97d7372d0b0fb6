import Verif.Proofs.LemonTextParts
import Verif.Spec.LemonLayout
import Verif.Proofs.LemonCodeRule
/-
Lemmas: what each part adds to the C file made by lemon.
-/
set_option autoImplicit false
namespace Verif.Lemon.LT
open Verif.Spec.LText
open Verif.Spec.GFile (text directive)
open Verif.Spec.RuleCode (num)

variable {I : LText} {u v w : LW}

/-- text is added -/
structure Adds (u : LW) (t : List Nat) (w : LW) : Prop where
  grow : ∃ x, w.code = u.code ++ x ∧ written x = t
  rest : w.rest = u.rest

theorem written_append (a b : List LPiece) : written (a ++ b) = written a ++ written b := by simp [written]

theorem Adds.refl (u : LW) : Adds u [] u := ⟨⟨[], by simp, rfl⟩, rfl⟩
theorem Adds.trans {s t : List Nat} (h1 : Adds u s v) (h2 : Adds v t w) : Adds u (s ++ t) w := by
  obtain ⟨⟨x, e1, p1⟩, r1⟩ := h1
  obtain ⟨⟨y, e2, p2⟩, r2⟩ := h2
  exact ⟨⟨x ++ y, by rw [e2, e1]; simp, by rw [written_append, p1, p2]⟩, r2.trans r1⟩
theorem Adds.of_eq {s t : List Nat} (h : Adds u s v) (e : s = t) : Adds u t v := e ▸ h

theorem adds_put (t : List Nat) : Adds u t (u.put t) := ⟨⟨[.text t], rfl, by simp [written]⟩, rfl⟩
theorem adds_bump (n : Nat) : Adds u [] (u.bump n) := ⟨⟨[], by simp [LW.bump], rfl⟩, rfl⟩
theorem adds_putBump (t : List Nat) (n : Nat) : Adds u t ((u.put t).bump n) := ((adds_put t).trans (adds_bump n)).of_eq (by simp)
theorem adds_line (t : List Nat) : Adds u (t ++ [10]) (u.line t) := adds_putBump _ _
theorem adds_selfDir : Adds u [] (u.selfDir I) := by
  unfold LW.selfDir
  split
  · exact Adds.refl u
  · exact ⟨⟨[.self (u.bump 1).lineno], rfl, rfl⟩, rfl⟩

/-- lines are added -/
def runL (l : List (List Nat)) (w : LW) : LW := l.foldl (fun w t => w.line t) w

theorem runL_append (a b : List (List Nat)) (w : LW) : runL (a ++ b) w = runL b (runL a w) := by simp [runL]
theorem runL_cons (a : List Nat) (b : List (List Nat)) (w : LW) : runL (a :: b) w = runL b (w.line a) := rfl
theorem runL_nil (w : LW) : runL [] w = w := rfl
theorem runL_ite (c : Prop) [Decidable c] (a b : List (List Nat)) (w : LW) : runL (if c then a else b) w = if c then runL a w else runL b w := by
  split <;> rfl
theorem runL_map {α : Type} (f : α → List Nat) (l : List α) (w : LW) : runL (l.map f) w = l.foldl (fun w a => w.line (f a)) w := by
  simp [runL, List.foldl_map]

theorem adds_runL (l : List (List Nat)) : Adds u (lines l) (runL l u) := by
  induction l generalizing u with
  | nil => exact Adds.refl u
  | cons t l ih => exact ((adds_line t).trans ih).of_eq (by simp [lines])

theorem text_cstr (s : String) : text s = cstr s := rfl
theorem num_nat (n : Nat) : num (n : Int) = decimal n := (decimal_num n).symm
theorem num_int (i : Int) : num i = decimalInt i := (decimalInt_eq i).symm
theorem left_pad (n : Nat) (t : List Nat) : left n t = padRight n t := rfl
theorem right_pad (n : Nat) (t : List Nat) : right n t = padLeft n t := rfl
theorem cType_typeName : ∀ p : Bool × Nat, cType p = typeName p
  | (false, 0) => rfl
  | (false, 1) => rfl
  | (false, 2) => rfl
  | (false, n + 3) => by simp [cType, typeName, text_cstr]
  | (true, 0) => rfl
  | (true, 1) => rfl
  | (true, 2) => rfl
  | (true, n + 3) => by simp [cType, typeName, text_cstr]

theorem line_decimalInt (w : LW) (s : String) (n : Nat) : w.line (cstr "#define " ++ cstr s ++ decimal n) = w.define s n := by
  unfold LW.define
  rw [← num_int, num_nat]

theorem cstr_append (a b : String) : cstr (a ++ b) = cstr a ++ cstr b := by simp [cstr]

theorem tokens_run (w : LW) : w.tokens I = runL (tokenLines I) (if I.mhflag then w.line (tokenIf I) else w.put (tokenIf I ++ [10])) := by
  unfold LW.tokens tokenLines LW.defineTokens tokenIf
  simp only [runL_append, runL_cons, runL_nil, runL_map, text_cstr, num_nat, left_pad, right_pad]
  split <;> rfl

theorem adds_tokens : Adds u (lines (tokenIf I :: tokenLines I)) (u.tokens I) := by
  rw [tokens_run]
  refine Adds.of_eq (s := (tokenIf I ++ [10]) ++ lines (tokenLines I)) (Adds.trans ?_ (adds_runL _)) rfl
  split
  · exact adds_line _
  · exact adds_put _

theorem union_run (w : LW) : w.union I = runL (unionLines I) w := by
  unfold LW.union unionLines
  simp only [runL_append, runL_cons, runL_nil, runL_map, runL_ite, text_cstr, num_nat]
  rfl

theorem extra_run (w : LW) (kind : String) (k : Kw) : w.extra I kind (I.s.args k) = runL (extraLines (arg I .name "Parse") kind (decl I k)) w := by
  rcases e : I.s.args k with _ | (_ | ⟨c, t⟩) <;>
    simp only [LW.extra, decl, e, extraLines, List.map_cons, List.map_nil, runL_append, runL_cons, runL_nil, text_cstr] <;> rfl

theorem wildcard_run (w : LW) : w.wildcard I = runL (wildcardLines I) w := by
  unfold LW.wildcard wildcardLines
  cases I.T.wildcard with
  | none => rfl
  | some i =>
    dsimp only
    rw [runL_cons, runL_nil, ← line_decimalInt, num_nat]; rfl

theorem errorSymbol_run (w : LW) : w.errorSymbol I = runL (errorLines I) w := by
  unfold LW.errorSymbol errorLines
  cases I.T.errsym with
  | none => rfl
  | some i =>
    dsimp only
    rw [runL_cons, runL_cons, runL_nil, ← line_decimalInt, num_nat, num_nat]; rfl

theorem define_eq (w : LW) (s : String) (i : Int) (s' : String) (h : "#define " ++ s = s') : w.define s i = w.line (text s' ++ num i) := by
  unfold LW.define
  rw [← cstr_append, h, num_int, text_cstr]

/-- the macros with numbers, as printed by `LW.constants` -/
theorem defines_run (w : LW) : (w.defines I).constants I = runL (defineLines I) w := by
  unfold defineLines LW.constants
  simp only [runL_append, runL_cons, runL_nil, runL_ite, ← wildcard_run, ← union_run, ← extra_run, ← errorSymbol_run]
  unfold LW.defines
  simp only [define_eq _ "YYNOCODE " _ _ rfl, define_eq _ "YYNSTATE             " _ _ rfl, define_eq _ "YYNRULE              " _ _ rfl, define_eq _ "YYNRULE_WITH_ACTION  " _ _ rfl,
    define_eq _ "YYNTOKEN             " _ _ rfl, define_eq _ "YY_MAX_SHIFT         " _ _ rfl, define_eq _ "YY_MIN_SHIFTREDUCE   " _ _ rfl,
    define_eq _ "YY_MAX_SHIFTREDUCE   " _ _ rfl, define_eq _ "YY_ERROR_ACTION      " _ _ rfl, define_eq _ "YY_ACCEPT_ACTION     " _ _ rfl,
    define_eq _ "YY_NO_ACTION         " _ _ rfl, define_eq _ "YY_MIN_REDUCE        " _ _ rfl, define_eq _ "YY_MAX_REDUCE        " _ _ rfl, text_cstr, cType_typeName]
  rfl

theorem adds_defines : Adds u (lines (defineLines I)) ((u.defines I).constants I) := by
  rw [defines_run]; exact adds_runL _

/-- rows of numbers that start in the middle of a row -/
def RowsFrom (j i : Nat) (l : List Int) (t : List Nat) : Prop :=
  if j = 0 then Rows i l t else
    ∃ r l' t', l = r ++ l' ∧ r.length ≤ 10 - j ∧ (l' ≠ [] → r.length = 10 - j) ∧ Rows (i + r.length) l' t' ∧
      t = (r.flatMap fun v => text " " ++ right 4 (num v) ++ text ",") ++ [10] ++ t'

theorem entries_rows (last : Bool) (l : List Int) : ∀ (i j : Nat) (w : LW), j < 10 →
    ∃ t, Adds w t (LW.entries last l i j w).1 ∧ RowsFrom j i l (t ++ if 0 < (LW.entries last l i j w).2 then [10] else []) := by
  induction l with
  | nil =>
    intro i j w hj
    refine ⟨[], Adds.refl _, ?_⟩
    unfold RowsFrom
    split
    · subst j; simpa [LW.entries] using Rows.nil i
    · refine ⟨[], [], [], rfl, by simp, by simp, by simpa using Rows.nil i, ?_⟩
      simp [LW.entries, Nat.pos_of_ne_zero ‹_›]
  | cons v l ih =>
    intro i j w hj
    have h0 : Adds w ((if j = 0 then text " /* " ++ right 5 (num i) ++ text " */ " else []) ++ (text " " ++ right 4 (num v) ++ text ","))
        ((if j = 0 then w.put (cstr " /* " ++ padLeft 5 (decimal i) ++ cstr " */ ") else w).put (cstr " " ++ padLeft 4 (decimalInt v) ++ cstr ",")) := by
      rw [num_nat, num_int, right_pad, right_pad]
      refine Adds.trans ?_ (adds_put _)
      split
      · exact adds_put _
      · exact Adds.refl _
    unfold LW.entries
    dsimp only
    by_cases hc : j = 9 ∨ (last = true ∧ l = [])
    · rw [if_pos hc]
      generalize (if j = 0 then w.put (cstr " /* " ++ padLeft 5 (decimal i) ++ cstr " */ ") else w).put (cstr " " ++ padLeft 4 (decimalInt v) ++ cstr ",") = w1 at h0 ⊢
      obtain ⟨t, ht, hr⟩ := ih (i + 1) 0 (w1.line []) (by omega)
      refine ⟨_, h0.trans ((adds_line []).trans ht), ?_⟩
      unfold RowsFrom at hr
      rw [if_pos (by simp)] at hr
      generalize (if 0 < (LW.entries last l (i + 1) 0 (LW.line [] w1)).2 then [10] else [] : List Nat) = e at hr ⊢
      unfold RowsFrom
      split
      · subst j
        have hl : l = [] := by simpa using (hc.resolve_left (by omega)).2
        subst hl
        have := Rows.row i [v] [] (t ++ e) (by simp) (by simp) (by simp) hr
        simpa using this
      · refine ⟨[v], l, t ++ e, rfl, ?_, ?_, hr, ?_⟩
        · simp; omega
        · intro hl
          have : j = 9 := by simpa [hl] using hc
          simp [this]
        · simp
    · rw [if_neg hc]
      generalize (if j = 0 then w.put (cstr " /* " ++ padLeft 5 (decimal i) ++ cstr " */ ") else w).put (cstr " " ++ padLeft 4 (decimalInt v) ++ cstr ",") = w1 at h0 ⊢
      obtain ⟨t, ht, hr⟩ := ih (i + 1) (j + 1) w1 (by omega)
      refine ⟨_, h0.trans ht, ?_⟩
      unfold RowsFrom at hr
      rw [if_neg (by omega)] at hr
      obtain ⟨r, l', t', e1, hle, hfull, hrows, e2⟩ := hr
      generalize (if 0 < (LW.entries last l (i + 1) (j + 1) w1).2 then [10] else [] : List Nat) = e at e2 ⊢
      unfold RowsFrom
      split
      · subst j
        have := Rows.row i (v :: r) l' t' (by simp) (by simp; omega) (by intro h; have := hfull h; simp; omega) (by simpa [Nat.add_assoc, Nat.add_comm, Nat.add_left_comm] using hrows)
        rw [e1, List.append_assoc _ t e, e2]
        simpa using this
      · refine ⟨v :: r, l', t', by rw [e1]; rfl, by simp; omega, by intro h; have := hfull h; simp; omega, by simpa [Nat.add_assoc, Nat.add_comm, Nat.add_left_comm] using hrows, ?_⟩
        rw [List.append_assoc _ t e, e2]
        simp

theorem entries_last (l : List Int) : ∀ (i j : Nat) (w : LW), j < 10 → l ≠ [] ∨ j = 0 → (LW.entries true l i j w).2 = 0 := by
  induction l with
  | nil => intro i j w _ h; simpa [LW.entries] using h
  | cons v l ih =>
    intro i j w hj _
    unfold LW.entries
    dsimp only
    split
    · exact ih _ _ _ (by omega) (.inr rfl)
    · rename_i h
      exact ih _ _ _ (by omega) (.inl (by intro e; exact h (.inr ⟨rfl, e⟩)))

theorem adds_array (type : List Nat) (name : String) (l : List Int) : ∃ t, IsArray type name l t ∧ Adds u t (u.array type (cstr name) l) := by
  obtain ⟨t, ht, hr⟩ := entries_rows true l 0 0 (u.line (cstr "static const " ++ type ++ [32] ++ cstr name ++ cstr "[] = {")) (by omega)
  rw [entries_last l 0 0 _ (by omega) (.inr rfl)] at hr
  refine ⟨_, ⟨t, by simpa [RowsFrom] using hr, rfl⟩, ?_⟩
  unfold LW.array
  dsimp only
  refine Adds.of_eq (((adds_line _).trans ht).trans (adds_line _)) ?_
  simp [text_cstr, show cstr "[] = {\n" = cstr "[] = {" ++ [10] by decide, show cstr "};\n" = cstr "};" ++ [10] by decide, show cstr " " = [32] by decide]

theorem adds_lookahead : ∃ t, IsArray (text "YYCODETYPE") "yy_lookahead" (I.T.lookahead.map Int.ofNat) t ∧ Adds u t (u.lookahead I) := by
  obtain ⟨t, ht, hr⟩ := entries_rows false (I.T.lookahead.map Int.ofNat) 0 0 (u.line (cstr "static const YYCODETYPE yy_lookahead[] = {")) (by omega)
  refine ⟨_, ⟨_, by simpa [RowsFrom] using hr, rfl⟩, ?_⟩
  unfold LW.lookahead
  dsimp only
  generalize LW.entries false (I.T.lookahead.map Int.ofNat) 0 0 (u.line (cstr "static const YYCODETYPE yy_lookahead[] = {")) = p at ht ⊢
  have h2 : Adds p.1 (if 0 < p.2 then [10] else []) (if 0 < p.2 then p.1.line [] else p.1) := by
    split
    · exact adds_line []
    · exact Adds.refl _
  refine Adds.of_eq ((((adds_line _).trans ht).trans h2).trans (adds_line _)) ?_
  simp only [text_cstr, show cstr "[] = {\n" = cstr "[] = {" ++ [10] by decide, show cstr "};\n" = cstr "};" ++ [10] by decide,
    show cstr "static const YYCODETYPE yy_lookahead[] = {" = cstr "static const " ++ (cstr "YYCODETYPE" ++ (cstr " " ++ (cstr "yy_lookahead" ++ cstr "[] = {"))) by decide, List.append_assoc]

theorem adds_tables : ∃ t, IsTables I t ∧ Adds u t (u.tables I) := by
  unfold LW.tables
  dsimp only
  have e : ∀ (w : LW) (a b c : List Nat), ((w.line a).line b).line c = runL [a, b, c] w := fun _ _ _ _ => rfl
  have e1 : ∀ (w : LW) (a : List Nat), w.line a = runL [a] w := fun _ _ => rfl
  simp only [e]
  rw [e1]
  obtain ⟨a1, i1, h1⟩ := adds_array (u := runL [cstr "#define YY_ACTTAB_COUNT (" ++ decimal I.T.action.length ++ cstr ")"] u) (cstr "YYACTIONTYPE") "yy_action" (I.T.action.map Int.ofNat)
  have h1' := (adds_runL _).trans h1
  generalize (runL [cstr "#define YY_ACTTAB_COUNT (" ++ decimal I.T.action.length ++ cstr ")"] u).array _ _ _ = w1 at h1' ⊢
  obtain ⟨a2, i2, h2⟩ := adds_lookahead (I := I) (u := w1)
  have h2' := h1'.trans h2
  generalize w1.lookahead I = w2 at h2' ⊢
  generalize hL : [cstr "#define YY_SHIFT_COUNT    (" ++ decimalInt ((I.T.shiftOfst.length : Int) - 1) ++ cstr ")", _, _] = L3
  obtain ⟨a3, i3, h3⟩ := adds_array (u := runL L3 w2) (typeName I.T.shiftType) "yy_shift_ofst" I.T.shiftOfst
  have h3' := (h2'.trans (adds_runL _)).trans h3
  generalize (runL L3 w2).array _ _ _ = w3 at h3' ⊢
  generalize hM : [cstr "#define YY_REDUCE_COUNT (" ++ decimalInt ((I.T.reduceOfst.length : Int) - 1) ++ cstr ")", _, _] = L4
  obtain ⟨a4, i4, h4⟩ := adds_array (u := runL L4 w3) (typeName I.T.reduceType) "yy_reduce_ofst" I.T.reduceOfst
  have h4' := (h3'.trans (adds_runL _)).trans h4
  generalize (runL L4 w3).array _ _ _ = w4 at h4' ⊢
  obtain ⟨a5, i5, h5⟩ := adds_array (u := w4) (cstr "YYACTIONTYPE") "yy_default" (I.T.dflt.map Int.ofNat)
  refine ⟨_, ⟨a1, a2, a3, a4, a5, i1, i2, by rw [cType_typeName]; exact i3, by rw [cType_typeName]; exact i4, i5, rfl⟩, (h4'.trans h5).of_eq ?_⟩
  rw [← hL, ← hM, num_nat]
  simp only [num_int, text_cstr]

theorem fallbackEntry_eq (i : Nat) : fallbackEntry I i = I.fallbackLine i := by
  unfold fallbackEntry LText.fallbackLine
  cases I.s.symbols[i]?.bind Sym.fallback with
  | none => rfl
  | some f => dsimp only; rw [num_nat]; rfl

theorem adds_fallbacks : Adds u (lines (fallbackLines I)) (u.fallbacks I) := by
  have : u.fallbacks I = runL (fallbackLines I) u := by
    unfold LW.fallbacks fallbackLines
    simp only [runL_ite, runL_map, runL_nil, fallbackEntry_eq]
  rw [this]; exact adds_runL _

theorem adds_symNames : Adds u (lines (symbolLines I)) (u.symNames I) := by
  have : u.symNames I = runL (symbolLines I) u := by
    unfold LW.symNames symbolLines
    simp only [runL_map, num_nat, text_cstr, right_pad]
    rfl
  rw [this]; exact adds_runL _

theorem adds_ruleNames : Adds u (lines (ruleLines I)) (u.ruleNames I) := by
  have : u.ruleNames I = runL (ruleLines I) u := by
    unfold LW.ruleNames ruleLines
    simp only [runL_map, num_nat, text_cstr, right_pad]
  rw [this]; exact adds_runL _

theorem adds_ruleLhs : Adds u (lines (lhsLines I)) (u.ruleLhs I) := by
  have : u.ruleLhs I = runL (lhsLines I) u := by
    unfold LW.ruleLhs lhsLines
    simp only [runL_map, num_nat, text_cstr, right_pad]
  rw [this]; exact adds_runL _

theorem adds_ruleNRhs : Adds u (lines (lenLines I)) (u.ruleNRhs I) := by
  have : u.ruleNRhs I = runL (lenLines I) u := by
    unfold LW.ruleNRhs lenLines
    simp only [runL_map, num_nat, text_cstr, right_pad]
    simp only [num_int]
  rw [this]; exact adds_runL _

theorem adds_fileDir (l : Option Nat) : Adds u (fileLine I l) (u.fileDir I l) := by
  unfold fileLine LW.fileDir
  cases l with
  | none => exact Adds.refl _
  | some l =>
    dsimp only
    split
    · exact Adds.refl _
    · rw [← lineMacro_directive]; exact adds_putBump _ _

theorem adds_destructor (p : DSym) : Adds u (destructorText I p) (u.destructor I p) := by
  unfold destructorText LW.destructor
  cases I.s.destructorCode p with
  | none => exact Adds.refl _
  | some c =>
    obtain ⟨cp, line⟩ := c
    dsimp only
    refine Adds.of_eq ((((((adds_line (cstr "{")).trans (adds_fileDir (I := I) line)).trans (adds_putBump (dollars p.dtnum cp) (newlines cp))).trans (adds_line [])).trans (adds_selfDir (I := I))).trans (adds_line (cstr "}"))) ?_
    simp [text_cstr, show cstr "{\n" = cstr "{" ++ [10] by decide, show cstr "\n}\n" = 10 :: (cstr "}" ++ [10]) by decide]

theorem adds_foldl {α : Type} {f : α → List Nat} {g : LW → α → LW} (h : ∀ a w, Adds w (f a) (g w a)) (l : List α) : Adds u (l.flatMap f) (l.foldl g u) := by
  induction l generalizing u with
  | nil => exact Adds.refl _
  | cons a l ih => exact ((h a u).trans ih).of_eq (by simp)

theorem adds_destructCase (c : DCase) : Adds u (destructorCase I c) (u.destructCase I c) := by
  unfold destructorCase LW.destructCase
  dsimp only
  have h1 : Adds u c.comment (if c.comment = [] then u else (u.put c.comment).bump 1) := by
    split
    · rename_i h; rw [h]; exact Adds.refl _
    · exact adds_putBump _ _
  have h2 := h1.trans (adds_foldl (f := fun p : DSym => text "    case " ++ num p.index ++ text ": /* " ++ p.sym.name ++ text " */\n")
    (g := fun w p => (w.put (caseLine p)).bump 1) (fun p w => (adds_putBump _ 1).of_eq (by rw [num_nat]; rfl)) c.syms)
  cases hb : c.body with
  | none => exact ((h2.trans (adds_putBump breakLine 1)).of_eq (by simp; rfl))
  | some p => exact (((h2.trans (adds_destructor (I := I) p)).trans (adds_putBump breakLine 1)).of_eq (by simp; rfl))

theorem adds_destructors : Adds u (destructorsText I) (u.destructors I) := adds_foldl (fun c _ => adds_destructCase c) _

theorem adds_ite {c : Prop} [Decidable c] {a b : LW} {s t : List Nat} (h1 : c → Adds u s a) (h2 : ¬ c → Adds u t b) : Adds u (if c then s else t) (if c then a else b) := by
  split
  · exact h1 ‹_›
  · exact h2 ‹_›

theorem adds_action (t : Trans) : Adds u (actionText I t) (u.action I t) := by
  unfold actionText LW.action
  dsimp only
  have h1 : Adds u (if t.pre = [] then [] else text "{" ++ t.pre) (if t.pre = [] then u else (u.put (123 :: t.pre)).bump (newlines t.pre)) :=
    adds_ite (fun _ => Adds.refl _) (fun _ => (adds_putBump _ _).of_eq (by rfl))
  generalize (if t.pre = [] then u else (u.put (123 :: t.pre)).bump (newlines t.pre)) = w1 at h1 ⊢
  have h2 := (((((h1.trans (adds_fileDir (I := I) (some t.line))).trans (adds_putBump (123 :: t.code) (newlines t.code))).trans (adds_line (cstr "}"))).trans (adds_selfDir (I := I))).trans (adds_putBump t.suffix (newlines t.suffix)))
  generalize (LW.put t.suffix _).bump _ = w2 at h2 ⊢
  have h3 : Adds w2 (if t.pre = [] then [] else text "}\n") (if t.pre = [] then w2 else w2.line (cstr "}")) := adds_ite (fun _ => Adds.refl _) (fun _ => (adds_line _).of_eq (by rfl))
  refine (h2.trans h3).of_eq ?_
  simp [show text "{" = [123] by decide, show text "}\n" = [125, 10] by decide, show cstr "}" = [125] by decide]

theorem adds_actionCase (c : List Nat × Trans) : Adds u (actionGroup I c) (u.actionCase I c) := by
  unfold actionGroup LW.actionCase
  dsimp only
  obtain ⟨l, t⟩ := c
  have h1 : Adds u (lines ((l.take 1).map fun i : Nat => text "      case " ++ num i ++ text ": /* " ++ ruleAt I i ++ text " */") ++
      lines ((l.drop 1).map fun i : Nat => text "      case " ++ num i ++ text ": /* " ++ ruleAt I i ++ text " */ yytestcase(yyruleno==" ++ num i ++ text ");"))
      (match l with
        | [] => u
        | i :: l => l.foldl (fun w j => w.line (cstr "      case " ++ decimal j ++ cstr ": /* " ++ I.ruleTextAt j ++ cstr " */ yytestcase(yyruleno==" ++ decimal j ++ cstr ");"))
          (u.line (cstr "      case " ++ decimal i ++ cstr ": /* " ++ I.ruleTextAt i ++ cstr " */"))) := by
    cases l with
    | nil => exact Adds.refl _
    | cons i l =>
      dsimp only [List.take, List.drop]
      simp only [num_nat, text_cstr]
      refine Adds.trans ((adds_line (cstr "      case " ++ decimal i ++ cstr ": /* " ++ I.ruleTextAt i ++ cstr " */")).of_eq ?_) ?_
      · simp [lines, ruleAt, LText.ruleTextAt]
      · rw [← runL_map]; exact adds_runL _
  refine ((h1.trans (adds_action (I := I) t)).trans (adds_line (cstr "        break;"))).of_eq ?_
  simp [text_cstr, show cstr "        break;\n" = cstr "        break;" ++ [10] by decide]

theorem defaultEntry_eq (p : (RRule × Trans × Bool) × Nat) : defaultEntry I p = I.defaultLine p.2 p.1 := by
  unfold defaultEntry LText.defaultLine
  simp only [num_nat, text_cstr]

theorem adds_default (L : List ((RRule × Trans × Bool) × Nat)) : Adds u (lines ((L.filter fun p => p.2 ∉ I.cases.flatMap Prod.fst).map (defaultEntry I)))
    (L.foldl (fun w p => if p.2 ∈ I.cases.flatMap Prod.fst then w else w.line (I.defaultLine p.2 p.1)) u) := by
  induction L generalizing u with
  | nil => exact Adds.refl _
  | cons p L ih =>
    rw [List.foldl_cons, List.filter_cons]
    by_cases h : p.2 ∈ I.cases.flatMap Prod.fst
    · rw [if_pos h, if_neg (by simpa using h)]
      exact ih
    · rw [if_neg h, if_pos (by simpa using h)]
      exact ((adds_line _).trans ih).of_eq (by simp [lines, defaultEntry_eq])

theorem adds_actions : Adds u (actionsText I) (u.actions I) := by
  unfold actionsText LW.actions
  dsimp only
  have h1 : Adds u (lines (if I.rules.any fun p => p.2.1.lhsLocal then [text "        YYMINORTYPE yylhsminor;"] else []))
      (if I.rules.any fun p => p.2.1.lhsLocal then u.line (cstr "        YYMINORTYPE yylhsminor;") else u) := by
    split
    · exact (adds_line _).of_eq (by simp [lines, text_cstr])
    · exact Adds.refl _
  generalize (if I.rules.any fun p => p.2.1.lhsLocal then u.line (cstr "        YYMINORTYPE yylhsminor;") else u) = w1 at h1 ⊢
  have h2 := (h1.trans (adds_foldl (u := w1) (f := actionGroup I) (g := fun w c => w.actionCase I c) (fun c _ => adds_actionCase c) I.cases)).trans (adds_line (cstr "      default:"))
  generalize (LW.line (cstr "      default:") _) = w2 at h2 ⊢
  have h3 : Adds w2 (lines ((I.rules.zipIdx.filter fun p => p.2 ∉ I.cases.flatMap Prod.fst).map (defaultEntry I)))
      (I.rules.zipIdx.foldl (fun w p => if p.2 ∈ I.cases.flatMap Prod.fst then w else w.line (I.defaultLine p.2 p.1)) w2) := by
    exact adds_default _
  refine ((h2.trans h3).trans (adds_line _)).of_eq ?_
  simp [text_cstr, show cstr "        break;\n" = cstr "        break;" ++ [10] by decide, show cstr "      default:\n" = cstr "      default:" ++ [10] by decide]

theorem adds_oob {b : Bool} : Adds u [] { u with oob := b } := ⟨⟨[], by simp, rfl⟩, rfl⟩

theorem adds_print (prev : Option Nat) (hp : prev = none ∨ prev = some 10) (c : List Nat) : ∃ t, Verbatim c t ∧ Adds u t (u.print I prev (some c)) := by
  unfold LW.print
  dsimp only
  have h1 : Adds u c { (u.put c).bump (newlines c) with oob := ((u.put c).bump (newlines c)).oob || (c.isEmpty && prev.isNone) } :=
    ((adds_putBump c _).trans adds_oob).of_eq (by simp)
  generalize { (u.put c).bump (newlines c) with oob := ((u.put c).bump (newlines c)).oob || (c.isEmpty && prev.isNone) } = w1 at h1 ⊢
  split
  · rename_i h
    refine ⟨c, ?_, (h1.trans adds_selfDir).of_eq (by simp)⟩
    rcases List.eq_nil_or_concat c with rfl | ⟨c, x, rfl⟩
    · exact .inl ⟨rfl, rfl⟩
    · exact .inr (.inl ⟨rfl, by simpa using h⟩)
  · rename_i h
    refine ⟨c ++ [10], ?_, ((h1.trans (adds_line [])).trans adds_selfDir).of_eq (by simp)⟩
    refine .inr (.inr ⟨rfl, ?_⟩)
    intro e
    rw [e] at h
    simp at h

theorem adds_printArg (k : Kw) : ∃ t, VerbatimArg I k t ∧ Adds u t (u.print I none (I.s.args k)) := by
  unfold VerbatimArg
  cases I.s.args k with
  | none => exact ⟨[], rfl, Adds.refl _⟩
  | some c => exact adds_print none (.inl rfl) c

/-- the section of the template that is read next, as it is written -/
def secAt (I : LText) (ls : List (List Nat)) (i : Nat) : List Nat := ((ls.splitOnP isMark).getD i []).flatMap (renameLine (I.s.args .name))

theorem splitOnP_cons_mark {l : List Nat} {ls : List (List Nat)} (h : isMark l = true) : (l :: ls).splitOnP isMark = [] :: ls.splitOnP isMark := by
  rw [List.splitOnP_cons, if_pos h]

theorem splitOnP_cons_line {l : List Nat} {ls : List (List Nat)} (h : ¬ isMark l = true) : (l :: ls).splitOnP isMark = (ls.splitOnP isMark).modifyHead (l :: ·) := by
  rw [List.splitOnP_cons, if_neg h]

theorem getD_modifyHead (f : List (List Nat) → List (List Nat)) (L : List (List (List Nat))) (i : Nat) : (L.modifyHead f).getD (i + 1) [] = L.getD (i + 1) [] := by
  cases L <;> simp

theorem xferGo_spec (name : Option (List Nat)) (ls : List (List Nat)) : ∀ (w : LW),
    (∃ x, (LW.xferGo name ls w).code = w.code ++ x ∧ written x = ((ls.splitOnP isMark).getD 0 []).flatMap (renameLine name)) ∧
    ∀ i, ((LW.xferGo name ls w).rest.splitOnP isMark).getD i [] = (ls.splitOnP isMark).getD (i + 1) [] := by
  induction ls with
  | nil =>
    intro w
    refine ⟨⟨[], by simp [LW.xferGo], by simp [written]⟩, ?_⟩
    intro i
    cases i <;> simp [LW.xferGo]
  | cons l ls ih =>
    intro w
    unfold LW.xferGo
    by_cases h : isMark l = true
    · rw [if_pos h, splitOnP_cons_mark h]
      exact ⟨⟨[], by simp, by simp [written]⟩, fun i => by simp⟩
    · rw [if_neg h, splitOnP_cons_line h]
      obtain ⟨⟨x, e1, e2⟩, hr⟩ := ih ((w.put (renameLine name l)).bump 1)
      refine ⟨⟨.text (renameLine name l) :: x, by rw [e1]; simp [LW.put, LW.bump], ?_⟩, ?_⟩
      · have hne := List.splitOnP_ne_nil isMark ls
        rcases hs : ls.splitOnP isMark with _ | ⟨a, L⟩
        · exact absurd hs hne
        · rw [hs] at e2
          simp only [List.modifyHead, List.getD_cons_zero, List.flatMap_cons] at e2 ⊢
          rw [← e2]
          simp [written]
      · intro i
        rw [hr i, getD_modifyHead]

theorem skipGo_rest (ls : List (List Nat)) : ∀ (w : LW), (LW.skipGo ls w).code = w.code ∧
    ∀ i, ((LW.skipGo ls w).rest.splitOnP isMark).getD i [] = (ls.splitOnP isMark).getD (i + 1) [] := by
  induction ls with
  | nil =>
    intro w
    refine ⟨rfl, ?_⟩
    intro i
    cases i <;> simp [LW.skipGo]
  | cons l ls ih =>
    intro w
    unfold LW.skipGo
    by_cases h : isMark l = true
    · rw [if_pos h, splitOnP_cons_mark h]
      exact ⟨rfl, fun i => by simp⟩
    · rw [if_neg h, splitOnP_cons_line h]
      obtain ⟨e1, hr⟩ := ih (w.bump 1)
      exact ⟨e1, fun i => by rw [hr i, getD_modifyHead]⟩

/-- text is added, and sections of the template are read -/
structure Reads (I : LText) (ls : List (List Nat)) (n : Nat) (u : LW) (t : List Nat) (w : LW) : Prop where
  grow : ∃ x, w.code = u.code ++ x ∧ written x = t
  secs : ∀ i, (w.rest.splitOnP isMark).getD i [] = (ls.splitOnP isMark).getD (n + i) []

theorem Reads.adds {ls : List (List Nat)} {n : Nat} {s t : List Nat} (h1 : Reads I ls n u s v) (h2 : Adds v t w) : Reads I ls n u (s ++ t) w := by
  obtain ⟨⟨x, e1, p1⟩, r1⟩ := h1
  obtain ⟨⟨y, e2, p2⟩, r2⟩ := h2
  exact ⟨⟨x ++ y, by rw [e2, e1]; simp, by rw [written_append, p1, p2]⟩, fun i => by rw [r2]; exact r1 i⟩

theorem Reads.xfer {ls : List (List Nat)} {n : Nat} {s : List Nat} (h : Reads I ls n u s v) : Reads I ls (n + 1) u (s ++ secAt I ls n) (v.xfer I) := by
  obtain ⟨⟨x, e1, p1⟩, r1⟩ := h
  obtain ⟨⟨y, e2, p2⟩, r2⟩ := xferGo_spec (I.s.args .name) v.rest v
  refine ⟨⟨x ++ y, by rw [LW.xfer, e2, e1]; simp, ?_⟩, ?_⟩
  · rw [written_append, p1, p2, r1]
    rfl
  · intro i
    rw [LW.xfer, r2, r1]
    congr 1
    omega

theorem Reads.skip {ls : List (List Nat)} {n : Nat} {s : List Nat} (h : Reads I ls n u s v) : Reads I ls (n + 1) u s v.skip := by
  obtain ⟨⟨x, e1, p1⟩, r1⟩ := h
  obtain ⟨e2, r2⟩ := skipGo_rest v.rest v
  refine ⟨⟨x, by rw [LW.skip, e2, e1], p1⟩, ?_⟩
  intro i
  rw [LW.skip, r2, r1]
  congr 1
  omega

end Verif.Lemon.LT
