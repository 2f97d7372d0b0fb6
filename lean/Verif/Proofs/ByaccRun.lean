import Verif.Proofs.ByaccActions
import Verif.Spec.ByaccFile
import Verif.Byacc.Front
/-
Helper definitions and lemmas: what the reader does, in terms of the parts of the file.  Declarations.
-/
set_option autoImplicit false
namespace Verif.Byacc.Rd
open Spec.YText

/-! Skipping -/

theorem skips_stop {t u : List Nat} (h : Skips t u) : Stops u := by
  induction h with
  | here _ h => exact h
  | blank _ _ _ _ _ ih => exact ih
  | block _ _ _ _ _ ih => exact ih
  | line _ _ _ _ _ ih => exact ih
  | lineEnd => exact ⟨notNext_nil, (by rintro ⟨_, h⟩; cases h), (by rintro ⟨_, h⟩; cases h)⟩

theorem skips_again {t u : List Nat} (h : Skips t u) : Skips u u := .here u (skips_stop h)

theorem skips_unique {t u u' : List Nat} (h : Skips t u) (h' : Skips t u') : u = u' := by
  rw [← nextc_iff] at h h'
  rw [h] at h'; exact Except.ok.inj h'

theorem litBody_length {q : Nat} {s t u : List Nat} (h : LitBody q s t u) : u.length < t.length := by
  induction h <;> simp at * <;> omega

theorem symAt_length {x : Sym} {t u : List Nat} (h : SymAt x t u) : u.length < t.length := by
  cases x with
  | name n => exact nameAt_length h.1
  | lit s =>
    obtain ⟨q, r, hq, rfl, h⟩ := h
    have := litBody_length h
    simp; omega

theorem symStart_notEnd {t : List Nat} (h : SymStart t) : ¬ AtEnd t := by
  obtain ⟨c, u, rfl, h⟩ := h
  rintro (h' | ⟨v, h'⟩)
  · cases h'
  · cases h'
    unfold NameFirst Letter at h; omega

/-! Declarations -/

/-- a symbol named in a declaration of tokens -/
def runItem (a : Assoc) (tag : Option (List Nat)) (s : DSt) (y : Sym × Option Nat) : Option DSt :=
  if s.goal == some (useSym s.syms y.1).1 then none
  else
    let s1 := { s with syms := (useSym s.syms y.1).2.modify (useSym s.syms y.1).1 (declSym a s.prec tag) }
    some (match y.2 with
      | none => s1
      | some n => { s1 with syms := s1.syms.modify (useSym s.syms y.1).1 fun b => { b with value := n } })

def runItems (a : Assoc) (tag : Option (List Nat)) : DSt → List (Sym × Option Nat) → Option DSt
  | s, [] => some s
  | s, y :: ys => (runItem a tag s y).bind fun s => runItems a tag s ys

/-- the symbols are expected where white space has been skipped -/
theorem itemsAt_skips (items : List (Sym × Option Nat)) (t z : List Nat) : ItemsAt items t z ↔ ∃ u, Skips t u ∧ ¬ AtEnd u ∧ ItemsAt items u z := by
  constructor
  · intro h
    cases h with
    | nil _ _ h1 h2 h3 => exact ⟨z, h1, h2, .nil _ _ (skips_again h1) h2 h3⟩
    | sym x xs _ u v w _ h1 h2 h3 h4 h5 => exact ⟨u, h1, symStart_notEnd (SymAt.start h2), .sym x xs u u v w z (skips_again h1) h2 h3 h4 h5⟩
    | num x n xs _ u v w y _ h1 h2 h3 h4 h5 h6 => exact ⟨u, h1, symStart_notEnd (SymAt.start h2), .num x n xs u u v w y z (skips_again h1) h2 h3 h4 h5 h6⟩
  · rintro ⟨u, h0, -, h⟩
    cases h with
    | nil _ _ h1 h2 h3 => cases skips_unique (skips_again h0) h1; exact .nil _ _ h0 h2 h3
    | sym x xs _ u' v w _ h1 h2 h3 h4 h5 => cases skips_unique (skips_again h0) h1; exact .sym x xs t u v w z h0 h2 h3 h4 h5
    | num x n xs _ u' v w y _ h1 h2 h3 h4 h5 h6 => cases skips_unique (skips_again h0) h1; exact .num x n xs t u v w y z h0 h2 h3 h4 h5 h6

theorem digit_peek (t : List Nat) : (peek t).any isDigit = true ↔ ∃ c u, t = c :: u ∧ Digit c :=
  peek_any t isDigit Digit isDigit_iff (by unfold Digit; omega) (by unfold Digit; omega) (by unfold Digit; omega)

theorem tokLoop_iff (a : Assoc) (tag : Option (List Nat)) (k : Nat) (s : DSt) (t : List Nat) (s' : DSt) (z : List Nat) (hk : t.length < k)
    (h0 : Skips t t) (he : ¬ AtEnd t) :
    tokLoop a tag k s t = .ok (s', z) ↔ ∃ items, ItemsAt items t z ∧ runItems a tag s items = some s' := by
  induction k generalizing s t with
  | zero => omega
  | succ k ih =>
    rw [tokLoop, bind_ok]
    constructor
    · rintro ⟨y, h1, h2⟩
      cases y with
      | none =>
        cases h2
        exact ⟨[], .nil _ _ h0 he ((getSym_none _ _).1 h1), rfl⟩
      | some y =>
        obtain ⟨i, syms, u⟩ := y
        obtain ⟨x, h3, h4⟩ := (getSym_some _ _ _ _ _).1 h1
        simp only at h2
        split at h2
        · cases h2
        rename_i hg
        rw [bind_ok] at h2
        obtain ⟨v, h5, h6⟩ := h2
        obtain ⟨h7, h8⟩ := (nextTok_iff _ _).1 h5
        have l1 := symAt_length h3
        have l2 := skips_length h7
        have hg' : (s.goal == some (useSym s.syms x).1) = false := by rw [h4]; simpa using hg
        split at h6
        · rename_i hd
          have hd := (digit_peek v).1 hd
          rw [bind_ok] at h6
          obtain ⟨⟨n, w⟩, h9, h10⟩ := h6
          rw [bind_ok] at h10
          obtain ⟨w', h11, h12⟩ := h10
          obtain ⟨h13, h14⟩ := (nextTok_iff _ _).1 h11
          obtain ⟨h15, h16⟩ := (getNumber_iff _ _ _ hd).1 h9
          have l3 := numberAt_length h15
          have l4 := skips_length h13
          simp only at l4
          obtain ⟨items, h17, h18⟩ := (ih _ w' (by omega) (skips_again h13) h14).1 h12
          refine ⟨(x, some n) :: items, .num x n items t t u v w z h0 h3 h7 h15 h16 ((itemsAt_skips _ _ _).2 ⟨w', h13, h14, h17⟩), ?_⟩
          rw [runItems, runItem, hg']
          simp only [Bool.false_eq_true, if_false, Option.bind_some]
          rw [h4]; exact h18
        · rename_i hd
          rw [digit_peek] at hd
          obtain ⟨items, h17, h18⟩ := (ih _ v (by omega) (skips_again h7) h8).1 h6
          refine ⟨(x, none) :: items, .sym x items t t u v z h0 h3 h7 (fun c w h h' => hd ⟨c, w, h, h'⟩) h17, ?_⟩
          rw [runItems, runItem, hg']
          simp only [Bool.false_eq_true, if_false, Option.bind_some]
          rw [h4]; exact h18
    · rintro ⟨items, h1, h2⟩
      cases h1 with
      | nil _ _ h3 h4 h5 =>
        cases skips_unique h0 h3
        cases h2
        exact ⟨none, (getSym_none _ _).2 h5, rfl⟩
      | sym x xs _ u v w _ h3 h4 h5 h6 h7 =>
        cases skips_unique h0 h3
        refine ⟨some ((useSym s.syms x).1, (useSym s.syms x).2, v), (getSym_some _ _ _ _ _).2 ⟨x, h4, rfl⟩, ?_⟩
        rw [runItems, runItem] at h2
        simp only at h2 ⊢
        obtain ⟨w', h8, h9, h7'⟩ := (itemsAt_skips _ _ _).1 h7
        cases skips_unique (skips_again h5) h8
        split at h2
        · cases h2
        rename_i hg
        rw [if_neg hg, bind_ok]
        refine ⟨w, (nextTok_iff _ _).2 ⟨h5, h9⟩, ?_⟩
        have hd : ¬ (peek w).any isDigit = true := by rw [digit_peek]; rintro ⟨c, r, h, h'⟩; exact h6 c r h h'
        rw [if_neg hd]
        have l1 := symAt_length h4
        have l2 := skips_length h5
        exact (ih _ w (by omega) (skips_again h5) h9).2 ⟨xs, h7, h2⟩
      | num x n xs _ u v w y _ h3 h4 h5 h6 h7 h8 =>
        cases skips_unique h0 h3
        refine ⟨some ((useSym s.syms x).1, (useSym s.syms x).2, v), (getSym_some _ _ _ _ _).2 ⟨x, h4, rfl⟩, ?_⟩
        rw [runItems, runItem] at h2
        simp only at h2 ⊢
        obtain ⟨w', h9, h10, h8'⟩ := (itemsAt_skips _ _ _).1 h8
        have hf := NumberAt.first h6
        split at h2
        · cases h2
        rename_i hg
        rw [if_neg hg, bind_ok]
        refine ⟨w, (nextTok_iff _ _).2 ⟨h5, ?_⟩, ?_⟩
        · obtain ⟨c, r, rfl, hc⟩ := hf
          rintro (h | ⟨_, h⟩)
          · cases h
          · cases h; unfold Digit at hc; omega
        rw [if_pos ((digit_peek w).2 hf), bind_ok]
        refine ⟨(n, y), (getNumber_iff _ _ _ hf).2 ⟨h6, h7⟩, ?_⟩
        rw [bind_ok]
        refine ⟨w', (nextTok_iff _ _).2 ⟨h9, h10⟩, ?_⟩
        have l1 := symAt_length h4
        have l2 := skips_length h5
        have l3 := numberAt_length h6
        have l4 := skips_length h9
        exact (ih _ w' (by omega) (skips_again h9) h10).2 ⟨xs, h8', h2⟩

/-- the level and the note that there are tags -/
def tokStart (a : Assoc) (tag : Option (List Nat)) (s : DSt) : DSt :=
  { s with prec := if a ≠ .TOKEN then s.prec + 1 else s.prec, haveTags := s.haveTags || tag.isSome }

theorem lt_peek (t : List Nat) : (peek t == some 60) = true ↔ ∃ u, t = 60 :: u := by
  rw [beq_iff_eq, peek_some t 60 (by decide)]
  constructor
  · rintro ⟨-, -, h⟩; exact h
  · intro h; exact ⟨by decide, by decide, h⟩

theorem declTokens_iff (a : Assoc) (s : DSt) (t : List Nat) (s' : DSt) (z : List Nat) :
    declTokens a s t = .ok (s', z) ↔ ∃ tag items, TaggedAt ItemsAt tag items t z ∧ runItems a tag (tokStart a tag s) items = some s' := by
  unfold declTokens
  simp only [bind_ok]
  constructor
  · rintro ⟨u, h1, h2⟩
    obtain ⟨h3, h4⟩ := (nextTok_iff _ _).1 h1
    split at h2
    · rename_i hc
      have hc := (lt_peek u).1 hc
      rw [bind_ok] at h2
      obtain ⟨⟨tag, v⟩, h5, h6⟩ := h2
      rw [bind_ok] at h6
      obtain ⟨v', h7, h8⟩ := h6
      have h5 := (getTag_iff _ _ _ hc).1 h5
      obtain ⟨h9, h10⟩ := (nextTok_iff _ _).1 h7
      obtain ⟨items, h11, h12⟩ := (tokLoop_iff a _ _ _ v' s' z (by omega) (skips_again h9) h10).1 h8
      refine ⟨some tag, items, ⟨u, h3, h4, .inr ⟨tag, v, rfl, h5, (itemsAt_skips _ _ _).2 ⟨v', h9, h10, h11⟩⟩⟩, ?_⟩
      rw [← h12, tokStart]
      split <;> simp
    · rename_i hc
      rw [lt_peek] at hc
      obtain ⟨items, h11, h12⟩ := (tokLoop_iff a _ _ _ u s' z (by omega) (skips_again h3) h4).1 h2
      refine ⟨none, items, ⟨u, h3, h4, .inl ⟨rfl, ?_, h11⟩⟩, ?_⟩
      · rintro c r rfl rfl; exact hc ⟨r, rfl⟩
      rw [← h12, tokStart]
      split <;> simp
  · rintro ⟨tag, items, ⟨u, h1, h2, h3⟩, h4⟩
    refine ⟨u, (nextTok_iff _ _).2 ⟨h1, h2⟩, ?_⟩
    rcases h3 with ⟨rfl, h5, h6⟩ | ⟨g, v, rfl, h5, h6⟩
    · rw [if_neg (by rw [lt_peek]; rintro ⟨r, rfl⟩; exact h5 60 r rfl rfl)]
      refine (tokLoop_iff a _ _ _ u s' z (by omega) (skips_again h1) h2).2 ⟨items, h6, ?_⟩
      rw [← h4, tokStart]
      split <;> simp
    · have hc := TagAt.head h5
      rw [if_pos ((lt_peek u).2 hc), bind_ok]
      refine ⟨(g, v), (getTag_iff _ _ _ hc).2 h5, ?_⟩
      obtain ⟨v', h7, h8, h9⟩ := (itemsAt_skips _ _ _).1 h6
      rw [bind_ok]
      refine ⟨v', (nextTok_iff _ _).2 ⟨h7, h8⟩, ?_⟩
      refine (tokLoop_iff a _ _ _ v' s' z (by omega) (skips_again h7) h8).2 ⟨items, h9, ?_⟩
      rw [← h4, tokStart]
      split <;> simp

/-! Types -/

def runType (tag : Option (List Nat)) (s : DSt) (x : Sym) : DSt :=
  { s with syms := (useSym s.syms x).2.modify (useSym s.syms x).1 fun b => { b with tag := if tag.isSome then tag else b.tag } }

def runTypes (tag : Option (List Nat)) (s : DSt) (xs : List Sym) : DSt := xs.foldl (runType tag) s

theorem name_peek (t : List Nat) : (peek t).any nameStart = true ↔ ∃ c u, t = c :: u ∧ NameFirst c :=
  peek_any t nameStart NameFirst nameStart_iff (by unfold NameFirst Letter; omega) (by unfold NameFirst Letter; omega) (by unfold NameFirst Letter; omega)

theorem symAt_name_first {x : Sym} {t u : List Nat} (h : SymAt x t u) : (∃ n, x = .name n) ↔ ∃ c r, t = c :: r ∧ NameFirst c := by
  cases x with
  | name n => exact iff_of_true ⟨n, rfl⟩ (NameAt.first h.1)
  | lit s =>
    refine iff_of_false (fun ⟨n, h⟩ => by cases h) ?_
    obtain ⟨q, r, hq, rfl, -⟩ := h
    rintro ⟨c, r', h1, h2⟩
    cases h1
    unfold NameFirst Letter at h2; omega

theorem paren_peek (t : List Nat) : (peek t == some 40) = true ↔ ∃ u, t = 40 :: u := by
  rw [beq_iff_eq, peek_some t 40 (by decide)]
  constructor
  · rintro ⟨-, -, h⟩; exact h
  · intro h; exact ⟨by decide, by decide, h⟩

theorem colon_peek (t : List Nat) : (peek t == some 58) = true ↔ ∃ u, t = 58 :: u := by
  rw [beq_iff_eq, peek_some t 58 (by decide)]
  constructor
  · rintro ⟨-, -, h⟩; exact h
  · intro h; exact ⟨by decide, by decide, h⟩

theorem namesAt_skips (xs : List Sym) (t z : List Nat) : NamesAt xs t z ↔ ∃ u, Skips t u ∧ NamesAt xs u z := by
  constructor
  · intro h
    cases h with
    | nil _ _ h1 h2 h3 => exact ⟨z, h1, .nil _ _ (skips_again h1) h2 h3⟩
    | cons x xs _ u v w _ h1 h2 h3 h4 h5 => exact ⟨u, h1, .cons x xs u u v w z (skips_again h1) h2 h3 h4 h5⟩
  · rintro ⟨u, h0, h⟩
    cases h with
    | nil _ _ h1 h2 h3 => cases skips_unique (skips_again h0) h1; exact .nil _ _ h0 h2 h3
    | cons x xs _ u' v w _ h1 h2 h3 h4 h5 => cases skips_unique (skips_again h0) h1; exact .cons x xs t u v w z h0 h2 h3 h4 h5

theorem typeLoop_iff (tag : Option (List Nat)) (k : Nat) (s : DSt) (t : List Nat) (s' : DSt) (z : List Nat) (hk : t.length < k) :
    typeLoop tag k s t = .ok (s', z) ↔ ∃ xs, NamesAt xs t z ∧ runTypes tag s xs = s' := by
  induction k generalizing s t with
  | zero => omega
  | succ k ih =>
    rw [typeLoop, bind_ok]
    constructor
    · rintro ⟨u, h1, h2⟩
      obtain ⟨h3, h4⟩ := (nextTok_iff _ _).1 h1
      have l0 := skips_length h3
      rw [bind_ok] at h2
      obtain ⟨y, h5, h6⟩ := h2
      cases y with
      | none =>
        cases h6
        exact ⟨[], .nil _ _ h3 h4 ((getSym_none _ _).1 h5), rfl⟩
      | some y =>
        obtain ⟨i, syms, v⟩ := y
        obtain ⟨x, h7, h8⟩ := (getSym_some _ _ _ _ _).1 h5
        have l1 := symAt_length h7
        simp only at h6
        split at h6
        · rename_i hn
          rw [bind_ok] at h6
          obtain ⟨w, h9, h10⟩ := h6
          rw [nextc_iff] at h9
          split at h10
          · cases h10
          rename_i hp
          rw [paren_peek] at hp
          have l2 := skips_length h9
          obtain ⟨xs, h11, h12⟩ := (ih _ w (by omega)).1 h10
          refine ⟨x :: xs, .cons x xs t u v w z h3 h7 h9 (fun _ c r h h' => hp ⟨r, by rw [h, h']⟩) h11, ?_⟩
          rw [← h12, runTypes, List.foldl_cons, runType, h8]; rfl
        · rename_i hn
          rw [name_peek, ← symAt_name_first h7] at hn
          obtain ⟨xs, h11, h12⟩ := (ih _ v (by omega)).1 h6
          obtain ⟨w, h13, h14⟩ := (namesAt_skips _ _ _).1 h11
          refine ⟨x :: xs, .cons x xs t u v w z h3 h7 h13 (fun h => absurd h hn) h14, ?_⟩
          rw [← h12, runTypes, List.foldl_cons, runType, h8]; rfl
    · rintro ⟨xs, h1, h2⟩
      cases h1 with
      | nil _ _ h3 h4 h5 =>
        cases h2
        refine ⟨z, (nextTok_iff _ _).2 ⟨h3, h4⟩, ?_⟩
        rw [bind_ok]
        exact ⟨none, (getSym_none _ _).2 h5, rfl⟩
      | cons x xs _ u v w _ h3 h4 h5 h6 h7 =>
        refine ⟨u, (nextTok_iff _ _).2 ⟨h3, symStart_notEnd (SymAt.start h4)⟩, ?_⟩
        rw [bind_ok]
        refine ⟨some ((useSym s.syms x).1, (useSym s.syms x).2, v), (getSym_some _ _ _ _ _).2 ⟨x, h4, rfl⟩, ?_⟩
        have l0 := skips_length h3
        have l1 := symAt_length h4
        have l2 := skips_length h5
        simp only
        by_cases hn : ∃ n, x = .name n
        · rw [if_pos (by rw [name_peek, ← symAt_name_first h4]; exact hn), bind_ok]
          refine ⟨w, (nextc_iff _ _).2 h5, ?_⟩
          rw [if_neg (by rw [paren_peek]; rintro ⟨r, rfl⟩; exact h6 hn 40 r rfl rfl)]
          exact (ih _ w (by omega)).2 ⟨xs, h7, h2⟩
        · rw [if_neg (by rw [name_peek, ← symAt_name_first h4]; exact hn)]
          exact (ih _ v (by omega)).2 ⟨xs, (namesAt_skips _ _ _).2 ⟨w, h5, by
            obtain ⟨w', h8, h9⟩ := (namesAt_skips _ _ _).1 h7
            cases skips_unique (skips_again h5) h8
            exact h9⟩, h2⟩

theorem declTypes_iff (s : DSt) (t : List Nat) (s' : DSt) (z : List Nat) :
    declTypes s t = .ok (s', z) ↔ ∃ tag xs, TaggedAt NamesAt tag xs t z ∧ runTypes tag { s with haveTags := s.haveTags || tag.isSome } xs = s' := by
  unfold declTypes
  simp only [bind_ok]
  constructor
  · rintro ⟨u, h1, h2⟩
    obtain ⟨h3, h4⟩ := (nextTok_iff _ _).1 h1
    split at h2
    · rename_i hc
      have hc := (lt_peek u).1 hc
      rw [bind_ok] at h2
      obtain ⟨⟨tag, v⟩, h5, h6⟩ := h2
      have h5 := (getTag_iff _ _ _ hc).1 h5
      obtain ⟨items, h11, h12⟩ := (typeLoop_iff _ _ _ _ s' z (by simp)).1 h6
      refine ⟨some tag, items, ⟨u, h3, h4, .inr ⟨tag, v, rfl, h5, h11⟩⟩, ?_⟩
      rw [← h12]; simp
    · rename_i hc
      rw [lt_peek] at hc
      obtain ⟨items, h11, h12⟩ := (typeLoop_iff _ _ _ u s' z (by omega)).1 h2
      refine ⟨none, items, ⟨u, h3, h4, .inl ⟨rfl, ?_, h11⟩⟩, ?_⟩
      · rintro c r rfl rfl; exact hc ⟨r, rfl⟩
      rw [← h12]; simp
  · rintro ⟨tag, items, ⟨u, h1, h2, h3⟩, h4⟩
    refine ⟨u, (nextTok_iff _ _).2 ⟨h1, h2⟩, ?_⟩
    rcases h3 with ⟨rfl, h5, h6⟩ | ⟨g, v, rfl, h5, h6⟩
    · rw [if_neg (by rw [lt_peek]; rintro ⟨r, rfl⟩; exact h5 60 r rfl rfl)]
      refine (typeLoop_iff _ _ _ u s' z (by omega)).2 ⟨items, h6, ?_⟩
      rw [← h4]; simp
    · have hc := TagAt.head h5
      rw [if_pos ((lt_peek u).2 hc), bind_ok]
      refine ⟨(g, v), (getTag_iff _ _ _ hc).2 h5, ?_⟩
      refine (typeLoop_iff _ _ _ v s' z (by simp)).2 ⟨items, h6, ?_⟩
      rw [← h4]; simp

/-! The other declarations -/

def runStart (s : DSt) (name : List Nat) : Option DSt :=
  if ((lookupSym s.syms name).2[(lookupSym s.syms name).1]?).map BSym.cls == some .TERM then none
  else some { s with syms := (lookupSym s.syms name).2, goal := some (lookupSym s.syms name).1 }

theorem declStart_iff (s : DSt) (t : List Nat) (s' : DSt) (z : List Nat) :
    declStart s t = .ok (s', z) ↔ ∃ name w, Skips t w ∧ SymAt (.name name) w z ∧ runStart s name = some s' := by
  unfold declStart runStart
  rw [bind_ok]
  constructor
  · rintro ⟨u, h1, h2⟩
    obtain ⟨h3, h4⟩ := (nextTok_iff _ _).1 h1
    split at h2
    · rename_i hn
      rw [name_peek] at hn
      rw [bind_ok] at h2
      obtain ⟨⟨n, v⟩, h5, h6⟩ := h2
      have h5 := (getName_iff _ _ _ hn).1 h5
      simp only at h6
      split at h6
      · cases h6
      · rename_i hc
        cases h6
        exact ⟨n, u, h3, h5, by rw [if_neg hc]⟩
    · cases h2
  · rintro ⟨name, w, h1, h2, h3⟩
    have hf := NameAt.first h2.1
    refine ⟨w, (nextTok_iff _ _).2 ⟨h1, symStart_notEnd (SymAt.start h2)⟩, ?_⟩
    rw [if_pos ((name_peek w).2 hf), bind_ok]
    refine ⟨(name, z), (getName_iff _ _ _ hf).2 h2, ?_⟩
    simp only
    split at h3
    · cases h3
    · rename_i hc
      cases h3
      rw [if_neg hc]

theorem expectLoop_iff (t : List Nat) (n : Nat) (u : List Nat) : expectLoop t = .ok (n, u) ↔
    ∃ sp r, t = sp ++ r ∧ (∀ d ∈ sp, LineSpace d) ∧ NumberAt n r u ∧ n ≤ 2147483647 := by
  induction t with
  | nil =>
    refine iff_of_false (fun h => by cases h) ?_
    rintro ⟨sp, r, h1, -, h2, -⟩
    obtain ⟨c, r', rfl, -⟩ := NumberAt.first h2
    simp at h1
  | cons c r ih =>
    rw [expectLoop]
    by_cases hd : Digit c
    · rw [if_pos ((isDigit_iff c).2 hd), getNumber_iff _ _ _ ⟨c, r, rfl, hd⟩]
      constructor
      · rintro ⟨h1, h2⟩; exact ⟨[], c :: r, rfl, by simp, h1, h2⟩
      · rintro ⟨sp, r', h1, h2, h3, h4⟩
        cases sp with
        | nil => rw [List.nil_append] at h1; rw [h1]; exact ⟨h3, h4⟩
        | cons d sp =>
          cases h1
          have := h2 c (by simp)
          unfold LineSpace Space at this; unfold Digit at hd; omega
    rw [if_neg (by rw [isDigit_iff]; exact hd)]
    by_cases hs : LineSpace c
    · have hs' := hs
      unfold LineSpace Space at hs'
      rw [if_neg (by simp; omega), if_neg (by have := (isSpace_iff c).2 hs.1; simp [this]; omega), ih]
      constructor
      · rintro ⟨sp, r', rfl, h2, h3⟩
        exact ⟨c :: sp, r', rfl, by intro d hd; rcases List.mem_cons.1 hd with rfl | hd; exacts [hs, h2 d hd], h3⟩
      · rintro ⟨sp, r', h1, h2, h3⟩
        cases sp with
        | nil =>
          obtain ⟨e, r'', rfl, he⟩ := NumberAt.first h3.1
          cases h1; exact absurd he hd
        | cons d sp => cases h1; exact ⟨sp, r', rfl, fun x hx => h2 x (by simp [hx]), h3⟩
    · refine iff_of_false ?_ ?_
      · split
        · intro h; cases h
        · rw [if_pos]
          · intro h; cases h
          · simp only [Bool.or_eq_true, beq_iff_eq, Bool.not_eq_true', ← Bool.not_eq_true, isSpace_iff]
            unfold LineSpace at hs; tauto
      · rintro ⟨sp, r', h1, h2, h3⟩
        cases sp with
        | nil =>
          obtain ⟨e, r'', rfl, he⟩ := NumberAt.first h3.1
          cases h1; exact absurd he hd
        | cons d sp => cases h1; exact absurd (h2 c (by simp)) hs

theorem declExpect_iff (t : List Nat) (n : Nat) (u : List Nat) : declExpect t = .ok (n, u) ↔ ExpectAt n t u := by
  unfold declExpect ExpectAt
  cases t with
  | nil =>
    refine iff_of_false (fun h => by cases h) ?_
    rintro ⟨c, sp, r, h, -⟩; cases h
  | cons c r =>
    simp only
    by_cases h10 : c = 10
    · rw [if_pos (by simpa using h10)]
      refine iff_of_false (fun h => by cases h) ?_
      rintro ⟨c', sp, r, h, h', -⟩; cases h; exact h' h10
    · rw [if_neg (by simpa using h10), expectLoop_iff]
      constructor
      · rintro ⟨sp, r', rfl, h⟩; exact ⟨c, sp, r', rfl, h10, h⟩
      · rintro ⟨c', sp, r', h1, -, h⟩; cases h1; exact ⟨sp, r', rfl, h⟩

theorem copyIdent_iff (t u : List Nat) : copyIdent t = .ok u ↔ IdentAt t u := by
  have hq : ∀ c : Nat, (c != 10 && c != 34) = true ↔ (c ≠ 10 ∧ c ≠ 34) := by intro c; simp
  unfold copyIdent IdentAt
  rw [bind_ok]
  constructor
  · rintro ⟨v, h1, h2⟩
    rw [nextc_iff] at h1
    rcases hp : peek v with _ | c
    · rw [hp] at h2; cases h2
    rw [hp] at h2
    simp only at h2
    split at h2
    · cases h2
    rename_i hc
    have hc : c = 34 := by simpa using hc
    subst hc
    obtain ⟨-, -, r, rfl⟩ := (peek_some v 34 (by decide)).1 hp
    simp only [List.drop_succ_cons, List.drop_zero] at h2
    obtain ⟨h3, h4, h5⟩ := (span_iff _ _ hq r _ _).1 ⟨rfl, rfl⟩
    refine ⟨r.takeWhile (fun c => c != 10 && c != 34), r.dropWhile (fun c => c != 10 && c != 34), by rw [← h3]; exact h1, fun h => (h4 10 h).1 rfl, fun h => (h4 34 h).2 rfl, ?_⟩
    split at h2
    · rename_i hh
      cases h2
      generalize r.dropWhile (fun c => c != 10 && c != 34) = w at hh h5 ⊢
      cases w with
      | nil => cases hh
      | cons d w =>
        simp only [List.head?_cons, beq_iff_eq, Option.some.injEq] at hh
        subst hh
        exact .inl rfl
    · rename_i hh
      cases h2
      refine .inr ⟨rfl, ?_⟩
      intro d w hw
      have := h5 d w hw
      rw [hw] at hh
      simp only [List.head?_cons, beq_iff_eq, Option.some.injEq] at hh
      tauto
  · rintro ⟨s, r, h1, h2, h3, h4⟩
    refine ⟨_, (nextc_iff _ _).2 h1, ?_⟩
    rw [(peek_some _ 34 (by decide)).2 ⟨by decide, by decide, _, rfl⟩]
    simp only [List.drop_succ_cons, List.drop_zero]
    rw [if_neg (by decide)]
    have hnn : NotNext (fun c => c ≠ 10 ∧ c ≠ 34) r := by
      rcases h4 with rfl | ⟨rfl, h4⟩
      · exact notNext_cons (by omega)
      · intro c w hw h; exact h4 c w hw h.1
    rw [dropWhile_app hq (fun x hx => ⟨fun h => h2 (h ▸ hx), fun h => h3 (h ▸ hx)⟩) hnn]
    rcases h4 with rfl | ⟨rfl, h4⟩
    · rfl
    · rw [if_neg]
      cases r with
      | nil => decide
      | cons c r =>
        have := h4 c r rfl
        simp at this ⊢
        omega

theorem copyText_iff (a t o u : List Nat) : copyText a t = .ok (o, u) ↔
    ∃ w o', (t = 10 :: w ∨ (t = w ∧ NotNext (· = 10) t)) ∧ TextAt o' w u ∧ o = (if o' = [] ∨ o'.getLast? = some 10 then o' else o' ++ [10]) := by
  have hout : ∀ o' : List Nat, o' ++ textNl false o' = if o' = [] ∨ o'.getLast? = some 10 then o' else o' ++ [10] := by
    intro o'
    unfold textNl
    cases h : o'.getLast? with
    | none =>
      have : o' = [] := List.getLast?_eq_none_iff.1 h
      simp [this]
    | some x =>
      have : o' ≠ [] := by rintro rfl; cases h
      by_cases hx : x = 10
      · simp [hx]
      · simp [hx, this]
  unfold copyText
  by_cases h10 : ∃ w, t = 10 :: w
  · obtain ⟨w, rfl⟩ := h10
    simp only [List.head?_cons, beq_self_eq_true, if_true, List.drop_succ_cons, List.drop_zero]
    rw [textLoop_iff a _ false w o u (by omega)]
    constructor
    · rintro ⟨o', h1, h2⟩
      exact ⟨w, o', .inl rfl, h1, by rw [h2, hout]⟩
    · rintro ⟨w', o', (h1 | ⟨-, h1⟩), h2, h3⟩
      · cases h1; exact ⟨o', h2, by rw [h3, hout]⟩
      · exact absurd rfl (h1 10 w rfl)
  · have : (t.head? == some 10) = false := by
      cases t with
      | nil => rfl
      | cons c r =>
        have : c ≠ 10 := by rintro rfl; exact h10 ⟨r, rfl⟩
        simpa using this
    have hn : NotNext (· = 10) t := by
      rintro c r rfl rfl; exact h10 ⟨r, rfl⟩
    simp only [this, Bool.false_eq_true, if_false]
    rw [textLoop_iff a _ false t o u (by omega)]
    constructor
    · rintro ⟨o', h1, h2⟩
      exact ⟨t, o', .inr ⟨rfl, hn⟩, h1, by rw [h2, hout]⟩
    · rintro ⟨w', o', (h1 | ⟨rfl, -⟩), h2, h3⟩
      · exact absurd ⟨w', h1⟩ h10
      · exact ⟨o', h2, by rw [h3, hout]⟩

/-- a declaration -/
def runDecl (s : DSt) : Decl → Option DSt
  | .tokens a tag items => runItems a tag (tokStart a tag s) items
  | .types tag xs => some (runTypes tag { s with haveTags := s.haveTags || tag.isSome } xs)
  | .start name => runStart s name
  | .expect n => some { s with sr := n }
  | .expectRR n => some { s with rr := n }
  | .text o => some { s with out := s.out ++ o }
  | .union => if s.unionized then none else some { s with unionized := true }
  | .other => some s

/-- what follows a keyword -/
inductive BodyAt : Kw → Decl → List Nat → List Nat → Prop
  | tokens (k : Kw) (a : Assoc) (tag : Option (List Nat)) (items : List (Sym × Option Nat)) (v u : List Nat) :
      (k, a) ∈ declares → TaggedAt ItemsAt tag items v u → BodyAt k (.tokens a tag items) v u
  | types (tag : Option (List Nat)) (items : List Sym) (v u : List Nat) : TaggedAt NamesAt tag items v u → BodyAt .TYPE (.types tag items) v u
  | start (name v w u : List Nat) : Skips v w → SymAt (.name name) w u → BodyAt .START (.start name) v u
  | expect (n : Nat) (v u : List Nat) : ExpectAt n v u → BodyAt .EXPECT (.expect n) v u
  | expectRR (n : Nat) (v u : List Nat) : ExpectAt n v u → BodyAt .EXPECT_RR (.expectRR n) v u
  | text (o v w u : List Nat) : (v = 10 :: w ∨ (v = w ∧ NotNext (· = 10) v)) → TextAt o w u →
      BodyAt .TEXT (.text (if o = [] ∨ o.getLast? = some 10 then o else o ++ [10])) v u
  | union (v u : List Nat) : UnionAt 0 v u → BodyAt .UNION .union v u
  | ident (v u : List Nat) : IdentAt v u → BodyAt .IDENT .other v u
  | flag (k : Kw) (u : List Nat) : k ∈ flags → BodyAt k .other u u

theorem declAt_iff (d : Decl) (t u : List Nat) : DeclAt d t u ↔ ∃ k v, KwAt k t v ∧ BodyAt k d v u := by
  constructor
  · intro h
    cases h with
    | tokens k a tag items _ v _ h1 h2 h3 => exact ⟨k, v, h1, .tokens k a tag items v u h2 h3⟩
    | types tag items _ v _ h1 h2 => exact ⟨_, v, h1, .types tag items v u h2⟩
    | start name _ v w _ h1 h2 h3 => exact ⟨_, v, h1, .start name v w u h2 h3⟩
    | expect n _ v _ h1 h2 => exact ⟨_, v, h1, .expect n v u h2⟩
    | expectRR n _ v _ h1 h2 => exact ⟨_, v, h1, .expectRR n v u h2⟩
    | text o _ v w _ h1 h2 h3 => exact ⟨_, v, h1, .text o v w u h2 h3⟩
    | union _ v _ h1 h2 => exact ⟨_, v, h1, .union v u h2⟩
    | ident _ v _ h1 h2 => exact ⟨_, v, h1, .ident v u h2⟩
    | flag k _ _ h1 h2 => exact ⟨k, u, h1, .flag k u h2⟩
  · rintro ⟨k, v, h1, h⟩
    cases h with
    | tokens _ a tag items _ _ h2 h3 => exact .tokens k a tag items t v u h1 h2 h3
    | types tag items _ _ h2 => exact .types tag items t v u h1 h2
    | start name _ w _ h2 h3 => exact .start name t v w u h1 h2 h3
    | expect n _ _ h2 => exact .expect n t v u h1 h2
    | expectRR n _ _ h2 => exact .expectRR n t v u h1 h2
    | text o _ w _ h2 h3 => exact .text o t v w u h1 h2 h3
    | union _ _ h2 => exact .union t v u h1 h2
    | ident _ _ h2 => exact .ident t v u h1 h2
    | flag _ _ h2 => exact .flag k t u h1 h2

theorem kwAssoc_iff (k : Kw) (a : Assoc) : kwAssoc k = some a ↔ (k, a) ∈ declares := by
  cases k <;> cases a <;> decide

theorem declare_iff (k : Kw) (a : List Nat) (s : DSt) (t : List Nat) (s' : DSt) (u : List Nat) :
    declare k a s t = .ok (s', u) ↔ ∃ d, BodyAt k d t u ∧ runDecl s d = some s' := by
  unfold declare
  cases hk : kwAssoc k with
  | some as =>
    simp only
    rw [declTokens_iff]
    have hm := (kwAssoc_iff k as).1 hk
    constructor
    · rintro ⟨tag, items, h1, h2⟩
      exact ⟨.tokens as tag items, .tokens k as tag items t u hm h1, h2⟩
    · rintro ⟨d, h1, h2⟩
      cases h1 with
      | tokens _ a' tag items _ _ h3 h4 =>
        have := (kwAssoc_iff k a').2 h3
        rw [hk] at this; cases this
        exact ⟨tag, items, h4, h2⟩
      | flag _ _ h3 => exact absurd hk (by cases k <;> first | (exact absurd h3 (by decide)) | (intro h; cases h))
      | _ => cases hk
  | none =>
    have hno : ∀ a, (k, a) ∉ declares := by intro a h; rw [← kwAssoc_iff, hk] at h; cases h
    simp only
    cases k with
    | IDENT =>
      simp only [map_ok, copyIdent_iff]
      constructor
      · rintro ⟨v, h1, h2⟩; cases h2; exact ⟨.other, .ident _ _ h1, rfl⟩
      · rintro ⟨d, h1, h2⟩
        cases h1 with
        | tokens _ _ _ _ _ _ h => exact absurd h (hno _)
        | ident _ _ h => cases h2; exact ⟨u, h, rfl⟩
        | flag _ _ h => exact absurd h (by decide)
    | TEXT =>
      simp only [map_ok]
      constructor
      · rintro ⟨⟨o, v⟩, h1, h2⟩
        cases h2
        obtain ⟨w, o', h3, h4, rfl⟩ := (copyText_iff _ _ _ _).1 h1
        exact ⟨_, .text o' _ w _ h3 h4, rfl⟩
      · rintro ⟨d, h1, h2⟩
        cases h1 with
        | tokens _ _ _ _ _ _ h => exact absurd h (hno _)
        | text o' _ w _ h3 h4 => cases h2; exact ⟨(_, u), (copyText_iff _ _ _ _).2 ⟨w, o', h3, h4, rfl⟩, rfl⟩
        | flag _ _ h => exact absurd h (by decide)
    | UNION =>
      simp only
      constructor
      · intro h
        split at h
        · cases h
        rename_i hu
        rw [map_ok] at h
        obtain ⟨v, h1, h2⟩ := h
        cases h2
        rw [unionLoop_iff _ _ _ _ _ (by omega)] at h1
        exact ⟨.union, .union _ _ h1, by rw [runDecl, if_neg hu]⟩
      · rintro ⟨d, h1, h2⟩
        cases h1 with
        | tokens _ _ _ _ _ _ h => exact absurd h (hno _)
        | union _ _ h =>
          rw [runDecl] at h2
          split at h2
          · cases h2
          rename_i hu
          cases h2
          rw [if_neg hu, map_ok]
          exact ⟨u, (unionLoop_iff _ _ _ _ _ (by omega)).2 h, rfl⟩
        | flag _ _ h => exact absurd h (by decide)
    | EXPECT =>
      simp only [map_ok]
      constructor
      · rintro ⟨⟨n, v⟩, h1, h2⟩; cases h2; exact ⟨.expect n, .expect _ _ _ ((declExpect_iff _ _ _).1 h1), rfl⟩
      · rintro ⟨d, h1, h2⟩
        cases h1 with
        | tokens _ _ _ _ _ _ h => exact absurd h (hno _)
        | expect n _ _ h => cases h2; exact ⟨(n, u), (declExpect_iff _ _ _).2 h, rfl⟩
        | flag _ _ h => exact absurd h (by decide)
    | EXPECT_RR =>
      simp only [map_ok]
      constructor
      · rintro ⟨⟨n, v⟩, h1, h2⟩; cases h2; exact ⟨.expectRR n, .expectRR _ _ _ ((declExpect_iff _ _ _).1 h1), rfl⟩
      · rintro ⟨d, h1, h2⟩
        cases h1 with
        | tokens _ _ _ _ _ _ h => exact absurd h (hno _)
        | expectRR n _ _ h => cases h2; exact ⟨(n, u), (declExpect_iff _ _ _).2 h, rfl⟩
        | flag _ _ h => exact absurd h (by decide)
    | TYPE =>
      simp only [declTypes_iff]
      constructor
      · rintro ⟨tag, xs, h1, h2⟩; exact ⟨.types tag xs, .types _ _ _ _ h1, by rw [runDecl, h2]⟩
      · rintro ⟨d, h1, h2⟩
        cases h1 with
        | tokens _ _ _ _ _ _ h => exact absurd h (hno _)
        | types tag xs _ _ h => cases h2; exact ⟨tag, xs, h, rfl⟩
        | flag _ _ h => exact absurd h (by decide)
    | START =>
      simp only [declStart_iff]
      constructor
      · rintro ⟨name, w, h1, h2, h3⟩; exact ⟨.start name, .start name _ w _ h1 h2, h3⟩
      · rintro ⟨d, h1, h2⟩
        cases h1 with
        | tokens _ _ _ _ _ _ h => exact absurd h (hno _)
        | start name _ w _ h h' => exact ⟨name, w, h, h', h2⟩
        | flag _ _ h => exact absurd h (by decide)
    | PURE_PARSER | TOKEN_TABLE | ERROR_VERBOSE | LOCATIONS | DEBUG | YACC =>
      simp only [Except.ok.injEq, Prod.mk.injEq]
      constructor
      · rintro ⟨rfl, rfl⟩; exact ⟨.other, .flag _ _ (by decide), rfl⟩
      · rintro ⟨d, h1, h2⟩
        cases h1 with
        | tokens _ _ _ _ _ _ h => exact absurd h (hno _)
        | flag _ _ h => cases h2; exact ⟨rfl, rfl⟩
    | _ =>
      refine iff_of_false (fun h => by cases h) ?_
      rintro ⟨d, h1, h2⟩
      cases h1 with
      | tokens _ _ _ _ _ _ h => exact absurd h (hno _)
      | flag _ _ h => exact absurd h (by decide)

end Verif.Byacc.Rd
