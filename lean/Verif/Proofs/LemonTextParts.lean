import Verif.Proofs.LemonText
/-
Lemmas: the parts of the C file made by lemon keep the number of the line right.
-/
set_option autoImplicit false
namespace Verif.Lemon.LT
open Verif.Spec.LText
open Verif.Spec.GFile (text)

variable {I : LText} {d : Int} {k : Nat} {w : LW}

theorem nn_app {a b : List Nat} (ha : 10 ∉ a) (hb : 10 ∉ b) : 10 ∉ a ++ b := by simp [ha, hb]

theorem nn_decimal (n : Nat) : 10 ∉ decimal n := by
  have := digits_no_newline n
  rwa [← decimal_eq, List.count_eq_zero] at this

theorem nn_decimalInt (n : Int) : 10 ∉ decimalInt n := by
  unfold decimalInt
  split
  · simpa using nn_decimal _
  · exact nn_decimal _

theorem nn_padLeft {n : Nat} {t : List Nat} (h : 10 ∉ t) : 10 ∉ padLeft n t := by simp [padLeft, h]
theorem nn_padRight {n : Nat} {t : List Nat} (h : 10 ∉ t) : 10 ∉ padRight n t := by simp [padRight, h]
theorem nn_getD {o : Option (List Nat)} {t : List Nat} (h : ∀ x, o = some x → 10 ∉ x) (ht : 10 ∉ t) : 10 ∉ o.getD t := by
  cases o with
  | none => exact ht
  | some x => exact h x rfl

macro "nl" : tactic => `(tactic| ((repeat' (with_reducible apply nn_app)) <;>
  first | assumption | exact nn_decimal _ | exact nn_decimalInt _ | exact nn_padLeft (nn_decimal _) | exact nn_padLeft (nn_decimalInt _) | decide +kernel | skip))

theorem inv_define (name : String) (v : Int) (hn : 10 ∉ cstr name) (h : Inv I d k w) : Inv I d k (w.define name v) := by
  unfold LW.define
  exact inv_line _ (by nl) h.toMid

theorem inv_foldl {α : Type} (f : LW → α → LW) (l : List α) (hf : ∀ a ∈ l, ∀ w, Inv I d k w → Inv I d k (f w a)) : ∀ {w : LW}, Inv I d k w → Inv I d k (l.foldl f w) := by
  induction l with
  | nil => intro w h; exact h
  | cons a l ih => intro w h; exact ih (fun a ha => hf a (by simp [ha])) (hf a (by simp) w h)

theorem nn_symName (H : OneLine I) (i : Nat) : 10 ∉ I.symName i := by
  unfold LText.symName
  cases e : I.s.symbols[i]? with
  | none => simp
  | some y => exact H.names y (List.mem_of_getElem? e)

theorem nn_arg (H : OneLine I) (x : Kw) (hx : x ∈ [Kw.name, .tokenPrefix, .tokenType, .extraArgument, .extraContext, .stackSize]) {t : List Nat} (ht : 10 ∉ t) :
    10 ∉ (I.s.args x).getD t := nn_getD (H.args x hx) ht

theorem nn_name (H : OneLine I) : 10 ∉ I.name := nn_arg H .name (by decide) (by decide)
theorem nn_prefix (H : OneLine I) : 10 ∉ I.tokenPrefix := nn_arg H .tokenPrefix (by decide) (by decide)

theorem inv_defineTokens (H : OneLine I) (l : List Nat) (h : Inv I d k w) : Inv I d k (w.defineTokens I l) := by
  unfold LW.defineTokens
  refine inv_foldl _ l ?_ h
  intro i _ w h
  exact inv_line _ (by nl; exact nn_prefix H; exact nn_padRight (nn_symName H i)) h.toMid

theorem nn_typeName (p : Bool × Nat) : 10 ∉ typeName p := by
  unfold typeName
  split <;> decide

theorem inv_union (H : OneLine I) (h : Inv I d k w) : Inv I d k (w.union I) := by
  unfold LW.union
  dsimp only
  have hn := nn_name H
  have ht := nn_arg H .tokenType (by decide) (t := cstr "void*") (by decide)
  refine inv_line _ (by nl) (Inv.toMid ?_)
  refine inv_foldl _ _ ?_ ?_
  · intro p hp w h
    refine inv_line _ (by nl; exact nn_getD (H.types p (List.mem_of_mem_drop hp)) (by simp)) h.toMid
  · refine inv_line _ (by nl) (Inv.toMid (inv_line _ (by nl) (Inv.toMid (inv_line _ (by nl) (Inv.toMid (inv_ite ?_ ?_))))))
    · intro _
      refine inv_line _ (by nl) (Inv.toMid (inv_line _ (by nl) (Inv.toMid (inv_ite ?_ ?_))))
      · intro _; exact inv_line _ (by nl) h.toMid
      · intro _; exact h
    · intro _
      refine inv_line _ (by nl) (Inv.toMid (inv_ite ?_ ?_))
      · intro _; exact inv_line _ (by nl) h.toMid
      · intro _; exact h

theorem nn_argName {t : List Nat} (h : 10 ∉ t) : 10 ∉ argName t := fun hm => h (List.mem_of_mem_drop hm)

theorem inv_extra (H : OneLine I) (kind : String) (hk : 10 ∉ cstr kind) (arg : Option (List Nat)) (ha : ∀ t, arg = some t → 10 ∉ t) (h : Inv I d k w) : Inv I d k (w.extra I kind arg) := by
  unfold LW.extra
  have hn := nn_name H
  split
  · rename_i c t
    have h1 := ha _ rfl
    have h2 := nn_argName h1
    dsimp only
    exact inv_line _ (by nl) (Inv.toMid (inv_line _ (by nl) (Inv.toMid (inv_line _ (by nl) (Inv.toMid (inv_line _ (by nl) (Inv.toMid (inv_line _ (by nl) h.toMid))))))))
  · dsimp only
    exact inv_line _ (by nl) (Inv.toMid (inv_line _ (by nl) (Inv.toMid (inv_line _ (by nl) (Inv.toMid (inv_line _ (by nl) (Inv.toMid (inv_line _ (by nl) h.toMid))))))))

theorem inv_defines (H : OneLine I) (h : Inv I d k w) : Inv I d k (w.defines I) := by
  unfold LW.defines
  have h1 : Inv I d k (((w.line (cstr "#define YYCODETYPE " ++ typeName I.T.codeType)).define "YYNOCODE " I.T.nsymbol).line (cstr "#define YYACTIONTYPE " ++ typeName I.T.actionType)) := by
    refine inv_line _ (by nl; exact nn_typeName _) (Inv.toMid (inv_define _ _ (by decide) (inv_line _ (by nl; exact nn_typeName _) h.toMid)))
  dsimp only
  generalize ((w.line (cstr "#define YYCODETYPE " ++ typeName I.T.codeType)).define "YYNOCODE " I.T.nsymbol).line (cstr "#define YYACTIONTYPE " ++ typeName I.T.actionType) = w1 at h1 ⊢
  have h2 : Inv I d k (w1.wildcard I) := by
    unfold LW.wildcard
    split
    · exact inv_define _ _ (by decide) h1
    · exact h1
  generalize w1.wildcard I = w2 at h2 ⊢
  have h3 := inv_union H h2
  generalize w2.union I = w3 at h3 ⊢
  have h4 : Inv I d k (((w3.line (cstr "#ifndef YYSTACKDEPTH")).line (cstr "#define YYSTACKDEPTH " ++ (I.s.args .stackSize).getD (cstr "100"))).line (cstr "#endif")) := by
    refine inv_line _ (by nl) (Inv.toMid (inv_line _ ?_ (Inv.toMid (inv_line _ (by nl) h3.toMid))))
    nl
    exact nn_arg H .stackSize (by decide) (by decide)
  generalize ((w3.line (cstr "#ifndef YYSTACKDEPTH")).line (cstr "#define YYSTACKDEPTH " ++ (I.s.args .stackSize).getD (cstr "100"))).line (cstr "#endif") = w4 at h4 ⊢
  have h5 : Inv I d k (if I.mhflag then w4.line (cstr "#if INTERFACE") else w4) := inv_ite (fun _ => inv_line _ (by nl) h4.toMid) (fun _ => h4)
  generalize (if I.mhflag then w4.line (cstr "#if INTERFACE") else w4) = w5 at h5 ⊢
  have h6 := inv_extra H "CTX" (by decide) (I.s.args .extraContext) (H.args .extraContext (by decide)) (inv_extra H "ARG" (by decide) (I.s.args .extraArgument) (H.args .extraArgument (by decide)) h5)
  generalize (w5.extra I "ARG" (I.s.args .extraArgument)).extra I "CTX" (I.s.args .extraContext) = w6 at h6 ⊢
  have h7 : Inv I d k (if I.mhflag then w6.line (cstr "#endif") else w6) := inv_ite (fun _ => inv_line _ (by nl) h6.toMid) (fun _ => h6)
  generalize (if I.mhflag then w6.line (cstr "#endif") else w6) = w7 at h7 ⊢
  have h8 : Inv I d k (w7.errorSymbol I) := by
    unfold LW.errorSymbol
    split
    · exact inv_line _ (by nl) (Inv.toMid (inv_define _ _ (by decide) h7))
    · exact h7
  exact inv_ite (fun _ => inv_line _ (by nl) h8.toMid) (fun _ => h8)

theorem inv_constants (h : Inv I d k w) : Inv I d k (w.constants I) := by
  unfold LW.constants
  dsimp only
  repeat (refine inv_define _ _ (by decide) ?_)
  exact h

theorem mid_entries (last : Bool) (l : List Int) : ∀ (i j : Nat) {w : LW}, Mid I d k w → (j = 0 → Inv I d k w) → Mid I d k (LW.entries last l i j w).1 ∧
    ((LW.entries last l i j w).2 = 0 → Inv I d k (LW.entries last l i j w).1) ∧ (last = true → l ≠ [] → Inv I d k (LW.entries last l i j w).1) := by
  induction l with
  | nil => intro i j w h h0; exact ⟨h, h0, by simp⟩
  | cons v l ih =>
    intro i j w h h0
    unfold LW.entries
    dsimp only
    have h1 : Mid I d k (if j = 0 then w.put (cstr " /* " ++ padLeft 5 (decimal i) ++ cstr " */ ") else w) := by
      split
      · exact mid_put0 _ (by nl) h
      · exact h
    generalize (if j = 0 then w.put (cstr " /* " ++ padLeft 5 (decimal i) ++ cstr " */ ") else w) = w1 at h1 ⊢
    have h2 : Mid I d k (w1.put (cstr " " ++ padLeft 4 (decimalInt v) ++ cstr ",")) := mid_put0 _ (by nl) h1
    generalize w1.put (cstr " " ++ padLeft 4 (decimalInt v) ++ cstr ",") = w2 at h2 ⊢
    have h3 : Inv I d k (w2.line []) := inv_line [] (by simp) h2
    by_cases hl : last = true ∧ l = []
    · obtain ⟨rfl, rfl⟩ := hl
      simp only [and_self, or_true, if_true]
      exact ⟨h3.toMid, fun _ => h3, fun _ _ => h3⟩
    · simp only [hl, or_false]
      split
      · obtain ⟨a, b, c⟩ := ih (i + 1) 0 h3.toMid (fun _ => h3)
        exact ⟨a, b, fun e _ => c e (fun hn => hl ⟨e, hn⟩)⟩
      · obtain ⟨a, b, c⟩ := ih (i + 1) (j + 1) h2 (fun e => by omega)
        exact ⟨a, b, fun e _ => c e (fun hn => hl ⟨e, hn⟩)⟩

theorem inv_array (type name : List Nat) (l : List Int) (ht : 10 ∉ type) (hn : 10 ∉ name) (h : Inv I d k w) : Inv I d k (w.array type name l) := by
  unfold LW.array
  dsimp only
  have h1 : Inv I d k (w.line (cstr "static const " ++ type ++ [32] ++ name ++ cstr "[] = {")) := inv_line _ (by nl) h.toMid
  exact inv_line _ (by nl) (mid_entries true l 0 0 h1.toMid (fun _ => h1)).1

theorem inv_lookahead (h : Inv I d k w) : Inv I d k (w.lookahead I) := by
  unfold LW.lookahead
  dsimp only
  have h1 : Inv I d k (w.line (cstr "static const YYCODETYPE yy_lookahead[] = {")) := inv_line _ (by nl) h.toMid
  have h2 := (mid_entries false (I.T.lookahead.map Int.ofNat) 0 0 h1.toMid (fun _ => h1)).1
  refine inv_line _ (by nl) ?_
  split
  · exact (inv_line [] (by simp) h2).toMid
  · exact h2

theorem inv_tables (h : Inv I d k w) : Inv I d k (w.tables I) := by
  unfold LW.tables
  dsimp only
  refine inv_array _ _ _ (by decide) (by decide) ?_
  refine inv_array _ _ _ (nn_typeName _) (by decide) ?_
  refine inv_line _ (by nl) (Inv.toMid (inv_line _ (by nl) (Inv.toMid (inv_line _ (by nl) (Inv.toMid ?_)))))
  refine inv_array _ _ _ (nn_typeName _) (by decide) ?_
  refine inv_line _ (by nl) (Inv.toMid (inv_line _ (by nl) (Inv.toMid (inv_line _ (by nl) (Inv.toMid ?_)))))
  refine inv_lookahead (inv_array _ _ _ (by decide) (by decide) ?_)
  exact inv_line _ (by nl) h.toMid

theorem nn_fallbackLine (H : OneLine I) (i : Nat) : 10 ∉ I.fallbackLine i := by
  unfold LText.fallbackLine
  have hs := nn_padLeft (n := 10) (nn_symName H i)
  split
  · nl
  · rename_i f e
    have hf : 10 ∉ f := by
      cases e' : I.s.symbols[i]? with
      | none => rw [e'] at e; simp at e
      | some y => rw [e'] at e; exact H.fallbacks y (List.mem_of_getElem? e') f e
    nl

theorem inv_fallbacks (H : OneLine I) (h : Inv I d k w) : Inv I d k (w.fallbacks I) := by
  unfold LW.fallbacks
  refine inv_ite (fun _ => inv_foldl _ _ ?_ h) (fun _ => h)
  intro i _ w h
  exact inv_line _ (nn_fallbackLine H i) h.toMid

theorem inv_symNames (H : OneLine I) (h : Inv I d k w) : Inv I d k (w.symNames I) := by
  unfold LW.symNames
  refine inv_foldl _ _ ?_ h
  intro i _ w h
  exact inv_line _ (by nl; exact nn_symName H i) h.toMid

theorem nn_rule (H : OneLine I) {p : (RRule × Trans × Bool) × Nat} (hp : p ∈ I.rules.zipIdx) : 10 ∉ I.s.ruleText p.1.1 :=
  H.rules p.1 (List.fst_mem_of_mem_zipIdx (x := p) hp)

theorem inv_ruleNames (H : OneLine I) (h : Inv I d k w) : Inv I d k (w.ruleNames I) := by
  unfold LW.ruleNames
  refine inv_foldl _ _ ?_ h
  intro p hp w h
  have := nn_rule H hp
  exact inv_line _ (by nl) h.toMid

theorem inv_ruleLhs (H : OneLine I) (h : Inv I d k w) : Inv I d k (w.ruleLhs I) := by
  unfold LW.ruleLhs
  refine inv_foldl _ _ ?_ h
  intro p hp w h
  have := nn_rule H hp
  exact inv_line _ (by nl) h.toMid

theorem inv_ruleNRhs (H : OneLine I) (h : Inv I d k w) : Inv I d k (w.ruleNRhs I) := by
  unfold LW.ruleNRhs
  refine inv_foldl _ _ ?_ h
  intro p hp w h
  have := nn_rule H hp
  exact inv_line _ (by nl) h.toMid

theorem lineMacro_count (n : Nat) (f : List Nat) (hf : 10 ∉ f) : 1 = (lineMacro n f).count 10 := by
  rw [lineMacro_directive, directive_count _ _ hf]

theorem mid_fileDir (H : OneLine I) (line : Option Nat) (h : Mid I d k w) : Mid I d k (w.fileDir I line) := by
  unfold LW.fileDir
  cases line with
  | none => exact h
  | some l =>
    dsimp only
    split
    · exact h
    · exact mid_put _ (lineMacro_count _ _ H.filename) h

theorem inv_fileDir (H : OneLine I) (line : Option Nat) (h : Inv I d k w) : Inv I d k (w.fileDir I line) := by
  refine ⟨mid_fileDir H line h.toMid, ?_⟩
  unfold LW.fileDir
  cases line with
  | none => exact h.start
  | some l =>
    dsimp only
    split
    · exact h.start
    · simp only [LW.put, LW.bump, bytes_append, bytes_text, lineMacro_directive]
      right; simp [List.getLast?_append, directive_last]

theorem inv_destructor (H : OneLine I) (p : DSym) (h : Inv I d k w) : Inv I d k (w.destructor I p) := by
  unfold LW.destructor
  split
  · exact h
  · rename_i cp line _
    dsimp only
    have h1 : Inv I d k (w.line (cstr "{")) := inv_line _ (by nl) h.toMid
    generalize w.line (cstr "{") = w1 at h1 ⊢
    have h2 := inv_fileDir H line h1
    generalize w1.fileDir I line = w2 at h2 ⊢
    refine inv_line _ (by nl) (Inv.toMid (inv_selfDir H.outname (inv_line [] (by simp) (mid_put _ ?_ h2.toMid))))
    rw [newlines_count, dollars_count p.dtnum _ cp (Nat.le_refl _)]

theorem cases_spec (H : OneLine I) (c : DCase) (hc : c ∈ I.s.destructorCases) : (c.comment = [] ∨ c.comment.count 10 = 1 ∧ c.comment.getLast? = some 10) ∧ ∀ p ∈ c.syms, 10 ∉ p.sym.name := by
  have hmem : ∀ p ∈ I.s.dsyms, 10 ∉ p.sym.name := by
    intro p hp
    simp only [RState.dsyms, List.mem_map] at hp
    obtain ⟨q, hq, rfl⟩ := hp
    exact H.names q.1 (List.mem_of_mem_take (List.fst_mem_of_mem_zipIdx (x := q) hq))
  refine ⟨?_, ?_⟩
  · unfold RState.destructorCases at hc
    rw [List.mem_append, List.mem_append] at hc
    rcases hc with (hc | hc) | hc
    · unfold RState.tokenCases at hc
      split at hc
      · split at hc
        · simp at hc
        · rw [List.mem_singleton] at hc
          subst hc
          right; dsimp only; decide
      · simp at hc
    · unfold RState.defaultCases at hc
      split at hc
      · rw [List.mem_singleton] at hc
        subst hc
        dsimp only
        split
        · left; rfl
        · right; decide
      · simp at hc
    · left
      have : ∀ (l : List DSym) (done : List Nat), ∀ c ∈ ownCases l done, c.comment = [] := by
        intro l
        induction l with
        | nil => intro done c hc; simp [ownCases] at hc
        | cons p l ih =>
          intro done c hc
          unfold ownCases at hc
          split at hc
          · exact ih _ c hc
          · rcases List.mem_cons.1 hc with rfl | hc
            · rfl
            · exact ih _ c hc
      exact this _ _ c hc
  · intro p hp
    exact hmem p (case_spec I.s c hc p hp).1

theorem inv_destructors (H : OneLine I) (h : Inv I d k w) : Inv I d k (w.destructors I) := by
  unfold LW.destructors
  refine inv_foldl _ _ ?_ h
  intro c hc w h
  obtain ⟨hcom, hsy⟩ := cases_spec H c hc
  unfold LW.destructCase
  dsimp only
  have h1 : Inv I d k (if c.comment = [] then w else (w.put c.comment).bump 1) := by
    refine inv_ite (fun _ => h) (fun hn => ?_)
    rcases hcom with e | ⟨e1, e2⟩
    · exact absurd e hn
    · exact inv_put _ e1.symm (.inr e2) h
  generalize (if c.comment = [] then w else (w.put c.comment).bump 1) = w1 at h1 ⊢
  have h2 : Inv I d k (c.syms.foldl (fun w p => (w.put (caseLine p)).bump 1) w1) := by
    refine inv_foldl _ _ ?_ h1
    intro p hp w h
    have e : caseLine p = ([32, 32, 32, 32, 99, 97, 115, 101, 32] ++ decimal p.index ++ [58, 32, 47, 42, 32] ++ p.sym.name ++ [32, 42, 47]) ++ [10] := by simp [caseLine]
    rw [e]
    refine inv_line (I := I) (w := w) _ ?_ h.toMid
    have := hsy p hp
    nl
  generalize c.syms.foldl (fun w p => (w.put (caseLine p)).bump 1) w1 = w2 at h2 ⊢
  have h3 : Inv I d k (match c.body with | some p => w2.destructor I p | none => w2) := by
    split
    · exact inv_destructor H _ h2
    · exact h2
  exact inv_put _ (by decide) (.inr (by decide)) h3

/-! ### the actions -/

theorem destroy_start (i : Nat) (j : Int) : LineStart (destructorCall i j) := by
  right; rw [destructorCall, List.getLast?_append]; rfl

theorem lineStart_app {a b : List Nat} (ha : LineStart a) (hb : LineStart b) : LineStart (a ++ b) := by
  rcases hb with rfl | hb
  · simpa using ha
  · right; simp [List.getLast?_append, hb]

theorem lineStart_flatMap {α : Type} (l : List α) (f : α → List Nat) (h : ∀ a ∈ l, LineStart (f a)) : LineStart (l.flatMap f) := by
  induction l with
  | nil => exact .inl rfl
  | cons a l ih => exact lineStart_app (h a (by simp)) (ih (fun x hx => h x (by simp [hx])))

theorem suffix_start {s : RState} {r : RRule} {t : Trans} (h : translateCode s r = some t) : LineStart t.suffix ∧ LineStart t.pre := by
  unfold translateCode at h
  simp only [Option.bind_eq_some_iff, Option.map_eq_some_iff] at h
  obtain ⟨dd, _, st, _, rfl⟩ := h
  dsimp only
  refine ⟨lineStart_app (lineStart_flatMap _ _ ?_) ?_, ?_⟩
  · intro q hq
    obtain ⟨p, _, rfl⟩ := List.mem_map.1 hq
    unfold codeTail
    split
    · exact .inl rfl
    · dsimp only
      split
      · exact destroy_start _ _
      · exact .inl rfl
  · split
    · exact .inl rfl
    · right; rw [List.getLast?_append]; rfl
  · split
    · split
      · exact destroy_start _ _
      · exact .inl rfl
    · exact .inl rfl

theorem inv_action (H : OneLine I) (t : Trans) (hs : LineStart t.suffix) (h : Inv I d k w) : Inv I d k (w.action I t) := by
  unfold LW.action
  dsimp only
  have h1 : Mid I d k (if t.pre = [] then w else (w.put (123 :: t.pre)).bump (newlines t.pre)) := by
    split
    · exact h.toMid
    · exact mid_put _ (by simp [newlines_count]) h.toMid
  generalize (if t.pre = [] then w else (w.put (123 :: t.pre)).bump (newlines t.pre)) = w1 at h1 ⊢
  have h2 := mid_fileDir H (some t.line) h1
  generalize w1.fileDir I (some t.line) = w2 at h2 ⊢
  have h3 : Inv I d k ((((w2.put (123 :: t.code)).bump (newlines t.code)).line (cstr "}")).selfDir I) := by
    refine inv_selfDir H.outname (inv_line _ (by nl) (mid_put _ (by simp [newlines_count]) h2))
  generalize (((w2.put (123 :: t.code)).bump (newlines t.code)).line (cstr "}")).selfDir I = w3 at h3 ⊢
  have h4 := inv_put t.suffix (newlines_count _) hs h3
  exact inv_ite (fun _ => h4) (fun _ => inv_line _ (by nl) h4.toMid)

theorem mem_trans {t : Trans} {i : Nat} (h : (t, i) ∈ I.trans) : ∃ p ∈ I.rules, p.2.1 = t := by
  simp only [LText.trans, List.mem_map] at h
  obtain ⟨q, hq, e⟩ := h
  exact ⟨q.1, List.fst_mem_of_mem_zipIdx (x := q) hq, by rw [Prod.mk.injEq] at e; exact e.1⟩

theorem case_body : ∀ (l : List (Trans × Nat)) (done : List Nat), ∀ c ∈ actionCases l done, ∃ i, (c.2, i) ∈ l := by
  intro l
  induction l with
  | nil => intro done c hc; simp [actionCases] at hc
  | cons p l ih =>
    intro done c hc
    unfold actionCases at hc
    split at hc
    · obtain ⟨i, hi⟩ := ih _ c hc; exact ⟨i, by simp [hi]⟩
    · split at hc
      · obtain ⟨i, hi⟩ := ih _ c hc; exact ⟨i, by simp [hi]⟩
      · rcases List.mem_cons.1 hc with rfl | hc
        · exact ⟨p.2, by simp⟩
        · obtain ⟨i, hi⟩ := ih _ c hc; exact ⟨i, by simp [hi]⟩

theorem nn_ruleAt (H : OneLine I) (i : Nat) : 10 ∉ I.ruleTextAt i := by
  unfold LText.ruleTextAt
  cases e : I.rules[i]? with
  | none => simp
  | some p => exact H.rules p (List.mem_of_getElem? e)

theorem inv_actionCase (H : OneLine I) (c : List Nat × Trans) (hs : LineStart c.2.suffix) (h : Inv I d k w) : Inv I d k (w.actionCase I c) := by
  unfold LW.actionCase
  dsimp only
  refine inv_line _ (by nl) (Inv.toMid (inv_action H _ hs ?_))
  split
  · exact h
  · rename_i i l _
    refine inv_foldl _ _ ?_ ?_
    · intro j _ w h
      have := nn_ruleAt H j
      exact inv_line _ (by nl) h.toMid
    · have := nn_ruleAt H i
      exact inv_line _ (by nl) h.toMid

theorem inv_actions (H : OneLine I) (HT : Translated I) (h : Inv I d k w) : Inv I d k (w.actions I) := by
  unfold LW.actions
  dsimp only
  have h1 : Inv I d k (if I.rules.any fun p => p.2.1.lhsLocal then w.line (cstr "        YYMINORTYPE yylhsminor;") else w) := inv_ite (fun _ => inv_line _ (by nl) h.toMid) (fun _ => h)
  generalize (if I.rules.any fun p => p.2.1.lhsLocal then w.line (cstr "        YYMINORTYPE yylhsminor;") else w) = w1 at h1 ⊢
  refine inv_line _ (by nl) (Inv.toMid ?_)
  refine inv_foldl _ _ ?_ (inv_line _ (by nl) (Inv.toMid (inv_foldl _ _ ?_ h1)))
  · intro p hp w h
    refine inv_ite (fun _ => h) (fun _ => inv_line _ ?_ h.toMid)
    unfold LText.defaultLine
    have := nn_rule H hp
    split
    · nl
    · split <;> nl
  · intro c hc w h
    obtain ⟨i, hi⟩ := case_body _ _ c hc
    obtain ⟨p, hp, e⟩ := mem_trans hi
    refine inv_actionCase H c ?_ h
    rw [← e]
    exact (suffix_start (HT p hp)).1

end Verif.Lemon.LT
