import Verif.Proofs.LemonUnion
import Verif.Proofs.LemonGram
import Verif.Spec.LemonUnion
/-
Helper lemmas for C74: the types of symbols in a file.
-/
set_option autoImplicit false
namespace Verif.Lemon
open Verif.Spec.GFile Verif.Spec.Words

theorem isSpace_blank (c : Nat) : isSpace c = true ↔ blank c := by
  simp [isSpace, blank]

theorem dropWhile_head (p : Nat → Bool) (l : List Nat) : ∀ c ∈ (l.dropWhile p).head?, p c = false := by
  induction l with
  | nil => simp
  | cons a l ih =>
    rw [List.dropWhile_cons]
    split
    · exact ih
    · intro c hc; simp only [List.head?_cons, Option.mem_some_iff] at hc; subst hc; rename_i h; simpa using h

theorem stdType_trims (t : Word) : Trims t (stdType t) := by
  refine ⟨t.takeWhile isSpace, ((t.dropWhile isSpace).reverse.takeWhile isSpace).reverse, ?_, ?_, ?_, ?_, ?_⟩
  · unfold stdType
    rw [List.append_assoc, ← List.reverse_append, List.takeWhile_append_dropWhile, List.reverse_reverse, List.takeWhile_append_dropWhile]
  · intro c hc; exact (isSpace_blank c).mp (List.mem_takeWhile_imp hc)
  · intro c hc; exact (isSpace_blank c).mp (List.mem_takeWhile_imp (List.mem_reverse.mp hc))
  · intro c hc hb
    have h1 := dropWhile_head isSpace t
    rcases List.eq_nil_or_concat (stdType t) with h0 | ⟨l, a, h0⟩
    · rw [h0] at hc; simp at hc
    · have hpre : stdType t <+: t.dropWhile isSpace := by
        unfold stdType
        rw [← List.reverse_suffix, List.reverse_reverse]
        exact List.dropWhile_suffix _
      obtain ⟨v, hv⟩ := hpre
      have : (t.dropWhile isSpace).head? = (stdType t).head? := by
        rw [← hv, h0]
        cases l <;> simp
      rw [← this] at hc
      have h2 := h1 c hc
      rw [(isSpace_blank c).mpr hb] at h2
      simp at h2
  · intro c hc hb
    unfold stdType at hc
    rw [List.getLast?_reverse] at hc
    have h2 := dropWhile_head isSpace _ c hc
    rw [(isSpace_blank c).mpr hb] at h2
    simp at h2

theorem trims_eq {t u : Word} (h : Trims t u) : u = stdType t := by
  obtain ⟨a, b, rfl, ha, hb, h1, h2⟩ := h
  have hd : ∀ (a l : Word), (∀ c ∈ a, blank c) → (a ++ l).dropWhile isSpace = l.dropWhile isSpace := by
    intro a l ha
    induction a with
    | nil => rfl
    | cons c a ih =>
      rw [List.cons_append, List.dropWhile_cons, if_pos ((isSpace_blank c).mpr (ha c (by simp)))]
      exact ih fun c hc => ha c (by simp [hc])
  have hn : ∀ l : Word, (∀ c ∈ l.head?, ¬ blank c) → l.dropWhile isSpace = l := by
    intro l hl
    cases l with
    | nil => rfl
    | cons c l =>
      rw [List.dropWhile_cons, if_neg]
      rw [isSpace_blank]
      exact hl c (by simp)
  unfold stdType
  rw [List.append_assoc, hd a _ ha]
  cases u with
  | nil =>
    have : b.dropWhile isSpace = [] := by
      have := hd b [] hb
      simpa using this
    simp [this]
  | cons c u =>
    rw [hn (c :: u ++ b) (by simpa using h1), List.reverse_append, hd _ _ (by simpa using hb), hn, List.reverse_reverse]
    rw [List.head?_reverse]
    exact h2

variable {o : Opts} {items : List Verif.Spec.GFile.Item} {s : RState}

theorem realSymbols_eq (hv : Valid o items) (hh : Holds o items s) :
    s.realSymbols = (text "$" :: tokens o items ++ nonterminals o items).map (symOf o items) := by
  unfold RState.realSymbols
  rw [symbols_holds hv hh, nsymbol_eq hv hh, List.append_assoc, ← List.map_append]
  rw [List.take_left']
  simp; omega

theorem valueType_iff (hv : Valid o items) (hh : Holds o items s) (x : Word) (hx : x ∈ nonterminals o items) (T : Option Word) :
    ValueType o items x T ↔ T = symField s (symOf o items x) := by
  obtain ⟨h1, h2, h3, h4⟩ := (mem_nonterminals x).mp hx
  have ht : (symOf o items x).type = .NONTERMINAL := by simp [symOf, h2, h4]
  have hg : (symOf o items x).datatype.or (s.args .defaultType) = givenType o items x := by
    rw [hh.args]; rfl
  have hk : s.args .tokenType = argOf o items ("token_type", false) := hh.args .tokenType
  unfold symField
  rw [if_neg (by simp [ht]), hg, hk]
  constructor
  · intro h
    cases h with
    | noType h => simp [h]
    | ofToken h1 h2 h3 => have := trims_eq h2; subst this; simp [h1, h3]
    | own h1 h2 h3 => have := trims_eq h2; subst this; simp [h1, h3]
  · rintro rfl
    rcases Option.eq_none_or_eq_some (givenType o items x) with h | ⟨t, h⟩
    · simp only [h]; exact .noType h
    · simp only [h]
      split
      · exact .ofToken h (stdType_trims t) (by assumption)
      · exact .own h (stdType_trims t) (by assumption)

/-- the place of a symbol -/
theorem dtnum_place (hv : Valid o items) (hh : Holds o items s) (x : Word) (hx : x ∈ text "$" :: tokens o items ++ nonterminals o items) :
    ∃ i, ∃ hi : i < s.realSymbols.length, s.realSymbols[i] = symOf o items x ∧ s.dtnum x = s.union.2.getD i 0 := by
  refine ⟨s.realSymbols.findIdx fun y => y.name == x, ?_, ?_, rfl⟩
  · rw [List.findIdx_lt_length]
    refine ⟨symOf o items x, ?_, by simp [symOf]⟩
    rw [realSymbols_eq hv hh]
    exact List.mem_map_of_mem hx
  · have hlt : (s.realSymbols.findIdx fun y => y.name == x) < s.realSymbols.length := by
      rw [List.findIdx_lt_length]
      refine ⟨symOf o items x, ?_, by simp [symOf]⟩
      rw [realSymbols_eq hv hh]
      exact List.mem_map_of_mem hx
    have h1 := List.findIdx_getElem (w := hlt)
    have h2 : s.realSymbols[s.realSymbols.findIdx fun y => y.name == x] ∈ s.realSymbols := List.getElem_mem hlt
    have h3 : ∀ y ∈ s.realSymbols, y.name = x → y = symOf o items x := by
      intro y hy e
      rw [realSymbols_eq hv hh, List.mem_map] at hy
      obtain ⟨z, _, rfl⟩ := hy
      have : z = x := e
      rw [this]
    exact h3 _ h2 (by simpa using h1)

end Verif.Lemon
