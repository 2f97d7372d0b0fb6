import Verif.Proofs.LemonAgainPrec
/-
C119: lemon reads the file printed by option `-g`, and it says the same.
-/
set_option autoImplicit false
namespace Verif.Lemon
open Verif.Spec.GFile Verif.Spec.Words Verif.Spec.Again
open Verif.Spec.Sql hiding letter

variable {o : Opts} {items : List Verif.Spec.GFile.Item} {s : RState}

theorem again_fallback_mem {S : Word} {Xs : List Word} (h : .fallback Xs ∈ again o items S) : ∃ g ∈ fallbackRuns (fallbackOf items) (tokens o items), Xs = g.1 :: g.2 := by
  unfold again at h
  simp only [List.mem_append, List.mem_flatMap, List.mem_filterMap, List.mem_map, List.mem_singleton] at h
  rcases h with (((( h | h) | h) | h) | h) | h
  · split at h <;> simp at h
  · obtain ⟨g, hg, h⟩ := h
    injection h with h
    exact ⟨g, hg, h.symm⟩
  · obtain ⟨j, -, h⟩ := h
    obtain ⟨X, l, p, h, -⟩ := level_some h
    cases h
  · simp at h
  · cases h
  · obtain ⟨p, hp, h⟩ := h
    rw [bare, List.mem_cons] at h
    rcases h with h | h
    · cases h
    · simp at h

theorem again_fallback (hv : Valid o items) (S X : Word) : fallbackOf (again o items S) X = fallbackOf items X := by
  have hs : ∀ F, fallbackOf (again o items S) X = some F → fallbackOf items X = some F := by
    intro F h
    obtain ⟨it, hi, h⟩ := List.exists_of_findSome?_eq_some h
    cases it with
    | fallback Xs =>
      obtain ⟨g, hg, rfl⟩ := again_fallback_mem hi
      simp at h
      rw [← h.2]
      exact ((runs_tokens _ _ g hg).1 X h.1).2
    | _ => cases h
  cases h : fallbackOf (again o items S) X with
  | some F => exact (hs F h).symm
  | none =>
    cases h' : fallbackOf items X with
    | none => rfl
    | some F =>
      exfalso
      have hX : X ∈ (fallbackRuns (fallbackOf items) (tokens o items)).flatMap Prod.snd := by
        rw [runs_flat]
        exact List.mem_filter.2 ⟨(fallback_tokens hv h').1, by simp [h']⟩
      obtain ⟨g, hg, hX⟩ := List.mem_flatMap.1 hX
      unfold fallbackOf at h
      rw [List.findSome?_eq_none_iff] at h
      have := h (.fallback (g.1 :: g.2)) (by
        unfold again
        simp only [List.mem_append, List.mem_map]
        exact .inl (.inl (.inl (.inl (.inr ⟨g, hg, rfl⟩)))))
      simp [hX] at this

theorem wildcards_both (a b : List Verif.Spec.GFile.Item) : wildcards (a ++ b) = wildcards a ++ wildcards b := List.flatMap_append

theorem again_wildcard (S : Word) : (wildcards (again o items S)).head? = (wildcards items).head? := by
  unfold again
  rw [wildcards_both, wildcards_both, wildcards_both, wildcards_none (_ ++ _ ++ _), wildcards_none [_], wildcards_none (List.flatMap _ _)]
  · cases (wildcards items).head? <;> simp [wildcards]
  · intro Xs hi
    obtain ⟨p, hp, h⟩ := List.mem_flatMap.1 hi
    rw [bare, List.mem_cons] at h
    rcases h with h | h
    · cases h
    · simp at h
  · simp
  · intro Xs hi
    simp only [List.mem_append, List.mem_map, List.mem_filterMap] at hi
    rcases hi with (hi | hi) | ⟨j, -, hi⟩
    · split at hi <;> simp at hi
    · simp at hi
    · obtain ⟨X, l, p, h, -⟩ := level_some hi
      cases h

/-- C119, reading the printed file.  Lemon reads the text printed by `-g` without an error.  Its data are those of a file with the tokens in the same order, the same
fallbacks, the same associativities, precedences in the same order (levels without tokens are not counted), the same wildcard, and with the rules of the first file with marks but without aliases and actions; it has the same sentences.  (Full statement: also for files with a stack size, an empty class or a rule for a token
class, and with the declared start symbol.) -/
theorem C119_reads_partial (o : Opts) (z : List Nat) (ws : List (Nat × Word)) (items : List Verif.Spec.GFile.Item) (S : Word) (hz : HasWords z ws) (hf : IsFile items ws) (hv : Valid o items)
    (hS : items.findSome? Item.lhsOf = some S) (hc : ∀ p ∈ parts items, ∀ e ∈ rhsOf p.1, choices items e ≠ []) (hl : ∀ p ∈ parts items, isClass items (lhsOf p.1) = false)
    (hk : argOf o items ("stack_size", false) = none) (hfile : 10 ∉ o.file) :
    ∃ s t s' items', parseText (ropts o) o.yacc z = some s ∧ s.1.reprint o.file = some t ∧ parseText (ropts o) o.yacc t = some s' ∧ errorcnt s' = 0 ∧ Holds o items' s'.1 ∧
      items'.map unlined = (again o items S).map unlined ∧ tokens o items' = tokens o items ∧ (∀ X, fallbackOf items' X = fallbackOf items X) ∧
      (∀ X, (precOf o items' X).map Prod.snd = (precOf o items X).map Prod.snd) ∧
      (∀ X Y p q p' q', precOf o items X = some p → precOf o items Y = some q → precOf o items' X = some p' → precOf o items' Y = some q' → (p'.1 < q'.1 ↔ p.1 < q.1)) ∧
      (wildcards items').head? = (wildcards items).head? ∧ ∀ T w, isClass items T = false → (Sentence items' T w ↔ Sentence items T w) := by
  obtain ⟨s, t, ws', h1, -, h3, h4, h5⟩ := C119_words_partial o z ws items S hz hf hv hS hc hk hfile
  obtain ⟨items', h6, h7⟩ := file_lines _ ws' h5
  have hv' : Valid o items' := valid_lines h7 (again_valid hv hS hc)
  obtain ⟨s', h8, h9, h10, -⟩ := says_count o t ws' items' h4 h6 hv'
  obtain ⟨s0, -, -, hh, -⟩ := says_count o z ws items hz hf hv
  have hprec : ∀ X, precOf o items' X = precOf o (again o items S) X := fun X => by rw [← unlined_precOf items', h7, unlined_precOf]
  refine ⟨s, t, s', items', h1, h3, h8, h9, h10, h7, ?_, ?_, ?_, ?_, ?_, ?_⟩
  · rw [← again_tokens hv hh S hc, tokens, tokens, ← unlined_names items', h7, unlined_names]
  · intro X
    rw [← again_fallback hv S, ← unlined_fallback items', h7, unlined_fallback]
  · intro X
    rw [hprec]
    cases h : precOf o items X with
    | none => rw [again_precOf_none S h]
    | some p => rw [again_precOf hv S h]; rfl
  · intro X Y p q p' q' hp hq hp' hq'
    rw [hprec, again_precOf hv S hp] at hp'
    rw [hprec, again_precOf hv S hq] at hq'
    cases hp'
    cases hq'
    have := levelsBelow_iff hv hp hq
    simp only
    omega
  · rw [← again_wildcard (o := o) (items := items) S, ← unlined_wildcards items', h7, unlined_wildcards]
  · intro T w hT
    rw [← C119_language_partial o items S T w hv hc hl hT]
    exact ⟨stands_lines h7.symm, stands_lines h7⟩

/-- the hypotheses of `C119_reads_partial` -/
example : fileCheck c119Text c119Items = true ∧ validCheck c72Opts [] c119Items = true ∧ c119Items.findSome? Item.lhsOf = some (text "s") ∧
    (∀ p ∈ parts c119Items, ∀ e ∈ rhsOf p.1, choices c119Items e ≠ []) ∧ (∀ p ∈ parts c119Items, isClass c119Items (lhsOf p.1) = false) ∧
    argOf c72Opts c119Items ("stack_size", false) = none ∧ 10 ∉ c72Opts.file := by decide +kernel

end Verif.Lemon
