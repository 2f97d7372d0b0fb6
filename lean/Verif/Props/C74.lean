import Verif.Proofs.LemonUnionFile
import Verif.Proofs.LemonFileDec
import Verif.Props.C73
/-
C74: the values of symbols are kept in a union with a field for every type.
-/
set_option autoImplicit false
namespace Verif.Lemon
open Verif.Spec.GFile Verif.Spec.Words

variable {o : Opts} {items : List Verif.Spec.GFile.Item} {s : RState}

/-- C74, if `error` is not declared as a token class.  The union has one field for the tokens and for the nonterminals that have no type of their own or that of the tokens, one field
for every other type, and one for the error symbol; no two fields have the same number, and every field is used.  The field of
a nonterminal has the type of its values, so that symbols have the same field if and only if their values have the same type. -/
theorem C74_union_partial (hv : Valid o items) (hh : Holds o items s) (he : isClass items (text "error") = false) :
    (s.fields.map Prod.fst).Nodup ∧ (0, none) ∈ s.fields ∧
    (∀ x ∈ tokens o items, s.dtnum x = 0) ∧
    (∀ x ∈ nonterminals o items, ∃ T, ValueType o items x T) ∧
    (∀ x ∈ nonterminals o items, x ≠ text "error" → ∀ T, ValueType o items x T → (s.dtnum x, T) ∈ s.fields) ∧
    (∀ x ∈ nonterminals o items, x ≠ text "error" → ∀ y ∈ nonterminals o items, y ≠ text "error" → ∀ T, ValueType o items x T → ValueType o items y T → s.dtnum x = s.dtnum y) ∧
    (text "error" ∈ names o items → (s.dtnum (text "error"), some (text "int")) ∈ s.fields ∧ ∀ x ∈ names o items, x ≠ text "error" → s.dtnum x ≠ s.dtnum (text "error")) ∧
    ∀ f ∈ s.fields, f.1 = 0 ∨ ∃ x ∈ names o items, s.dtnum x = f.1 := by
  have herr : errorName = text "error" := by decide
  have hn : s.nsymbol = s.realSymbols.length := by
    rw [realSymbols_eq hv hh, nsymbol_eq hv hh]; simp; omega
  have hpos : 0 < s.nsymbol := by rw [nsymbol_eq hv hh]; omega
  obtain ⟨u1, u2, u3, _, u6, u5⟩ := unionLoop_spec s s.realSymbols (List.replicate (s.nsymbol * 2) none) (found_replicate _)
    (by rw [fill_replicate, List.length_replicate, hn]; omega)
  change Found s.union.1 at u1
  change s.union.1.length = _ at u2
  change s.union.2.length = _ at u3
  rw [List.length_replicate] at u2
  have u6 : ∀ h u, slotAt s.union.1 h = some u → ∃ i < s.realSymbols.length, s.union.2.getD i 0 = h + 1 := by
    intro h u hu
    rcases u6 h u hu with h1 | h1
    · rw [slotAt_replicate] at h1; simp at h1
    · exact h1
  have u5 : ∀ i, (hi : i < s.realSymbols.length) → (s.realSymbols[i].name = errorName → s.union.2.getD i 0 = s.nsymbol * 2 + 1) ∧
      (s.realSymbols[i].name ≠ errorName → (symField s s.realSymbols[i] = none → s.union.2.getD i 0 = 0) ∧
        ∀ t, symField s s.realSymbols[i] = some t → ∃ k, s.union.2.getD i 0 = k + 1 ∧ slotAt s.union.1 k = some t) := by
    intro i hi
    have := u5 i hi
    rw [List.length_replicate] at this
    exact this
  have hin : ∀ x, x ∈ text "$" :: tokens o items ++ nonterminals o items → x ∈ names o items := by
    intro x hx
    rcases List.mem_append.mp hx with h | h
    · rcases List.mem_cons.mp h with rfl | h
      · obtain ⟨l, hl⟩ := names_cons o items; rw [hl]; simp
      · exact ((mem_tokens x).mp h).1
    · exact ((mem_nonterminals x).mp h).1
  have hdt : ∀ x ∈ text "$" :: tokens o items ++ nonterminals o items,
      (x = text "error" → s.dtnum x = s.nsymbol * 2 + 1) ∧
      (x ≠ text "error" → (symField s (symOf o items x) = none → s.dtnum x = 0) ∧
        ∀ t, symField s (symOf o items x) = some t → ∃ k, s.dtnum x = k + 1 ∧ slotAt s.union.1 k = some t) := by
    intro x hx
    obtain ⟨i, hi, h1, h2⟩ := dtnum_place hv hh x hx
    have := u5 i hi
    rw [h1, ← h2, herr] at this
    exact this
  have hmem : ∀ k t, slotAt s.union.1 k = some t → (k + 1, some t) ∈ s.union.1.zipIdx.filterMap (fun p => p.1.map fun t => (p.2 + 1, some t)) := by
    intro k t hk
    rw [List.mem_filterMap]
    refine ⟨(some t, k), ?_, rfl⟩
    have hlt := slotAt_lt hk
    unfold slotAt at hk
    rw [List.getD_eq_getElem?_getD, List.getElem?_eq_getElem hlt] at hk
    rw [List.mem_zipIdx_iff_getElem?, List.getElem?_eq_getElem hlt]
    simpa using hk
  have hslot : ∀ f ∈ s.union.1.zipIdx.filterMap (fun p => p.1.map fun t => (p.2 + 1, some t)), ∃ k t, f = (k + 1, some t) ∧ slotAt s.union.1 k = some t := by
    intro f hf
    rw [List.mem_filterMap] at hf
    obtain ⟨⟨a, k⟩, h1, h2⟩ := hf
    cases a with
    | none => simp at h2
    | some t =>
      simp only [Option.map_some, Option.some.injEq] at h2
      refine ⟨k, t, h2.symm, ?_⟩
      rw [List.mem_zipIdx_iff_getElem?] at h1
      unfold slotAt
      rw [List.getD_eq_getElem?_getD, h1]; rfl
  have herrin : text "error" ∈ names o items → text "error" ∈ nonterminals o items := by
    intro h
    rw [mem_nonterminals]
    exact ⟨h, by decide, by decide, he⟩
  have hfe : (s.find errorName).isSome ↔ text "error" ∈ names o items := by
    constructor
    · intro h
      unfold RState.find at h
      rw [List.find?_isSome] at h
      obtain ⟨y, hy, e⟩ := h
      rw [hh.syms, List.mem_map] at hy
      obtain ⟨z, hz, rfl⟩ := hy
      have : z = errorName := by simpa [symOf] using e
      rw [← herr, ← this]; exact hz
    · intro h
      rw [herr, find_holds hh _ h]; rfl
  have hnd : (s.fields.map Prod.fst).Nodup := by
    unfold RState.fields
    rw [List.map_append, List.map_cons, List.cons_append, List.nodup_cons, List.nodup_append']
    have hlt : ∀ n ∈ (s.union.1.zipIdx.filterMap (fun p => p.1.map fun t => (p.2 + 1, some t))).map Prod.fst, 0 < n ∧ n < s.nsymbol * 2 + 1 := by
      intro n hn
      rw [List.mem_map] at hn
      obtain ⟨f, hf, rfl⟩ := hn
      obtain ⟨k, t, rfl, hk⟩ := hslot f hf
      have := slotAt_lt hk
      rw [u2] at this
      constructor <;> dsimp only <;> omega
    refine ⟨?_, ?_, ?_, ?_⟩
    · dsimp only
      intro h0
      rcases List.mem_append.mp h0 with h0 | h0
      · exact absurd (hlt _ h0).1 (by omega)
      · split at h0
        · rename_i h1
          rw [List.map_singleton, List.mem_singleton] at h0
          have := (hdt (text "error") (List.mem_append_right _ (herrin (hfe.mp h1)))).1 rfl
          rw [← herr] at this
          omega
        · simp at h0
    · have : ∀ (l : List (Option (List Nat))) (n : Nat), ((l.zipIdx n).filterMap (fun p => p.1.map fun t => (p.2 + 1, some t))).Pairwise (fun a b => a.1 < b.1) := by
        intro l
        induction l with
        | nil => simp
        | cons a l ih =>
          intro n
          rw [List.zipIdx_cons, List.filterMap_cons]
          cases a with
          | none => exact ih _
          | some t =>
            simp only [Option.map_some, List.pairwise_cons]
            refine ⟨?_, ih _⟩
            intro b hb
            rw [List.mem_filterMap] at hb
            obtain ⟨⟨a, k⟩, h1, h2⟩ := hb
            have := (List.mem_zipIdx h1).1
            cases a with
            | none => simp at h2
            | some u =>
              simp only [Option.map_some, Option.some.injEq] at h2
              subst h2
              dsimp only
              omega
      have h2 := this s.union.1 0
      unfold List.Nodup
      rw [List.pairwise_map]
      exact h2.imp fun h => by omega
    · split <;> simp
    · rw [List.disjoint_left]
      intro n h0 h1
      have h2 := (hlt n h0).2
      split at h1
      · rename_i h3
        rw [List.map_singleton, List.mem_singleton] at h1
        have := (hdt (text "error") (List.mem_append_right _ (herrin (hfe.mp h3)))).1 rfl
        rw [← herr] at this
        dsimp only at h1
        omega
      · simp at h1
  refine ⟨hnd, by simp [RState.fields], ?_, ?_, ?_, ?_, ?_, ?_⟩
  · intro x hx
    obtain ⟨hx1, hx2⟩ := (mem_tokens x).mp hx
    have hne : x ≠ text "error" := by rintro rfl; exact absurd hx2 (by decide)
    refine ((hdt x (by simp [hx])).2 hne).1 ?_
    have := upper_not_class hv hx2
    simp [symField, symOf, this, hx2]
  · intro x hx
    exact ⟨_, (valueType_iff hv hh x hx _).mpr rfl⟩
  · intro x hx hne T hT
    have hT := (valueType_iff hv hh x hx T).mp hT
    obtain ⟨h1, h2⟩ := (hdt x (by simp [hx])).2 hne
    cases T with
    | none => rw [h1 hT.symm]; simp [RState.fields]
    | some t =>
      obtain ⟨k, h3, h4⟩ := h2 t hT.symm
      rw [h3]
      unfold RState.fields
      rw [List.mem_append, List.mem_cons]
      exact .inl (.inr (hmem k t h4))
  · intro x hx hne y hy hne' T hT hT'
    have hT := (valueType_iff hv hh x hx T).mp hT
    have hT' := (valueType_iff hv hh y hy T).mp hT'
    obtain ⟨h1, h2⟩ := (hdt x (by simp [hx])).2 hne
    obtain ⟨h1', h2'⟩ := (hdt y (by simp [hy])).2 hne'
    cases T with
    | none => rw [h1 hT.symm, h1' hT'.symm]
    | some t =>
      obtain ⟨k, h3, h4⟩ := h2 t hT.symm
      obtain ⟨k', h3', h4'⟩ := h2' t hT'.symm
      rw [h3, h3', ← (u1 k t h4).1, ← (u1 k' t h4').1]
  · intro hem
    have hd := (hdt (text "error") (List.mem_append_right _ (herrin hem))).1 rfl
    refine ⟨?_, ?_⟩
    · unfold RState.fields
      rw [if_pos (hfe.mpr hem), herr]
      rw [List.mem_append]
      right
      have : text "int" = [105, 110, 116] := by decide
      rw [this]; simp
    · intro x hx hne hc
      rw [hd] at hc
      by_cases hxs : x ∈ text "$" :: tokens o items ++ nonterminals o items
      · obtain ⟨h1, h2⟩ := (hdt x hxs).2 hne
        rcases Option.eq_none_or_eq_some (symField s (symOf o items x)) with h3 | ⟨t, h3⟩
        · rw [h1 h3] at hc; omega
        · obtain ⟨k, h4, h5⟩ := h2 t h3
          have := slotAt_lt h5
          rw [u2] at this
          omega
      · have : s.dtnum x = 0 := by
          unfold RState.dtnum
          rw [List.findIdx_eq_length_of_false, List.getD_eq_getElem?_getD, List.getElem?_eq_none (by rw [u3]), Option.getD_none]
          intro y hy
          rw [realSymbols_eq hv hh, List.mem_map] at hy
          obtain ⟨z, hz, rfl⟩ := hy
          rw [beq_eq_false_iff_ne]
          intro e
          exact hxs ((show z = x from e) ▸ hz)
        omega
  · intro f hf
    unfold RState.fields at hf
    rw [List.mem_append, List.mem_cons] at hf
    rcases hf with (rfl | hf) | hf
    · exact .inl rfl
    · right
      obtain ⟨k, t, rfl, hk⟩ := hslot f hf
      obtain ⟨i, hi, h1⟩ := u6 k t hk
      have hi' := hi
      rw [realSymbols_eq hv hh, List.length_map] at hi'
      refine ⟨(text "$" :: tokens o items ++ nonterminals o items)[i], hin _ (List.getElem_mem hi'), ?_⟩
      have hidx : (s.realSymbols.findIdx fun y => y.name == (text "$" :: tokens o items ++ nonterminals o items)[i]) = i := by
        have hnd : (text "$" :: tokens o items ++ nonterminals o items).Nodup := by
          have := nodup_symOrder hv (o := o)
          unfold symOrder at this
          exact (this.of_append_left).of_append_left
        rw [realSymbols_eq hv hh, List.findIdx_map]
        show List.findIdx (fun y => y == _) _ = i
        exact hnd.idxOf_getElem i hi'
      unfold RState.dtnum
      rw [hidx, h1]
    · right
      split at hf
      · rename_i h1
        rw [List.mem_singleton] at hf
        subst hf
        exact ⟨_, hfe.mp h1, by rw [herr]⟩
      · simp at hf

/-! ### example -/

def c74Items : List Verif.Spec.GFile.Item := [.arg "token_type" (text "{int") 1, .arg "default_type" (text "{char *") 2, .type (text "a") (text "{ node* ") 3,
  .type (text "b") (text "{ int ") 4, .rule (text "s") none [⟨text "a", []⟩, ⟨text "b", []⟩, ⟨text "c", []⟩] 5,
  .type (text "c") (text "{node*") 6, .rule (text "a") none [⟨text "A", []⟩] 7, .rule (text "a") none [⟨text "error", []⟩] 8]

def c74Text : List Nat := text "%token_type {int}\n%default_type {char *}\n%type a { node* }\n%type b { int }\ns ::= a b c.\n%type c {node*}\na ::= A.\na ::= error.\n"

/-- The text is that of the valid file, and the fields are: 0 for tokens and `b`; one for `a` and `c`; one for `s`; and one for `error`. -/
example : (∃ ws, HasWords c74Text ws ∧ IsFile c74Items ws) ∧ Valid c72Opts c74Items ∧ isClass c74Items (text "error") = false ∧
    ((parseText (ropts c72Opts) false c74Text).map fun s => s.1.fields) =
      some [(0, none), (1, some (text "char *")), (2, some (text "node*")), (15, some (text "int"))] ∧
    ((parseText (ropts c72Opts) false c74Text).map fun s => [text "A", text "a", text "b", text "c", text "s", text "error"].map s.1.dtnum) =
      some [0, 2, 0, 2, 1, 15] := by
  exact ⟨⟨_, file_of_check _ _ (by decide +kernel)⟩, valid_of_check _ _ (by decide +kernel), by decide, by decide +kernel, by decide +kernel⟩

/-- C74 is violated: if `error` is a token class, the union has two fields with the same number. -/
theorem C74_error_violated : ((parseText (ropts c72Opts) false (text "%token_class error A|B. s ::= error.")).map fun s => (errorcnt s, s.1.fields)) =
    some (0, [(0, none), (0, some (text "int"))]) := by decide +kernel

end Verif.Lemon
