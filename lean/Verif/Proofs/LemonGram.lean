import Verif.Proofs.LemonNumber
import Verif.Lemon.States
/-
Helper lemmas for C73: the grammar made of the data of a file.
-/
set_option autoImplicit false
namespace Verif.Lemon
open Verif.Spec.GFile

variable {o : Opts} {items : List Verif.Spec.GFile.Item} {s : RState}

theorem symbols_names (hv : Valid o items) (hh : Holds o items s) : s.symbols.map Sym.name = symOrder o items := by
  rw [symbols_holds hv hh]
  have h : ∀ l : List Word, (l.map (symOf o items)).map Sym.name = l := by
    intro l
    rw [List.map_map]
    exact List.map_id _
  simp only [List.map_append, h]
  rfl

theorem nodup_symOrder (hv : Valid o items) : (symOrder o items).Nodup := by
  have hn := nodup_names o items
  have ht : (tokens o items).Nodup := hn.filter _
  have hnt : (nonterminals o items).Nodup := hn.filter _
  have hc : (classes o items).Nodup := hn.filter _
  have hdef : ∀ x ∈ names o items, x ≠ defaultName := by
    rintro x hx rfl
    exact default_not_mem hv hx
  unfold symOrder
  rw [List.nodup_append', List.nodup_append', List.nodup_append', List.nodup_cons]
  refine ⟨⟨⟨⟨?_, ht⟩, hnt, ?_⟩, by simp, ?_⟩, hc, ?_⟩
  · intro h
    have := (List.mem_filter.mp h).2
    exact dollar_not_letter (.inl (by simpa using this))
  · rw [List.disjoint_left]
    intro x hx hy
    have hy := (List.mem_filter.mp hy).2
    simp only [decide_eq_true_eq] at hy
    rcases List.mem_cons.mp hx with rfl | hx
    · exact hy.2.1 rfl
    · exact hy.1 (by simpa using (List.mem_filter.mp hx).2)
  · rw [List.disjoint_left]
    intro x hx hy
    simp only [List.mem_singleton] at hy
    subst hy
    rcases List.mem_append.mp hx with hx | hx
    · rcases List.mem_cons.mp hx with hx | hx
      · exact absurd hx (by decide)
      · exact hdef _ (List.mem_filter.mp hx).1 rfl
    · exact hdef _ (List.mem_filter.mp hx).1 rfl
  · rw [List.disjoint_left]
    intro x hx hy
    have hy' := List.mem_filter.mp hy
    have hl := class_lower hv x hy'.2
    rcases List.mem_append.mp hx with hx | hx
    · rcases List.mem_append.mp hx with hx | hx
      · rcases List.mem_cons.mp hx with rfl | hx
        · exact dollar_not_letter (.inr hl)
        · exact upper_not_lower (by simpa using (List.mem_filter.mp hx).2) hl
      · have h2 := (List.mem_filter.mp hx).2
        simp only [decide_eq_true_eq] at h2
        rw [h2.2.2] at hy'
        simp at hy'
    · simp only [List.mem_singleton] at hx
      exact hdef _ hy'.1 hx

theorem index_eq (hv : Valid o items) (hh : Holds o items s) (x : Word) : s.index x = (symOrder o items).idxOf x := by
  rw [← symbols_names hv hh, List.idxOf, List.findIdx_map]
  rfl

theorem mem_tokens (x : Word) : x ∈ tokens o items ↔ x ∈ names o items ∧ Upper x := by
  unfold tokens
  rw [List.mem_filter]
  simp

theorem mem_nonterminals (x : Word) : x ∈ nonterminals o items ↔ x ∈ names o items ∧ ¬ Upper x ∧ x ≠ text "$" ∧ isClass items x = false := by
  unfold nonterminals
  rw [List.mem_filter]
  simp

theorem mem_classes (x : Word) : x ∈ classes o items ↔ isClass items x = true := by
  unfold classes
  rw [List.mem_filter]
  exact ⟨fun h => h.2, fun h => ⟨class_mem x h, h⟩⟩

theorem index_token (hv : Valid o items) (hh : Holds o items s) (x : Word) (hx : x ∈ tokens o items) : s.index x = tokenNumber o items x := by
  have hd : x ≠ text "$" := by
    rintro rfl
    exact dollar_not_letter (.inl ((mem_tokens _).mp hx).2)
  rw [index_eq hv hh, symOrder, List.append_assoc, List.append_assoc, List.idxOf_append_of_mem (by simp [hx]), List.idxOf_cons_ne _ (Ne.symm hd)]
  rfl

theorem tokenNumber_bounds (x : Word) (hx : x ∈ tokens o items) : 0 < tokenNumber o items x ∧ tokenNumber o items x < 1 + (tokens o items).length := by
  have := List.idxOf_lt_length_of_mem hx
  unfold tokenNumber
  omega

theorem index_nonterminal (hv : Valid o items) (hh : Holds o items s) (x : Word) (hx : x ∈ nonterminals o items) :
    s.index x = 1 + (tokens o items).length + (nonterminals o items).idxOf x := by
  have h := (mem_nonterminals _).mp hx
  rw [index_eq hv hh, symOrder, List.append_assoc, List.append_assoc, List.idxOf_append_of_notMem, List.idxOf_append_of_mem hx]
  · simp; omega
  · intro hm
    rcases List.mem_cons.mp hm with hm | hm
    · exact h.2.2.1 hm
    · exact h.2.1 ((mem_tokens _).mp hm).2

theorem nterminal_eq (hv : Valid o items) (hh : Holds o items s) : s.nterminal = 1 + (tokens o items).length := by
  unfold RState.nterminal
  rw [symbols_holds hv hh]
  simp only [List.map_cons, List.cons_append, List.drop_succ_cons, List.drop_zero, List.append_assoc]
  rw [List.takeWhile_append_of_pos]
  · have : (((nonterminals o items).map (symOf o items) ++ ([newSym defaultName] ++ (classes o items).map (symOf o items))).takeWhile fun y => isUpper (y.name.headD 0)) = [] := by
      cases hn : nonterminals o items with
      | nil => rfl
      | cons a l =>
        have ha : a ∈ nonterminals o items := by rw [hn]; simp
        have hu := ((mem_nonterminals _).mp ha).2.1
        rw [upper_iff] at hu
        simp only [List.map_cons, List.cons_append, List.takeWhile_cons]
        rw [if_neg (by simpa [symOf] using hu)]
    simp only [List.singleton_append] at this
    rw [List.nil_append, this]
    simp
  · intro y hy
    obtain ⟨x, hx, rfl⟩ := List.mem_map.mp hy
    exact (upper_iff x).mp ((mem_tokens _).mp hx).2

theorem lowSymbols_eq (hv : Valid o items) (hh : Holds o items s) :
    s.lowSymbols = (text "$" :: tokens o items).map (symOf o items) ++ (nonterminals o items).map (symOf o items) ++ [newSym defaultName] := by
  unfold RState.lowSymbols
  rw [symbols_holds hv hh, List.reverse_append, List.dropWhile_append_of_pos]
  · rw [List.reverse_append, List.reverse_singleton, List.singleton_append, List.dropWhile_cons]
    have : ((newSym defaultName).type == .MULTITERMINAL) = false := by decide
    rw [this]
    simp
  · intro y hy
    obtain ⟨x, hx, rfl⟩ := List.mem_map.mp (List.mem_reverse.mp hy)
    have := (mem_classes x).mp hx
    simp [symOf, this]

theorem nsymbol_eq (hv : Valid o items) (hh : Holds o items s) : s.nsymbol = 1 + (tokens o items).length + (nonterminals o items).length := by
  unfold RState.nsymbol
  rw [lowSymbols_eq hv hh]
  simp
  omega

theorem lastIsDefault (hv : Valid o items) (hh : Holds o items s) : s.lastIsDefault := by
  unfold RState.lastIsDefault
  rw [lowSymbols_eq hv hh, List.getLast?_append]
  rfl

theorem find_holds (hh : Holds o items s) (x : Word) (hx : x ∈ names o items) : s.find x = some (symOf o items x) := by
  unfold RState.find
  rw [hh.syms, List.find?_map]
  have : (names o items).find? ((fun y => y.name == x) ∘ symOf o items) = some x := by
    rw [List.find?_eq_some_iff_append]
    obtain ⟨u, v, h1⟩ := List.append_of_mem hx
    have hn := nodup_names o items
    refine ⟨by simp [symOf], u, v, h1, ?_⟩
    intro y hy
    simp only [Function.comp, symOf, Bool.not_eq_true', beq_eq_false_iff_ne]
    rintro rfl
    rw [h1, List.nodup_append'] at hn
    exact (List.disjoint_left.mp hn.2.2) hy (by simp)
  rw [this]
  rfl

theorem sym_holds (hh : Holds o items s) (x : Word) (hx : x ∈ names o items) : s.sym x = symOf o items x := by
  unfold RState.sym
  rw [find_holds hh x hx]
  rfl


/-! ### the numbers in `Gram` -/

/-- the number of an element of a right side -/
def elemNum (s : RState) (items : List Verif.Spec.GFile.Item) (e : Elem) : Nat := s.num (refOf (isClass items) e)

/-- what is known of the elements in the rules of a valid file -/
structure ElemOK (o : Opts) (items : List Verif.Spec.GFile.Item) (s : RState) (e : Elem) : Prop where
  mem : e.name ∈ names o items
  letter : e.name ≠ text "$"
  alts : ∀ X ∈ e.alts, X ∈ tokens o items
  kind : e.alts ≠ [] → Upper e.name ∨ isClass items e.name = true
  mts : Upper e.name → e.alts ≠ [] → (e.name :: e.alts).map s.index ∈ s.mts

theorem ElemOK.cases {e : Elem} (h : ElemOK o items s e) : (Upper e.name ∧ e.alts = []) ∨ (Upper e.name ∧ e.alts ≠ []) ∨ isClass items e.name = true ∨
    (e.name ∈ nonterminals o items ∧ e.alts = []) := by
  by_cases ha : e.alts = []
  · by_cases hu : Upper e.name
    · exact .inl ⟨hu, ha⟩
    · by_cases hc : isClass items e.name = true
      · exact .inr (.inr (.inl hc))
      · exact .inr (.inr (.inr ⟨(mem_nonterminals _).mpr ⟨h.mem, hu, h.letter, by simpa using hc⟩, ha⟩))
  · rcases h.kind ha with hu | hc
    · exact .inr (.inl ⟨hu, ha⟩)
    · exact .inr (.inr (.inl hc))

theorem upper_not_class (hv : Valid o items) {x : Word} (hx : Upper x) : isClass items x = false := by
  by_contra h
  exact upper_not_lower hx (class_lower hv x (by simpa using h))

theorem num_token (hv : Valid o items) (hh : Holds o items s) (x : Word) (hx : x ∈ tokens o items) : s.num (.sym x) = tokenNumber o items x := by
  have h := (mem_tokens _).mp hx
  simp only [RState.num]
  rw [sym_holds hh x h.1, index_token hv hh x hx, nterminal_eq hv hh]
  have ht : (symOf o items x).type = .TERMINAL := by simp [symOf, upper_not_class hv h.2, h.2]
  rw [ht, if_neg (by simp), if_pos (tokenNumber_bounds x hx).2]

theorem num_nonterminal (hv : Valid o items) (hh : Holds o items s) (x : Word) (hx : x ∈ nonterminals o items) :
    s.num (.sym x) = 1 + (tokens o items).length + s.mts.length + (nonterminals o items).idxOf x := by
  have h := (mem_nonterminals _).mp hx
  simp only [RState.num]
  rw [sym_holds hh x h.1, index_nonterminal hv hh x hx, nterminal_eq hv hh]
  have ht : (symOf o items x).type = .NONTERMINAL := by simp [symOf, h.2]
  rw [ht, if_neg (by simp), if_neg (by omega)]
  omega

theorem class_list_mem (hh : Holds o items s) (x : Word) (hx : isClass items x = true) : (membersOf items x).map s.index ∈ s.mts := by
  unfold RState.mts
  rw [List.mem_eraseDups, List.mem_append]
  left
  rw [List.mem_map]
  refine ⟨symOf o items x, ?_, rfl⟩
  rw [List.mem_filter, hh.syms]
  exact ⟨List.mem_map.mpr ⟨x, class_mem x hx, rfl⟩, by simp [symOf, hx]⟩

theorem num_class (hh : Holds o items s) (x : Word) (hx : isClass items x = true) :
    s.num (.sym x) = s.nterminal + s.mts.idxOf ((membersOf items x).map s.index) := by
  simp only [RState.num]
  rw [sym_holds hh x (class_mem x hx), if_pos (by simp [symOf, hx])]
  rfl

theorem refOf_class {e : Elem} (h : isClass items e.name = true) : refOf (isClass items) e = .sym e.name := by simp [refOf, h]

theorem refOf_plain {e : Elem} (h : e.alts = []) : refOf (isClass items) e = .sym e.name := by simp [refOf, h]

theorem refOf_alts (hv : Valid o items) {e : Elem} (hu : Upper e.name) (h : e.alts ≠ []) : refOf (isClass items) e = .alts (e.name :: e.alts) := by
  simp [refOf, h, upper_not_class hv hu]

/-- the list of an element that is a multi-terminal -/
def elemList (items : List Verif.Spec.GFile.Item) (e : Elem) : List Word := if isClass items e.name then membersOf items e.name else e.name :: e.alts

theorem elem_mt (hv : Valid o items) (hh : Holds o items s) {e : Elem} (h : ElemOK o items s e) (hk : (Upper e.name ∧ e.alts ≠ []) ∨ isClass items e.name = true) :
    (elemList items e).map s.index ∈ s.mts ∧ elemNum s items e = s.nterminal + s.mts.idxOf ((elemList items e).map s.index) := by
  unfold elemNum elemList
  rcases hk with ⟨hu, ha⟩ | hc
  · rw [upper_not_class hv hu, refOf_alts hv hu ha]
    exact ⟨h.mts hu ha, rfl⟩
  · rw [hc, refOf_class hc]
    exact ⟨class_list_mem hh _ hc, num_class hh _ hc⟩

theorem mem_parts_of (items : List Verif.Spec.GFile.Item) (it : Verif.Spec.GFile.Item) (h : it ∈ items) (hr : it.isRule = true) : ∃ t, (it, t) ∈ parts items := by
  induction items with
  | nil => cases h
  | cons a l ih =>
    rw [parts]
    rcases List.mem_cons.mp h with rfl | h
    · rw [if_pos hr]
      exact ⟨_, List.mem_cons_self⟩
    · obtain ⟨t, ht⟩ := ih h
      split
      · exact ⟨t, List.mem_cons_of_mem _ ht⟩
      · exact ⟨t, ht⟩

theorem parts_isRule (items : List Verif.Spec.GFile.Item) (p : Verif.Spec.GFile.Item × List Verif.Spec.GFile.Item) (h : p ∈ parts items) : p.1.isRule = true := by
  induction items with
  | nil => cases h
  | cons a l ih =>
    rw [parts] at h
    split at h
    · next hr =>
      rcases List.mem_cons.mp h with rfl | h
      · exact hr
      · exact ih h
    · exact ih h

theorem parts_sub (items : List Verif.Spec.GFile.Item) (p : Verif.Spec.GFile.Item × List Verif.Spec.GFile.Item) (h : p ∈ parts items) : ∀ it ∈ p.2, it ∈ items := by
  induction items with
  | nil => cases h
  | cons a l ih =>
    rw [parts] at h
    split at h
    · rcases List.mem_cons.mp h with rfl | h
      · intro it hit
        exact List.mem_cons_of_mem _ ((List.takeWhile_sublist _).subset hit)
      · intro it hit
        exact List.mem_cons_of_mem _ (ih h it hit)
    · intro it hit
      exact List.mem_cons_of_mem _ (ih h it hit)

theorem isClass_pre {pre : List Verif.Spec.GFile.Item} {it : Verif.Spec.GFile.Item} {post : List Verif.Spec.GFile.Item} {x : Word}
    (h : isClass pre x = true) : isClass (pre ++ it :: post) x = true := by
  unfold isClass at h ⊢
  rw [List.any_append, h, Bool.true_or]

theorem elem_ok (hv : Valid o items) (hh : Holds o items s) {l : Word} {a : Option Word} {rhs : List Elem} {line : Nat} (hr : .rule l a rhs line ∈ items)
    (e : Elem) (he : e ∈ rhs) : ElemOK o items s e := by
  obtain ⟨pre, post, hp⟩ := List.append_of_mem hr
  obtain ⟨hf, ha⟩ := hv pre _ post hp
  have hm : ∀ x ∈ e.name :: e.alts, x ∈ names o items := by
    intro x hx
    rw [mem_names]
    right
    refine ⟨_, hr, ?_⟩
    simp only [mentions, List.mem_cons, List.mem_flatMap]
    exact .inr ⟨e, he, by simpa using hx⟩
  have hl := hf.2.2 e he
  refine ⟨hm _ (by simp), ?_, ?_, ?_, ?_⟩
  · intro h
    rw [h] at hl
    exact dollar_not_letter hl.1
  · intro X hX
    rw [mem_tokens]
    refine ⟨hm _ (by simp [hX]), ?_⟩
    unfold Elem.alts at hX
    rw [List.mem_filterMap] at hX
    obtain ⟨p, hp, h⟩ := hX
    have h3 := hl.2 p hp
    cases p <;> simp at h
    subst h
    exact h3.2
  · intro hne
    rcases ha.2 e he hne with h | h
    · exact .inl h
    · right
      rw [hp]
      exact isClass_pre h
  · intro hu hne
    obtain ⟨t, ht⟩ := mem_parts_of items _ hr rfl
    unfold RState.mts
    rw [List.mem_eraseDups, List.mem_append]
    right
    rw [List.mem_flatMap, hh.rules]
    refine ⟨_, List.mem_map.mpr ⟨_, ht, rfl⟩, ?_⟩
    rw [List.mem_filterMap]
    refine ⟨(refOf (isClass items) e, e.label), List.mem_map.mpr ⟨e, he, rfl⟩, ?_⟩
    rw [refOf_alts hv hu hne]

theorem members_tokens (hv : Valid o items) (c Y : Word) (hY : Y ∈ membersOf items c) : Y ∈ tokens o items := by
  rw [mem_tokens]
  refine ⟨?_, membersOf_upper items (valid_form hv) c Y hY⟩
  unfold membersOf at hY
  split at hY
  · rw [List.mem_flatMap] at hY
    obtain ⟨it, hit, hY⟩ := hY
    rw [mem_names]
    refine .inr ⟨it, hit, ?_⟩
    split at hY
    · split at hY
      · simp only [mentions, List.mem_cons]
        exact .inr hY
      · cases hY
    · next rhs _ =>
      rw [List.mem_flatMap] at hY
      obtain ⟨e, he, hY⟩ := hY
      split at hY
      · simp only [mentions, List.mem_cons, List.mem_flatMap]
        exact .inr ⟨e, he, .inr hY⟩
      · cases hY
    · cases hY
  · cases hY

/-- the rules of the data are those of the file -/
theorem mem_rules (hh : Holds o items s) (r : RRule) : r ∈ s.rules ↔ ∃ l a rhs line t, (.rule l a rhs line, t) ∈ parts items ∧ r = ruleOf o (isClass items) (.rule l a rhs line, t) := by
  rw [hh.rules, List.mem_map]
  constructor
  · rintro ⟨⟨it, t⟩, hp, rfl⟩
    have := parts_isRule _ _ hp
    cases it <;> simp [Item.isRule] at this
    exact ⟨_, _, _, _, _, hp, rfl⟩
  · rintro ⟨l, a, rhs, line, t, hp, rfl⟩
    exact ⟨_, hp, rfl⟩

theorem mts_tokens (hv : Valid o items) (hh : Holds o items s) (m : List Nat) (hm : m ∈ s.mts) : ∀ t ∈ m, ∃ X ∈ tokens o items, t = tokenNumber o items X := by
  intro t ht
  unfold RState.mts at hm
  rw [List.mem_eraseDups, List.mem_append] at hm
  rcases hm with hm | hm
  · rw [List.mem_map] at hm
    obtain ⟨y, hy, rfl⟩ := hm
    rw [List.mem_filter, hh.syms] at hy
    obtain ⟨x, hx, rfl⟩ := List.mem_map.mp hy.1
    obtain ⟨X, hX, rfl⟩ := List.mem_map.mp ht
    have := members_tokens hv x X hX
    exact ⟨X, this, index_token hv hh X this⟩
  · rw [List.mem_flatMap] at hm
    obtain ⟨r, hr, hm⟩ := hm
    obtain ⟨l, a, rhs, line, t', hp, rfl⟩ := (mem_rules hh r).mp hr
    rw [List.mem_filterMap] at hm
    obtain ⟨p, hp', hm⟩ := hm
    obtain ⟨e, he, rfl⟩ := List.mem_map.mp hp'
    have hok := elem_ok hv hh (mem_parts _ _ hp) e he
    rcases hok.cases with ⟨h1, h2⟩ | ⟨h1, h2⟩ | h | ⟨h1, h2⟩
    · rw [refOf_plain h2] at hm; simp at hm
    · rw [refOf_alts hv h1 h2] at hm
      simp only [Option.some.injEq] at hm
      rw [← hm] at ht
      obtain ⟨X, hX, rfl⟩ := List.mem_map.mp ht
      have : X ∈ tokens o items := by
        rcases List.mem_cons.mp hX with rfl | hX
        · exact (mem_tokens _).mpr ⟨hok.mem, h1⟩
        · exact hok.alts X hX
      exact ⟨X, this, index_token hv hh X this⟩
    · rw [refOf_class h] at hm; simp at hm
    · rw [refOf_plain h2] at hm; simp at hm

end Verif.Lemon
