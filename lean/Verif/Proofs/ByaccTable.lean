import Verif.Spec.ByaccMeaning
import Verif.Proofs.ByaccRunRules
/-
Auxiliary facts: the table of symbols as a function of what is said about the symbols.
-/
set_option autoImplicit false
namespace Verif.Byacc.Rd
open Spec.YText

/-! Lists -/

theorem firsts_snoc (xs : List (List Nat)) (y : List Nat) : firsts (xs ++ [y]) = if y ∈ xs then firsts xs else firsts xs ++ [y] := by
  induction xs with
  | nil => simp [firsts]
  | cons x xs ih =>
    rw [List.cons_append, firsts, ih]
    by_cases h : y ∈ xs
    · rw [if_pos h, if_pos (by simp [h]), firsts]
    · rw [if_neg h]
      by_cases hx : y = x
      · subst hx
        rw [if_pos (by simp), firsts]
        simp
      · rw [if_neg (by simp [h, hx]), firsts]
        simp [hx]

theorem mem_firsts (xs : List (List Nat)) (x : List Nat) : x ∈ firsts xs ↔ x ∈ xs := by
  induction xs with
  | nil => simp [firsts]
  | cons y xs ih =>
    simp only [firsts, List.mem_cons, List.mem_filter, ih]
    by_cases h : x = y <;> simp [h]

theorem firsts_nodup (xs : List (List Nat)) : (firsts xs).Nodup := by
  induction xs with
  | nil => exact .nil
  | cons y xs ih =>
    rw [firsts, List.nodup_cons]
    exact ⟨by simp, ih.filter _⟩

theorem getLast_filterMap_snoc {α β : Type} (f : α → Option β) (xs : List α) (x : α) :
    ((xs ++ [x]).filterMap f).getLast? = (f x).or (xs.filterMap f).getLast? := by
  rw [List.filterMap_append]
  cases h : f x with
  | none => simp [h]
  | some b => simp [h]

theorem findSome_snoc {α β : Type} (f : α → Option β) (xs : List α) (x : α) : (xs ++ [x]).findSome? f = (xs.findSome? f).or (f x) := by
  rw [List.findSome?_append]
  cases h : f x <;> simp [h]

theorem modify_idxOf {β : Type} (ks : List (List Nat)) (hn : ks.Nodup) (f : List Nat → β) (g : β → β) (n : List Nat) (hm : n ∈ ks) :
    (ks.map f).modify (ks.idxOf n) g = ks.map fun m => if m = n then g (f m) else f m := by
  induction ks with
  | nil => cases hm
  | cons k ks ih =>
    rw [List.nodup_cons] at hn
    by_cases h : k = n
    · subst h
      rw [List.idxOf_cons_self]
      simp only [List.map_cons, List.modify_zero_cons, if_true, List.cons.injEq, true_and]
      apply List.map_congr_left
      intro m hm'
      have : m ≠ k := by rintro rfl; exact hn.1 hm'
      rw [if_neg this]
    · rw [List.idxOf_cons_ne _ h]
      simp only [List.map_cons, List.modify_succ_cons]
      rw [ih hn.2 (by simpa [Ne.symm h] using hm), if_neg h]

theorem findIdx_map {β : Type} (ks : List (List Nat)) (f : List Nat → β) (nm : β → List Nat) (hf : ∀ m, nm (f m) = m) (n : List Nat) :
    (ks.map f).findIdx? (fun b => decide (nm b = n)) = if n ∈ ks then some (ks.idxOf n) else none := by
  induction ks with
  | nil => rfl
  | cons k ks ih =>
    rw [List.map_cons, List.findIdx?_cons, hf]
    by_cases h : k = n
    · subst h; simp
    · rw [ih]
      have : n ≠ k := Ne.symm h
      by_cases h' : n ∈ ks
      · simp [h, h', this, List.idxOf_cons_ne _ h]
      · simp [h, h', this]

theorem idxOf_inj' {ks : List (List Nat)} {a b : List Nat} (ha : a ∈ ks) (h : ks.idxOf a = ks.idxOf b) : a = b := by
  have h1 : ks.idxOf a < ks.length := List.idxOf_lt_length_iff.2 ha
  have h2 : ks.idxOf b < ks.length := by rw [← h]; exact h1
  have e1 := List.getElem_idxOf h1
  have e2 := List.getElem_idxOf h2
  rw [← e1, ← e2]; simp [h]

/-! The table -/

open Classical in
/-- what is known about a symbol -/
noncomputable def symOf (us : List Use) (n : List Nat) : BSym :=
  { name := n
    cls := if IsToken us n then .TERM else if IsLhs us n then .NONTERM else if (hiddenOf us n).isSome then .ACTION else .UNKNOWN
    value := ((numberOf us n).or (charOf us n)).elim UNDEFINED fun c => (c : Int)
    prec := (Spec.YText.precOf us n).elim 0 fun p => (p.1 : Int)
    assoc := (Spec.YText.precOf us n).elim .TOKEN Prod.snd
    tag := tagOf us n }

noncomputable def table (us : List Use) : List BSym := (names us).map (symOf us)

theorem names_nodup (us : List Use) : (names us).Nodup := firsts_nodup _

theorem mem_names (us : List Use) (n : List Nat) : n ∈ names us ↔ n = txt "error" ∨ ∃ u ∈ us, u.key = n := by
  unfold names; rw [mem_firsts]; simp

theorem names_snoc (us : List Use) (u : Use) : names (us ++ [u]) = if u.key ∈ names us then names us else names us ++ [u.key] := by
  have := firsts_snoc (txt "error" :: us.map Use.key) u.key
  unfold names
  rw [List.map_append, List.map_cons, List.map_nil, ← List.cons_append, this]
  congr 1
  rw [mem_firsts]

theorem names_prefix (us vs : List Use) : names us <+: names (us ++ vs) := by
  induction vs generalizing us with
  | nil => simp
  | cons v vs ih =>
    have h := ih (us ++ [v])
    rw [List.append_assoc] at h
    refine List.IsPrefix.trans ?_ h
    rw [names_snoc]
    split
    · exact List.prefix_rfl
    · exact List.prefix_append _ _

theorem idxOf_stable (us vs : List Use) (n : List Nat) (h : n ∈ names us) : (names (us ++ vs)).idxOf n = (names us).idxOf n := by
  obtain ⟨r, hr⟩ := names_prefix us vs
  rw [← hr, List.idxOf_append_of_mem h]

theorem table_name (us : List Use) : (table us).map BSym.name = names us := by
  unfold table; rw [List.map_map]; exact List.map_id _

/-! One more use -/

/-- the use makes its symbol a token -/
def Use.tok (u : Use) (n : List Nat) : Prop :=
  u.key = n ∧ ((∃ x a level tag code, u = .token x a level tag code) ∨ ∃ s, u.lit? n = some s)

theorem isToken_snoc (us : List Use) (u : Use) (n : List Nat) : IsToken (us ++ [u]) n ↔ IsToken us n ∨ Use.tok u n := by
  unfold IsToken Use.tok
  constructor
  · rintro (h | ⟨v, h1, h2⟩)
    · exact .inl (.inl h)
    · rcases List.mem_append.1 h1 with h1 | h1
      · exact .inl (.inr ⟨v, h1, h2⟩)
      · simp only [List.mem_singleton] at h1
        subst h1
        exact .inr h2
  · rintro ((h | ⟨v, h1, h2⟩) | h)
    · exact .inl h
    · exact .inr ⟨v, by simp [h1], h2⟩
    · exact .inr ⟨u, by simp, h⟩

theorem isLhs_snoc (us : List Use) (u : Use) (n : List Nat) : IsLhs (us ++ [u]) n ↔ IsLhs us n ∨ ∃ x, u = .lhs x ∧ x.key = n := by
  unfold IsLhs
  constructor
  · rintro ⟨x, h1, h2⟩
    rcases List.mem_append.1 h1 with h1 | h1
    · exact .inl ⟨x, h1, h2⟩
    · exact .inr ⟨x, (List.mem_singleton.1 h1).symm, h2⟩
  · rintro (⟨x, h1, h2⟩ | ⟨x, rfl, h2⟩)
    · exact ⟨x, by simp [h1], h2⟩
    · exact ⟨x, by simp, h2⟩

/-- a name that has not occurred -/
theorem symOf_fresh (us : List Use) (n : List Nat) (h : n ∉ names us) : symOf us n = { name := n } := by
  rw [mem_names] at h
  have h0 : n ≠ txt "error" := fun e => h (.inl e)
  have h1 : ∀ u ∈ us, u.key ≠ n := fun u hu e => h (.inr ⟨u, hu, e⟩)
  have t : ¬ IsToken us n := by
    rintro (e | ⟨u, hu, e, -⟩)
    · exact h0 e
    · exact h1 u hu e
  have l : ¬ IsLhs us n := by
    rintro ⟨x, hx, e⟩
    exact h1 _ hx e
  have hh : hiddenOf us n = none := by
    unfold hiddenOf
    rw [List.findSome?_eq_none_iff]
    intro u hu
    have := h1 u hu
    cases u with
    | hidden k l => simp only [Use.key] at this; simp [this]
    | _ => rfl
  have nn : numberOf us n = none := by
    unfold numberOf
    rw [List.getLast?_eq_none_iff, List.filterMap_eq_nil_iff]
    intro u hu
    have := h1 u hu
    cases u with
    | token x _ _ _ _ => simp only [Use.key] at this; simp [this]
    | _ => rfl
  have pp : Spec.YText.precOf us n = none := by
    unfold Spec.YText.precOf
    rw [List.getLast?_eq_none_iff, List.filterMap_eq_nil_iff]
    intro u hu
    have := h1 u hu
    cases u with
    | token x _ _ _ _ => simp only [Use.key] at this; simp [this]
    | _ => rfl
  have dd : declaredTag us n = none := by
    unfold declaredTag
    rw [List.getLast?_eq_none_iff, List.filterMap_eq_nil_iff]
    intro u hu
    have := h1 u hu
    cases u with
    | token x _ _ _ _ => simp only [Use.key] at this; simp [this]
    | typed x _ => simp only [Use.key] at this; simp [this]
    | _ => rfl
  have cc : charOf us n = none := by
    unfold charOf
    rw [List.findSome?_eq_none_iff]
    intro u hu
    have := h1 u hu
    have : u.lit? n = none := by
      cases u with
      | token x _ _ _ _ => cases x <;> simp_all [Use.lit?, Use.key]
      | typed x _ => cases x <;> simp_all [Use.lit?, Use.key]
      | plain x => cases x <;> simp_all [Use.lit?, Use.key]
      | lhs x => cases x <;> simp_all [Use.lit?, Use.key]
      | hidden => rfl
    rw [this]
  unfold symOf tagOf
  rw [if_neg t, if_neg l, hh, nn, pp, dd, cc]
  rfl

theorem lookup_table (us : List Use) (n : List Nat) :
    lookupSym (table us) n = ((firsts (names us ++ [n])).idxOf n, (firsts (names us ++ [n])).map (symOf us)) := by
  unfold lookupSym table
  have hf : firsts (names us) = names us := by
    have : ∀ l : List (List Nat), l.Nodup → firsts l = l := by
      intro l hl
      induction l with
      | nil => rfl
      | cons a l ih =>
        rw [List.nodup_cons] at hl
        rw [firsts, ih hl.2, List.filter_eq_self.2]
        intro x hx
        simp only [ne_eq, decide_not, Bool.not_eq_true', decide_eq_false_iff_not]
        rintro rfl
        exact hl.1 hx
    exact this _ (names_nodup us)
  rw [firsts_snoc, hf]
  have hi := findIdx_map (names us) (symOf us) BSym.name (fun _ => rfl) n
  have e : (fun b : BSym => b.name == n) = fun b => decide (b.name = n) := by
    funext b; by_cases h : b.name = n <;> simp [h]
  rw [e, hi]
  by_cases h : n ∈ names us
  · rw [if_pos h, if_pos h]
  · rw [if_neg h, if_neg h]
    simp only [List.map_append, List.map_cons, List.map_nil, List.length_map, Prod.mk.injEq]
    refine ⟨?_, by rw [symOf_fresh us n h]⟩
    rw [List.idxOf_append_of_notMem h]; simp

theorem names_plain (us : List Use) (u : Use) : firsts (names us ++ [u.key]) = names (us ++ [u]) := by
  rw [firsts_snoc, names_snoc]
  have hf : firsts (names us) = names us := by
    have : ∀ l : List (List Nat), l.Nodup → firsts l = l := by
      intro l hl
      induction l with
      | nil => rfl
      | cons a l ih =>
        rw [List.nodup_cons] at hl
        rw [firsts, ih hl.2, List.filter_eq_self.2]
        intro x hx
        simp only [ne_eq, decide_not, Bool.not_eq_true', decide_eq_false_iff_not]
        rintro rfl
        exact hl.1 hx
    exact this _ (names_nodup us)
  rw [hf]

theorem key_mem (us : List Use) (u : Use) : u.key ∈ names (us ++ [u]) := by
  rw [mem_names]; exact .inr ⟨u, by simp, rfl⟩

/-- changing the symbol named last -/
theorem modify_table (us vs : List Use) (u : Use) (n : List Nat) (g : BSym → BSym) (hn : n ∈ names us) (hv : names vs = names us)
    (hsame : ∀ m, m ≠ n → symOf vs m = symOf us m) (hg : symOf vs n = g (symOf us n)) :
    (table us).modify ((names us).idxOf n) g = table vs := by
  unfold table
  rw [modify_idxOf _ (names_nodup us) _ _ _ hn, hv]
  apply List.map_congr_left
  intro m _
  by_cases h : m = n
  · subst h; rw [if_pos rfl, hg]
  · rw [if_neg h, hsame m h]

theorem lit_key (u : Use) (n s : List Nat) (h : u.lit? n = some s) : n = litName s ∧ u.key = n := by
  have aux : ∀ x : Sym, (match x with | .lit s => if (Sym.lit s).key = n then some s else none | _ => none) = some s → n = litName s ∧ x.key = n := by
    intro x hx
    cases x with
    | name m => cases hx
    | lit s' =>
      simp only at hx
      split at hx
      · rename_i h; cases hx; exact ⟨h.symm, h⟩
      · cases hx
  cases u with
  | token x _ _ _ _ => exact aux x (by cases x <;> exact h)
  | typed x _ => exact aux x (by cases x <;> exact h)
  | plain x => exact aux x (by cases x <;> exact h)
  | lhs x => exact aux x (by cases x <;> exact h)
  | hidden => cases h

/-- the symbols that are not named stay as they are -/
theorem symOf_other (us : List Use) (u : Use) (m : List Nat) (hm : m ≠ u.key) (hh : ∀ l, hiddenOf us m = some l → declaredTag (us ++ [u]) l.key = declaredTag us l.key) :
    symOf (us ++ [u]) m = symOf us m := by
  have hk : u.key ≠ m := Ne.symm hm
  have t : IsToken (us ++ [u]) m ↔ IsToken us m := by
    rw [isToken_snoc]; unfold Use.tok; simp [hk]
  have l : IsLhs (us ++ [u]) m ↔ IsLhs us m := by
    rw [isLhs_snoc]
    constructor
    · rintro (h | ⟨x, rfl, h⟩)
      · exact h
      · exact absurd h hk
    · exact .inl
  have hid : hiddenOf (us ++ [u]) m = hiddenOf us m := by
    unfold hiddenOf
    rw [findSome_snoc]
    cases u with
    | hidden k l => simp only [Use.key] at hk; simp [hk]
    | _ => simp
  have nn : numberOf (us ++ [u]) m = numberOf us m := by
    unfold numberOf
    rw [getLast_filterMap_snoc]
    cases u with
    | token x _ _ _ _ => simp only [Use.key] at hk; simp [hk]
    | _ => simp
  have pp : Spec.YText.precOf (us ++ [u]) m = Spec.YText.precOf us m := by
    unfold Spec.YText.precOf
    rw [getLast_filterMap_snoc]
    cases u with
    | token x _ _ _ _ => simp only [Use.key] at hk; simp [hk]
    | _ => simp
  have dd : declaredTag (us ++ [u]) m = declaredTag us m := by
    unfold declaredTag
    rw [getLast_filterMap_snoc]
    cases u with
    | token x _ _ _ _ => simp only [Use.key] at hk; simp [hk]
    | typed x _ => simp only [Use.key] at hk; simp [hk]
    | _ => simp
  have cc : charOf (us ++ [u]) m = charOf us m := by
    unfold charOf
    rw [findSome_snoc]
    have : u.lit? m = none := by
      cases h : u.lit? m with
      | none => rfl
      | some s => exact absurd (lit_key u m s h).2 hk
    rw [this]; simp
  have tt : tagOf (us ++ [u]) m = tagOf us m := by
    unfold tagOf
    rw [dd, hid]
    cases h : hiddenOf us m with
    | none => rfl
    | some l => simp [hh l h]
  unfold symOf
  rw [propext t, propext l]
  simp only [hid, nn, pp, cc, tt]

/-- the character of a list of one -/
def oneChar : List Nat → Option Nat
  | [c] => some c
  | _ => none

/-- the symbol named, in a place where only its name and class matter -/
theorem symOf_plain (us : List Use) (x : Sym) (m : List Nat) :
    symOf (us ++ [.plain x]) m = if m = x.key then (match x with | .lit s => litSym s (symOf us m) | .name _ => symOf us m) else symOf us m := by
  have dall : ∀ n, declaredTag (us ++ [.plain x]) n = declaredTag us n := by
    intro n; unfold declaredTag; rw [getLast_filterMap_snoc]; simp
  by_cases hm : m = x.key
  · rw [if_pos hm]
    have l : IsLhs (us ++ [.plain x]) m ↔ IsLhs us m := by
      rw [isLhs_snoc]; simp
    have hid : hiddenOf (us ++ [.plain x]) m = hiddenOf us m := by
      unfold hiddenOf; rw [findSome_snoc]; simp
    have nn : numberOf (us ++ [.plain x]) m = numberOf us m := by
      unfold numberOf; rw [getLast_filterMap_snoc]; simp
    have pp : Spec.YText.precOf (us ++ [.plain x]) m = Spec.YText.precOf us m := by
      unfold Spec.YText.precOf; rw [getLast_filterMap_snoc]; simp
    have tt : tagOf (us ++ [.plain x]) m = tagOf us m := by
      unfold tagOf; rw [dall, hid]; simp [dall]
    cases x with
    | name n =>
      have t : IsToken (us ++ [.plain (.name n)]) m ↔ IsToken us m := by
        rw [isToken_snoc]; unfold Use.tok; simp [Use.lit?]
      have cc : charOf (us ++ [.plain (.name n)]) m = charOf us m := by
        unfold charOf; rw [findSome_snoc]; simp [Use.lit?]
      unfold symOf
      rw [propext t, propext l]
      simp only [hid, nn, pp, cc, tt]
    | lit s =>
      have hlit : (Use.plain (.lit s)).lit? m = some s := by simp [Use.lit?, hm]
      have t : IsToken (us ++ [.plain (.lit s)]) m := by
        rw [isToken_snoc]; exact .inr ⟨hm.symm, .inr ⟨s, hlit⟩⟩
      have cc : charOf (us ++ [.plain (.lit s)]) m = (charOf us m).or (oneChar s) := by
        unfold charOf; rw [findSome_snoc, hlit]
        congr 1
        cases s with
        | nil => rfl
        | cons c s => cases s <;> rfl
      unfold symOf litSym
      simp only [t, if_true, nn, pp, cc, tt]
      congr 1
      clear t hlit cc hm tt pp nn hid l dall
      generalize numberOf us m = a
      generalize charOf us m = b
      match s with
      | [] => simp [oneChar]
      | [c] =>
        cases a with
        | some k => simp [UNDEFINED]
        | none =>
          cases b with
          | some k => simp [UNDEFINED]
          | none => simp [oneChar]
      | _ :: _ :: _ => simp [oneChar]
  · rw [if_neg hm]
    exact symOf_other us _ m hm (fun l _ => dall _)

theorem useSym_table (us : List Use) (x : Sym) : useSym (table us) x = ((names (us ++ [.plain x])).idxOf x.key, table (us ++ [.plain x])) := by
  have hn := names_plain us (.plain x)
  simp only [Use.key] at hn
  cases x with
  | name n =>
    change lookupSym (table us) (Sym.name n).key = _
    rw [lookup_table, hn]
    unfold table
    simp only [Prod.mk.injEq, true_and]
    apply List.map_congr_left
    intro m _
    rw [symOf_plain]
    by_cases h : m = (Sym.name n).key <;> simp [h]
  | lit s =>
    change ((lookupSym (table us) (litName s)).1, (lookupSym (table us) (litName s)).2.modify (lookupSym (table us) (litName s)).1 (litSym s)) = _
    rw [lookup_table, show litName s = (Sym.lit s).key from rfl, hn]
    simp only [Prod.mk.injEq, true_and]
    unfold table
    rw [modify_idxOf _ (names_nodup _) _ _ (Sym.lit s).key (key_mem us (.plain (.lit s)))]
    apply List.map_congr_left
    intro m _
    rw [symOf_plain]

/-- the class of a symbol in the table -/
theorem table_get (us : List Use) (n : List Nat) (h : n ∈ names us) : (table us)[(names us).idxOf n]? = some (symOf us n) := by
  unfold table
  rw [List.getElem?_map]
  have h1 : (names us).idxOf n < (names us).length := List.idxOf_lt_length_iff.2 h
  rw [List.getElem?_eq_getElem h1, List.getElem_idxOf h1]; rfl

theorem cls_term (us : List Use) (n : List Nat) : (symOf us n).cls = .TERM ↔ IsToken us n := by
  unfold symOf
  simp only
  split
  · rename_i h; simp [h]
  · rename_i h
    refine iff_of_false ?_ h
    split
    · intro h; cases h
    · split
      · intro h; cases h
      · intro h; cases h

/-! Declarations -/

def NoHidden (us : List Use) : Prop := ∀ k l, Use.hidden k l ∉ us

theorem NoHidden.none {us : List Use} (h : NoHidden us) (n : List Nat) : hiddenOf us n = none := by
  unfold hiddenOf
  rw [List.findSome?_eq_none_iff]
  intro u hu
  cases u with
  | hidden k l => exact absurd hu (h k l)
  | _ => rfl

theorem NoHidden.snoc {us : List Use} (h : NoHidden us) (u : Use) (hu : ∀ k l, u ≠ .hidden k l) : NoHidden (us ++ [u]) := by
  intro k l hm
  rcases List.mem_append.1 hm with hm | hm
  · exact h k l hm
  · exact hu k l (List.mem_singleton.1 hm).symm

theorem names_same (us : List Use) (u v : Use) (h : u.key = v.key) : names (us ++ [u]) = names (us ++ [v]) := by
  rw [names_snoc, names_snoc, h]

/-- a symbol declared as a token -/
theorem token_table (us : List Use) (hh : NoHidden us) (x : Sym) (a : Assoc) (level : Nat) (tag : Option (List Nat)) (code : Option Nat) :
    (let t := (table (us ++ [.plain x])).modify ((names (us ++ [.plain x])).idxOf x.key) (declSym a level tag)
     match code with
     | none => t
     | some n => t.modify ((names (us ++ [.plain x])).idxOf x.key) fun b => { b with value := n }) = table (us ++ [.token x a level tag code]) := by
  have key : ∀ m, symOf (us ++ [.token x a level tag code]) m = if m = x.key then
      (let b := declSym a level tag (symOf (us ++ [.plain x]) m)
       match code with
       | none => b
       | some n => { b with value := n }) else symOf (us ++ [.plain x]) m := by
    intro m
    have hh' := hh.snoc (.token x a level tag code) (by simp)
    have hh'' := hh.snoc (.plain x) (by simp)
    by_cases hm : m = x.key
    · rw [if_pos hm]
      have t : IsToken (us ++ [.token x a level tag code]) m := by
        rw [isToken_snoc]; exact .inr ⟨hm.symm, .inl ⟨_, _, _, _, _, rfl⟩⟩
      have nn : numberOf (us ++ [.token x a level tag code]) m = code.or (numberOf us m) := by
        unfold numberOf; rw [getLast_filterMap_snoc]; simp [hm]
      have nn' : numberOf (us ++ [.plain x]) m = numberOf us m := by
        unfold numberOf; rw [getLast_filterMap_snoc]; simp
      have pp : Spec.YText.precOf (us ++ [.token x a level tag code]) m = if a ≠ .TOKEN then some (level, a) else Spec.YText.precOf us m := by
        unfold Spec.YText.precOf; rw [getLast_filterMap_snoc]
        by_cases ha : a = .TOKEN <;> simp [hm, ha]
      have pp' : Spec.YText.precOf (us ++ [.plain x]) m = Spec.YText.precOf us m := by
        unfold Spec.YText.precOf; rw [getLast_filterMap_snoc]; simp
      have tt : tagOf (us ++ [.token x a level tag code]) m = tag.or (declaredTag us m) := by
        unfold tagOf
        rw [hh'.none]
        unfold declaredTag; rw [getLast_filterMap_snoc]; simp [hm]
      have tt' : tagOf (us ++ [.plain x]) m = declaredTag us m := by
        unfold tagOf
        rw [hh''.none]
        unfold declaredTag; rw [getLast_filterMap_snoc]; simp
      have cc : charOf (us ++ [.token x a level tag code]) m = charOf (us ++ [.plain x]) m := by
        unfold charOf; rw [findSome_snoc, findSome_snoc]
        cases x <;> rfl
      unfold symOf declSym
      simp only [t, if_true, nn, nn', pp, pp', tt, tt', cc]
      cases code with
      | none =>
        by_cases ha : a = .TOKEN
        · subst ha
          cases tag <;> simp
        · cases tag <;> simp [ha]
      | some n =>
        by_cases ha : a = .TOKEN
        · subst ha
          cases tag <;> simp
        · cases tag <;> simp [ha]
    · rw [if_neg hm]
      rw [symOf_other us (.token x a level tag code) m hm (fun l h => by rw [hh.none] at h; cases h), symOf_other us (.plain x) m hm (fun l h => by rw [hh.none] at h; cases h)]
  have hmem := key_mem us (.plain x)
  have hn : names (us ++ [.token x a level tag code]) = names (us ++ [.plain x]) := names_same us _ _ rfl
  cases code with
  | none =>
    simp only
    exact modify_table _ _ (.plain x) x.key _ hmem hn (fun m hm => by rw [key, if_neg hm]) (by rw [key, if_pos rfl])
  | some n =>
    simp only
    rw [List.modify_modify_eq]
    exact modify_table _ _ (.plain x) x.key _ hmem hn (fun m hm => by rw [key, if_neg hm]) (by rw [key, if_pos rfl]; rfl)

/-- a symbol declared with a type -/
theorem typed_table (us : List Use) (hh : NoHidden us) (x : Sym) (tag : Option (List Nat)) :
    (table (us ++ [.plain x])).modify ((names (us ++ [.plain x])).idxOf x.key) (fun b => { b with tag := if tag.isSome then tag else b.tag }) =
      table (us ++ [.typed x tag]) := by
  have key : ∀ m, symOf (us ++ [.typed x tag]) m = if m = x.key then
      (let b := symOf (us ++ [.plain x]) m
       { b with tag := if tag.isSome then tag else b.tag }) else symOf (us ++ [.plain x]) m := by
    intro m
    have hh' := hh.snoc (.typed x tag) (by simp)
    have hh'' := hh.snoc (.plain x) (by simp)
    by_cases hm : m = x.key
    · rw [if_pos hm]
      have lt : (Use.typed x tag).lit? m = (Use.plain x).lit? m := by cases x <;> rfl
      have t : IsToken (us ++ [.typed x tag]) m ↔ IsToken (us ++ [.plain x]) m := by
        rw [isToken_snoc, isToken_snoc]; unfold Use.tok
        rw [lt]; simp [Use.key]
      have l : IsLhs (us ++ [.typed x tag]) m ↔ IsLhs (us ++ [.plain x]) m := by
        rw [isLhs_snoc, isLhs_snoc]; simp
      have nn : numberOf (us ++ [.typed x tag]) m = numberOf (us ++ [.plain x]) m := by
        unfold numberOf; rw [getLast_filterMap_snoc, getLast_filterMap_snoc]
      have pp : Spec.YText.precOf (us ++ [.typed x tag]) m = Spec.YText.precOf (us ++ [.plain x]) m := by
        unfold Spec.YText.precOf; rw [getLast_filterMap_snoc, getLast_filterMap_snoc]
      have tt : tagOf (us ++ [.typed x tag]) m = tag.or (declaredTag us m) := by
        unfold tagOf
        rw [hh'.none]
        unfold declaredTag; rw [getLast_filterMap_snoc]; simp [hm]
      have tt' : tagOf (us ++ [.plain x]) m = declaredTag us m := by
        unfold tagOf
        rw [hh''.none]
        unfold declaredTag; rw [getLast_filterMap_snoc]; simp
      have cc : charOf (us ++ [.typed x tag]) m = charOf (us ++ [.plain x]) m := by
        unfold charOf; rw [findSome_snoc, findSome_snoc, lt]
      unfold symOf
      rw [propext t, propext l]
      simp only [hh'.none, hh''.none, nn, pp, cc, tt, tt']
      cases tag <;> simp
    · rw [if_neg hm]
      rw [symOf_other us (.typed x tag) m hm (fun l h => by rw [hh.none] at h; cases h), symOf_other us (.plain x) m hm (fun l h => by rw [hh.none] at h; cases h)]
  exact modify_table _ _ (.plain x) x.key _ (key_mem us (.plain x)) (names_same us _ _ rfl) (fun m hm => by rw [key, if_neg hm]) (by rw [key, if_pos rfl])

end Verif.Byacc.Rd
