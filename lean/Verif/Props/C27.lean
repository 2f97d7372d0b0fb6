import Verif.Byacc.Symtab
import Mathlib.Data.List.Forall2
import Mathlib.Data.List.Nodup
/-
C27 (byacc side): the symbol table behaves as a map and keeps the order of creation.
-/
set_option autoImplicit false
namespace Verif.Byacc

/-- The names in the order of their first occurrence. -/
def firsts : List (List Nat) → List (List Nat) → List (List Nat)
  | seen, [] => seen
  | seen, n :: ns => if n ∈ seen then firsts seen ns else firsts (seen ++ [n]) ns

theorem symHash_lt (s : List Nat) (hs : ∀ c ∈ s, c < 1024) (h : Nat) (e : symHash s = some h) : h < 1024 := by
  cases s with
  | nil => simp [symHash] at e
  | cons c s =>
    simp only [symHash, Option.some.injEq] at e
    subst e
    have : ∀ (s : List Nat) (k : Nat), k < 1024 → s.foldl (fun k c => (31 * k + c) % 1024) k < 1024 := by
      intro s
      induction s with
      | nil => intro k hk; exact hk
      | cons a s ih => intro k _; exact ih _ (Nat.mod_lt _ (by omega))
    exact this s c (hs c (by simp))

/-- What holds of the table between lookups. -/
structure SymOK (t : SymTab) : Prop where
  len : t.chains.length = 1024
  nodup : t.names.Nodup
  chain : ∀ i name, t.names[i]? = some name → ∃ h, symHash name = some h ∧ i ∈ t.chains.getD h []

theorem symInit_ok (n h : Nat) (e : List Nat) (hn : n = 1024) (he : symHash e = some h) (hlt : h < n) :
    SymOK ⟨(List.replicate n []).set h [0], [e]⟩ := by
  refine ⟨by simpa using hn, by simp, ?_⟩
  intro i name hi
  have : i = 0 := by
    by_contra h
    rw [List.getElem?_eq_none (by simp; omega)] at hi
    simp at hi
  subst this
  have : name = e := by simpa using hi.symm
  subst this
  refine ⟨h, he, ?_⟩
  rw [List.getD_eq_getElem?_getD, List.getElem?_set_self (by simpa using hlt)]
  simp

theorem symCreate_ok : SymOK symCreate := by
  have e : symHash [101, 114, 114, 111, 114] = some 520 := by decide
  have : symCreate = ⟨(List.replicate 1024 []).set 520 [0], [[101, 114, 114, 111, 114]]⟩ := by
    rw [symCreate, e, Option.getD_some]
  rw [this]
  exact symInit_ok _ _ _ rfl e (by omega)

theorem symLookup_spec (t : SymTab) (ok : SymOK t) (name : List Nat) (hne : name ≠ []) (hs : ∀ c ∈ name, c < 1024) :
    ∃ i t', symLookup t name = some (i, t') ∧ SymOK t' ∧ t'.names[i]? = some name ∧
      t'.names = (if name ∈ t.names then t.names else t.names ++ [name]) := by
  obtain ⟨h, hh⟩ : ∃ h, symHash name = some h := by
    cases name with
    | nil => exact absurd rfl hne
    | cons c s => exact ⟨_, rfl⟩
  unfold symLookup
  simp only [hh, Option.bind_eq_bind, Option.bind_some]
  cases hf : (t.chains.getD h []).find? (fun i => t.names[i]? == some name) with
  | some i =>
    have := List.find?_some hf
    have hi : t.names[i]? = some name := by simpa using this
    exact ⟨i, t, rfl, ok, hi, by rw [if_pos (List.mem_of_getElem? hi)]⟩
  | none =>
    have hn : name ∉ t.names := by
      intro hm
      obtain ⟨i, hi⟩ := List.getElem?_of_mem hm
      obtain ⟨h', e, hc⟩ := ok.chain i name hi
      rw [hh] at e
      cases e
      rw [List.find?_eq_none] at hf
      exact hf i hc (by simpa using hi)
    refine ⟨_, _, rfl, ⟨?_, ?_, ?_⟩, ?_, ?_⟩
    · simp [ok.len]
    · rw [List.nodup_append]
      refine ⟨ok.nodup, by simp, ?_⟩
      intro a ha b hb
      simp only [List.mem_singleton] at hb
      subst hb
      intro h; exact hn (h ▸ ha)
    · intro i n hi
      have hlt := symHash_lt name hs h hh
      by_cases hi' : i < t.names.length
      · rw [List.getElem?_append_left hi'] at hi
        obtain ⟨h', e, hc⟩ := ok.chain i n hi
        refine ⟨h', e, ?_⟩
        by_cases he : h = h'
        · subst he
          rw [List.getD_eq_getElem?_getD, List.getElem?_modify_eq]
          rw [List.getD_eq_getElem?_getD] at hc
          have : h < t.chains.length := by rw [ok.len]; exact hlt
          rw [List.getElem?_eq_getElem this] at hc ⊢
          simpa using Or.inl hc
        · rw [List.getD_eq_getElem?_getD, List.getElem?_modify_ne _ _ he, ← List.getD_eq_getElem?_getD]
          exact hc
      · rw [List.getElem?_append_right (by omega)] at hi
        have hz : i - t.names.length = 0 := by
          by_contra hz
          rw [List.getElem?_eq_none (by simp; omega)] at hi
          simp at hi
        have hn' : n = name := by rw [hz] at hi; simpa using hi.symm
        subst hn'
        refine ⟨h, hh, ?_⟩
        have : h < t.chains.length := by rw [ok.len]; exact hlt
        rw [List.getD_eq_getElem?_getD, List.getElem?_modify_eq, List.getElem?_eq_getElem this]
        simp; omega
    · simp
    · rw [if_neg hn]

theorem firsts_eq (ns : List (List Nat)) : ∀ seen, ∃ l, firsts seen ns = seen ++ l := by
  induction ns with
  | nil => intro seen; exact ⟨[], by simp [firsts]⟩
  | cons n ns ih =>
    intro seen
    rw [firsts]
    split
    · exact ih seen
    · obtain ⟨l, hl⟩ := ih (seen ++ [n])
      exact ⟨n :: l, by rw [hl]; simp⟩

theorem symLookups_spec (ns : List (List Nat)) : ∀ (t : SymTab), SymOK t →
    (∀ n ∈ ns, n ≠ [] ∧ ∀ c ∈ n, c < 1024) →
    ∃ (is : List Nat) (t' : SymTab), symLookups t ns = some (is, t') ∧ SymOK t' ∧ t'.names = firsts t.names ns ∧
      List.Forall₂ (fun i n => t'.names[i]? = some n) is ns := by
  induction ns with
  | nil => intro t ok _; exact ⟨[], t, rfl, ok, rfl, .nil⟩
  | cons n ns ih =>
    intro t ok hns
    obtain ⟨i, t1, e1, ok1, hi, hn⟩ := symLookup_spec t ok n (hns n (by simp)).1 (hns n (by simp)).2
    obtain ⟨is, t2, e2, ok2, hn2, F⟩ := ih t1 ok1 (fun m hm => hns m (by simp [hm]))
    refine ⟨i :: is, t2, by simp [symLookups, e1, e2], ok2, ?_, .cons ?_ F⟩
    · rw [hn2, firsts, hn]
      split <;> rfl
    · obtain ⟨l, hl⟩ := firsts_eq ns t1.names
      have hlt : i < t1.names.length := (List.getElem?_eq_some_iff.1 hi).1
      rw [hn2, hl, List.getElem?_append_left hlt]
      exact hi

/-- C27 (byacc): starting from the table holding just `error`, after any sequence of lookups of
non-empty ASCII names the symbols are exactly `error` and the names looked up, each once, in the order of their
first lookup, and each lookup returned the symbol with the name looked up.  So two lookups return
the same symbol iff their names are equal. -/
theorem C27_map (ns : List (List Nat)) (hns : ∀ n ∈ ns, n ≠ [] ∧ ∀ c ∈ n, c < 128) :
    ∃ (is : List Nat) (t : SymTab), symLookups symCreate ns = some (is, t) ∧
      t.names = firsts [[101, 114, 114, 111, 114]] ns ∧ t.names.Nodup ∧
      List.Forall₂ (fun i n => t.names[i]? = some n) is ns ∧
      ∀ (j k i i' : Nat) (n n' : List Nat), is[j]? = some i → is[k]? = some i' → ns[j]? = some n → ns[k]? = some n' → (i = i' ↔ n = n') := by
  obtain ⟨is, t, e, ok, hn, F⟩ := symLookups_spec ns symCreate symCreate_ok
    (fun n hn => ⟨(hns n hn).1, fun c hc => by have := (hns n hn).2 c hc; omega⟩)
  refine ⟨is, t, e, hn, ok.nodup, F, ?_⟩
  intro j k i i' n n' hj hk hj' hk'
  have hF := List.forall₂_iff_get.1 F
  have get : ∀ (j i : Nat) (n : List Nat), is[j]? = some i → ns[j]? = some n → t.names[i]? = some n := by
    intro j i n hj hj'
    obtain ⟨h1, h2⟩ := List.getElem?_eq_some_iff.1 hj
    obtain ⟨h3, h4⟩ := List.getElem?_eq_some_iff.1 hj'
    have := hF.2 j h1 h3
    simp only [List.get_eq_getElem, h2, h4] at this
    exact this
  have a := get j i n hj hj'
  have b := get k i' n' hk hk'
  constructor
  · rintro rfl; rw [a] at b; exact Option.some.inj b
  · rintro rfl
    obtain ⟨h1, h2⟩ := List.getElem?_eq_some_iff.1 a
    obtain ⟨h3, h4⟩ := List.getElem?_eq_some_iff.1 b
    exact (List.Nodup.getElem_inj_iff ok.nodup).1 (h2.trans h4.symm)

/-- Two names with the same hash value (`ab` and `bC`), and `error`. -/
example : symHash [97, 98] = symHash [98, 67] ∧
    (symLookups symCreate [[97, 98], [98, 67], [101, 114, 114, 111, 114], [97, 98], [98, 67]]).map (·.1) =
      some [1, 2, 0, 1, 2] := by decide +kernel

end Verif.Byacc
