import Verif.Lemon.Table
import Mathlib.Data.List.Forall2
import Mathlib.Data.List.Nodup
/-
C27 (lemon side): the associative arrays behave as maps and keep the order of insertion.
-/
set_option autoImplicit false
namespace Verif.Lemon

variable {K D : Type}

/-- What holds between operations: every node is in the chain of its slot, chains hold only
nodes, no key occurs twice. -/
structure TabOK (hash : K → Nat) (t : Tab K D) : Prop where
  pos : 0 < t.size
  len : t.ht.length = t.size
  nodup : (t.tbl.map Prod.fst).Nodup
  chain : ∀ (i : Nat) (n : K × D), t.tbl[i]? = some n → i ∈ t.ht.getD (t.slot hash n.1) []
  valid : ∀ (h i : Nat), i ∈ t.ht.getD h [] → i < t.tbl.length

theorem slot_lt (hash : K → Nat) (t : Tab K D) (h : 0 < t.size) (k : K) : t.slot hash k < t.size := by
  unfold Tab.slot
  have : Nat.land (hash k) (t.size - 1) ≤ t.size - 1 := Nat.and_le_right
  omega

theorem init_ok (hash : K → Nat) (size : Nat) (h : 0 < size) : TabOK hash (Tab.init K D size) := by
  refine ⟨h, by simp [Tab.init], by simp [Tab.init], by simp [Tab.init], ?_⟩
  intro h i hi
  simp only [Tab.init, List.getD_eq_getElem?_getD, List.getElem?_replicate] at hi
  split at hi <;> simp at hi

theorem walk_none {eq : K → K → Bool} (heq : ∀ a b, eq a b = true ↔ a = b) {tbl : List (K × D)} {k : K}
    (h : ∀ n ∈ tbl, n.1 ≠ k) : ∀ is, Tab.walk eq tbl k is = none := by
  intro is
  induction is with
  | nil => rfl
  | cons i is ih =>
    unfold Tab.walk
    cases hi : tbl[i]? with
    | none => rfl
    | some n =>
      obtain ⟨k', d⟩ := n
      have : eq k' k = false := by
        rw [Bool.eq_false_iff]; intro hc
        exact h _ (List.mem_of_getElem? hi) ((heq _ _).mp hc)
      simp only [this, Bool.false_eq_true, if_false]; exact ih

theorem walk_some {eq : K → K → Bool} (heq : ∀ a b, eq a b = true ↔ a = b) {tbl : List (K × D)} {k : K} {d : D}
    (hnd : (tbl.map Prod.fst).Nodup) {i : Nat} (hi : tbl[i]? = some (k, d)) :
    ∀ is, (∀ j ∈ is, j < tbl.length) → i ∈ is → Tab.walk eq tbl k is = some d := by
  intro is
  induction is with
  | nil => intro _ h; simp at h
  | cons j is ih =>
    intro hv hmem
    unfold Tab.walk
    have hj := hv j (by simp)
    rw [List.getElem?_eq_getElem hj]
    by_cases hk : (tbl[j]).1 = k
    · have hij : j = i := by
        have hil := (List.getElem?_eq_some_iff.mp hi).1
        have e := (List.getElem?_eq_some_iff.mp hi).2
        have := (List.Nodup.getElem_inj_iff hnd (i := j) (j := i) (hi := by simpa using hj) (hj := by simpa using hil)).mp
          (by simp [hk, e])
        exact this
      subst hij
      have e := (List.getElem?_eq_some_iff.mp hi).2
      simp only [e, (heq k k).mpr rfl, if_true]
    · have : eq (tbl[j]).1 k = false := by rw [Bool.eq_false_iff]; intro hc; exact hk ((heq _ _).mp hc)
      simp only [this, Bool.false_eq_true, if_false]
      rcases List.mem_cons.mp hmem with rfl | hmem
      · rw [List.getElem?_eq_getElem hj] at hi
        simp only [Option.some.injEq] at hi
        rw [hi] at hk; exact absurd rfl hk
      · exact ih (fun j hj => hv j (by simp [hj])) hmem

theorem find_none {hash : K → Nat} {eq : K → K → Bool} (heq : ∀ a b, eq a b = true ↔ a = b) {t : Tab K D} {k : K}
    (h : ∀ n ∈ t.tbl, n.1 ≠ k) : t.find hash eq k = none := walk_none heq h _

theorem find_some {hash : K → Nat} {eq : K → K → Bool} (heq : ∀ a b, eq a b = true ↔ a = b) {t : Tab K D}
    (ok : TabOK hash t) {k : K} {d : D} (h : (k, d) ∈ t.tbl) : t.find hash eq k = some d := by
  obtain ⟨i, hi, e⟩ := List.getElem_of_mem h
  have hi' : t.tbl[i]? = some (k, d) := by rw [List.getElem?_eq_getElem hi, e]
  exact walk_some heq ok.nodup hi' _ (ok.valid _) (ok.chain i _ hi')

theorem push_chain {ht : List (List Nat)} {h x : Nat} (hh : h < ht.length) (i j : Nat) :
    i ∈ (ht.set h (x :: ht.getD h [])).getD j [] ↔ i ∈ ht.getD j [] ∨ (j = h ∧ i = x) := by
  simp only [List.getD_eq_getElem?_getD]
  by_cases hj : j = h
  · subst hj
    rw [List.getElem?_set_self hh]
    simp [or_comm]
  · rw [List.getElem?_set_ne (by omega)]
    simp [hj]

theorem grow_ok {hash : K → Nat} {t : Tab K D} (ok : TabOK hash t) : TabOK hash (t.grow hash) := by
  have hsz : 0 < t.size * 2 := by have := ok.pos; omega
  have key : ∀ (l : List (K × D)) (s : Nat) (ht : List (List Nat)), ht.length = t.size * 2 →
      let r := (l.zipIdx s).foldl (fun ht n =>
        ht.set (Nat.land (hash n.1.1) (t.size * 2 - 1)) (n.2 :: ht.getD (Nat.land (hash n.1.1) (t.size * 2 - 1)) [])) ht
      r.length = t.size * 2 ∧ ∀ j i, i ∈ r.getD j [] ↔ i ∈ ht.getD j [] ∨
        ∃ n, l[i - s]? = some n ∧ s ≤ i ∧ j = Nat.land (hash n.1) (t.size * 2 - 1) := by
    intro l
    induction l with
    | nil => intro s ht hl; simp [hl]
    | cons a l ih =>
      intro s ht hl
      simp only [List.zipIdx_cons, List.foldl_cons]
      have hlt : Nat.land (hash a.1) (t.size * 2 - 1) < ht.length := by
        have : Nat.land (hash a.1) (t.size * 2 - 1) ≤ t.size * 2 - 1 := Nat.and_le_right
        omega
      obtain ⟨h1, h2⟩ := ih (s+1) (ht.set (Nat.land (hash a.1) (t.size * 2 - 1))
        (s :: ht.getD (Nat.land (hash a.1) (t.size * 2 - 1)) [])) (by simp [hl])
      refine ⟨h1, fun j i => ?_⟩
      rw [h2 j i, push_chain hlt]
      constructor
      · rintro ((h | ⟨h, rfl⟩) | ⟨n, hn, hs, hj⟩)
        · exact Or.inl h
        · exact Or.inr ⟨a, by simp, Nat.le_refl _, h⟩
        · refine Or.inr ⟨n, ?_, by omega, hj⟩
          rw [show i - s = (i - (s+1)) + 1 by omega, List.getElem?_cons_succ]; exact hn
      · rintro (h | ⟨n, hn, hs, hj⟩)
        · exact Or.inl (Or.inl h)
        · by_cases hi : i = s
          · subst hi
            simp only [Nat.sub_self, List.getElem?_cons_zero, Option.some.injEq] at hn
            subst hn
            exact Or.inl (Or.inr ⟨hj, rfl⟩)
          · refine Or.inr ⟨n, ?_, by omega, hj⟩
            rw [show i - s = (i - (s+1)) + 1 by omega, List.getElem?_cons_succ] at hn; exact hn
  obtain ⟨k1, k2⟩ := key t.tbl 0 (List.replicate (t.size * 2) []) (by simp)
  have k3 : ∀ j i, i ∈ (t.grow hash).ht.getD j [] ↔ ∃ n, t.tbl[i]? = some n ∧ j = Nat.land (hash n.1) (t.size * 2 - 1) := by
    intro j i
    have := k2 j i
    unfold Tab.grow
    simp only at this ⊢
    rw [this]
    simp only [Nat.sub_zero, Nat.zero_le, true_and, List.getD_eq_getElem?_getD, List.getElem?_replicate]
    constructor
    · rintro (h | h)
      · split at h <;> simp at h
      · exact h
    · exact Or.inr
  refine ⟨hsz, k1, ok.nodup, ?_, ?_⟩
  · intro i n hn
    exact (k3 _ _).mpr ⟨n, hn, rfl⟩
  · intro h i hi
    obtain ⟨n, hn, -⟩ := (k3 _ _).mp hi
    exact (List.getElem?_eq_some_iff.mp hn).1

theorem insert_spec {hash : K → Nat} {eq : K → K → Bool} (heq : ∀ a b, eq a b = true ↔ a = b) {t : Tab K D}
    (ok : TabOK hash t) (k : K) (d : D) :
    ((∃ n ∈ t.tbl, n.1 = k) → t.insert hash eq k d = (t, false)) ∧
    ((∀ n ∈ t.tbl, n.1 ≠ k) → (t.insert hash eq k d).2 = true ∧ TabOK hash (t.insert hash eq k d).1 ∧
      (t.insert hash eq k d).1.tbl = t.tbl ++ [(k, d)]) := by
  constructor
  · rintro ⟨⟨k', d'⟩, hn, rfl⟩
    have := find_some (eq := eq) heq ok hn
    unfold Tab.find at this
    unfold Tab.insert
    rw [this]
  · intro h
    have hn := find_none (hash := hash) (eq := eq) heq h
    unfold Tab.find at hn
    unfold Tab.insert
    rw [hn]
    simp only
    have ok' : TabOK hash (if t.tbl.length ≥ t.size then t.grow hash else t) := by
      split
      · exact grow_ok ok
      · exact ok
    have et : (if t.tbl.length ≥ t.size then t.grow hash else t).tbl = t.tbl := by
      split <;> rfl
    generalize hu : (if t.tbl.length ≥ t.size then t.grow hash else t) = u at ok' et
    have hsl := slot_lt hash u ok'.pos k
    refine ⟨trivial, ⟨ok'.pos, by simp [ok'.len], ?_, ?_, ?_⟩, by simp [et]⟩
    · simp only [List.map_append, List.map_cons, List.map_nil]
      rw [List.nodup_append]
      refine ⟨ok'.nodup, by simp, ?_⟩
      intro a ha b hb
      simp only [List.mem_singleton] at hb
      subst hb
      obtain ⟨n, hn', rfl⟩ := List.mem_map.mp ha
      rw [et] at hn'
      exact h n hn'
    · intro i n hi
      show i ∈ (u.ht.set _ _).getD (u.slot hash n.1) []
      rw [push_chain (by rw [ok'.len]; exact hsl)]
      simp only at hi
      rw [List.getElem?_append] at hi
      split at hi
      · exact Or.inl (ok'.chain i n hi)
      · rename_i hlt
        right
        have : i - u.tbl.length = 0 := by
          by_contra hc
          rw [List.getElem?_eq_none (by simp; omega)] at hi
          simp at hi
        rw [this] at hi
        simp only [List.getElem?_cons_zero, Option.some.injEq] at hi
        subst hi
        exact ⟨rfl, by omega⟩
    · intro j i hi
      have hi' : i ∈ (u.ht.set (u.slot hash k) (u.tbl.length :: u.ht.getD (u.slot hash k) [])).getD j [] := hi
      rw [push_chain (by rw [ok'.len]; exact hsl)] at hi'
      simp only [List.length_append, List.length_singleton]
      rcases hi' with h | ⟨-, rfl⟩
      · have := ok'.valid j i h; omega
      · omega

/-! ### the map -/

/-- Result of inserting a sequence of pairs into a map that refuses to overwrite: the first pair
of every key, in the order of insertion. -/
def firstPairs [DecidableEq K] : List (K × D) → List (K × D) → List (K × D)
  | acc, [] => acc
  | acc, p :: ps => if p.1 ∈ acc.map Prod.fst then firstPairs acc ps else firstPairs (acc ++ [p]) ps

theorem inserts_spec [DecidableEq K] {hash : K → Nat} {eq : K → K → Bool} (heq : ∀ a b, eq a b = true ↔ a = b)
    (ps : List (K × D)) : ∀ t : Tab K D, TabOK hash t →
      TabOK hash (ps.foldl (fun t p => (t.insert hash eq p.1 p.2).1) t) ∧
      (ps.foldl (fun t p => (t.insert hash eq p.1 p.2).1) t).tbl = firstPairs t.tbl ps := by
  induction ps with
  | nil => intro t ok; exact ⟨ok, rfl⟩
  | cons p ps ih =>
    intro t ok
    obtain ⟨h1, h2⟩ := insert_spec (eq := eq) heq ok p.1 p.2
    rw [List.foldl_cons]
    unfold firstPairs
    by_cases h : p.1 ∈ t.tbl.map Prod.fst
    · rw [if_pos h]
      obtain ⟨n, hn, e⟩ := List.mem_map.mp h
      rw [h1 ⟨n, hn, e⟩]
      exact ih t ok
    · rw [if_neg h]
      obtain ⟨-, g2, g3⟩ := h2 fun n hn e => h (List.mem_map.mpr ⟨n, hn, e⟩)
      rw [← g3]
      exact ih _ g2

/-- C27: whatever the hash function, the initial size and the sequence of insertions, looking up
a key gives the data of the first insertion of that key, nothing if it was never inserted; and
the array of all data lists them in the order of insertion. -/
theorem C27_table [DecidableEq K] (hash : K → Nat) (size : Nat) (hs : 0 < size) (ps : List (K × D)) :
    let t := ps.foldl (fun t p => (t.insert hash (fun a b => decide (a = b)) p.1 p.2).1) (Tab.init K D size)
    (∀ k, t.find hash (fun a b => decide (a = b)) k = (ps.find? fun p => decide (p.1 = k)).map Prod.snd) ∧
    t.arrayof = (firstPairs [] ps).map Prod.snd := by
  intro t
  have heq : ∀ a b : K, (fun a b => decide (a = b)) a b = true ↔ a = b := by simp
  obtain ⟨ok, h⟩ := inserts_spec (eq := fun a b => decide (a = b)) heq ps _ (init_ok (D := D) hash size hs)
  refine ⟨fun k => ?_, by rw [Tab.arrayof]; exact congrArg _ h⟩
  have gen : ∀ (ps acc : List (K × D)) (k : K), (firstPairs acc ps).find? (fun p => decide (p.1 = k)) =
      (acc ++ ps).find? fun p => decide (p.1 = k) := by
    intro ps
    induction ps with
    | nil => intro acc k; simp [firstPairs]
    | cons p ps ih =>
      intro acc k
      unfold firstPairs
      by_cases hp : p.1 ∈ acc.map Prod.fst
      · rw [if_pos hp, ih acc k, List.find?_append, List.find?_append]
        by_cases hk : p.1 = k
        · obtain ⟨n, hn, e⟩ := List.mem_map.mp hp
          have : (acc.find? fun p => decide (p.1 = k)).isSome := by
            rw [List.find?_isSome]; exact ⟨n, hn, by simp [e, hk]⟩
          obtain ⟨x, hx⟩ := Option.isSome_iff_exists.mp this
          simp [hx]
        · rw [List.find?_cons_of_neg (by simpa using hk)]
      · rw [if_neg hp, ih (acc ++ [p]) k, List.append_assoc, List.singleton_append]
  have e := gen ps [] k
  rw [List.nil_append] at e
  rw [← e]
  have ht : t.tbl = firstPairs [] ps := h
  rw [← ht]
  cases hf : t.tbl.find? fun p => decide (p.1 = k) with
  | none =>
    rw [Option.map_none]
    apply find_none heq
    intro n hn
    have := List.find?_eq_none.mp hf n hn
    simpa using this
  | some p =>
    rw [Option.map_some]
    have hm := List.mem_of_find?_eq_some hf
    have hk : p.1 = k := by simpa using List.find?_some hf
    exact find_some heq ok (by rw [← hk]; exact hm)

/-- Three keys with the same hash value in a table of one slot, which therefore grows. -/
example : (([([1], 10), ([2], 20), ([1], 30), ([3], 40)] : List (List Nat × Nat)).foldl
      (fun (t : Tab (List Nat) Nat) (p : List Nat × Nat) =>
        (t.insert (fun _ => 7) (fun a b => decide (a = b)) p.1 p.2).1) (Tab.init _ _ 1)).arrayof = [10, 20, 40] := by
  decide +kernel

/-! ### `Symbol_new` -/

structure SymsOK (t : Tab (List Nat) SymRec) : Prop where
  tab : TabOK strhash t
  entry : ∀ (i : Nat) (x : List Nat) (s : SymRec), t.tbl[i]? = some (x, s) →
    s = { name := x, terminal := isUpper (x.headD 0), id := i }

theorem symbolNew_spec {t : Tab (List Nat) SymRec} (ok : SymsOK t) (x : List Nat) :
    SymsOK (symbolNew t x).1 ∧ (symbolNew t x).2.name = x ∧ (symbolNew t x).2.terminal = isUpper (x.headD 0) ∧
    ((symbolNew t x).1.tbl.map Prod.fst)[(symbolNew t x).2.id]? = some x ∧
    (symbolNew t x).1.tbl.map Prod.fst = (if x ∈ t.tbl.map Prod.fst then t.tbl.map Prod.fst else t.tbl.map Prod.fst ++ [x]) := by
  have heq : ∀ a b : List Nat, (fun a b => a == b) a b = true ↔ a = b := by simp
  unfold symbolNew
  by_cases h : x ∈ t.tbl.map Prod.fst
  · obtain ⟨⟨k, s⟩, hn, e⟩ := List.mem_map.mp h
    simp only at e
    subst e
    rw [find_some heq ok.tab hn]
    simp only
    obtain ⟨i, hi, he⟩ := List.getElem_of_mem hn
    have hi' : t.tbl[i]? = some (k, s) := by rw [List.getElem?_eq_getElem hi, he]
    have := ok.entry i k s hi'
    rw [if_pos h]
    refine ⟨ok, by rw [this], by rw [this], ?_, rfl⟩
    rw [this]; simp [hi']
  · have hno : ∀ n ∈ t.tbl, n.1 ≠ x := fun n hn e => h (List.mem_map.mpr ⟨n, hn, e⟩)
    rw [find_none heq hno]
    simp only
    rw [if_neg h]
    obtain ⟨-, g2, g3⟩ := (insert_spec (eq := fun a b => a == b) heq ok.tab x
      { name := x, terminal := isUpper (x.headD 0), id := t.tbl.length }).2 hno
    refine ⟨⟨g2, ?_⟩, trivial, trivial, by rw [g3]; simp, by rw [g3]; simp⟩
    intro i y s hi
    rw [g3, List.getElem?_append] at hi
    split at hi
    · exact ok.entry i y s hi
    · have : i - t.tbl.length = 0 := by
        by_contra hc
        rw [List.getElem?_eq_none (by simp; omega)] at hi
        simp at hi
      rw [this] at hi
      simp only [List.getElem?_cons_zero, Option.some.injEq, Prod.mk.injEq] at hi
      obtain ⟨rfl, rfl⟩ := hi
      congr 1; omega

/-- The names in the order of their first occurrence. -/
def firstNames : List (List Nat) → List (List Nat) → List (List Nat)
  | seen, [] => seen
  | seen, n :: ns => if n ∈ seen then firstNames seen ns else firstNames (seen ++ [n]) ns

theorem firstNames_prefix : ∀ (ns seen : List (List Nat)), seen <+: firstNames seen ns := by
  intro ns
  induction ns with
  | nil => intro seen; exact List.prefix_refl _
  | cons n ns ih =>
    intro seen
    unfold firstNames
    split
    · exact ih seen
    · exact (List.prefix_append _ _).trans (ih _)

theorem symbolNews_spec (xs : List (List Nat)) : ∀ t, SymsOK t →
    SymsOK (symbolNews t xs).1 ∧ (symbolNews t xs).1.tbl.map Prod.fst = firstNames (t.tbl.map Prod.fst) xs ∧
    List.Forall₂ (fun x s => s.name = x ∧ s.terminal = isUpper (x.headD 0) ∧
      (firstNames (t.tbl.map Prod.fst) xs)[s.id]? = some x) xs (symbolNews t xs).2 := by
  induction xs with
  | nil => intro t ok; exact ⟨ok, rfl, .nil⟩
  | cons x xs ih =>
    intro t ok
    obtain ⟨h1, h2, h3, h4, h5⟩ := symbolNew_spec ok x
    obtain ⟨g1, g2, g3⟩ := ih _ h1
    have e : firstNames (t.tbl.map Prod.fst) (x :: xs) = firstNames ((symbolNew t x).1.tbl.map Prod.fst) xs := by
      rw [h5]
      conv_lhs => unfold firstNames
      split <;> rfl
    unfold symbolNews
    simp only
    rw [e]
    refine ⟨g1, g2, .cons ⟨h2, h3, ?_⟩ g3⟩
    obtain ⟨l, hl⟩ := firstNames_prefix xs ((symbolNew t x).1.tbl.map Prod.fst)
    rw [← hl, List.getElem?_append_left (List.getElem?_eq_some_iff.mp h4).1]
    exact h4

/-- C27 for `Symbol_new`: a name always gives the symbol with that name, which is a terminal iff
the name starts with an upper-case letter; two calls give the same symbol iff the names are
equal; the symbols are numbered in the order in which their names first occur, and the array of
all symbols lists them in that order. -/
theorem C27_lemon (xs : List (List Nat)) :
    let r := symbolTable xs
    List.Forall₂ (fun x s => s.name = x ∧ s.terminal = isUpper (x.headD 0)) xs r.2 ∧
    (∀ (i j : Nat) (a b : SymRec) (x y : List Nat), r.2[i]? = some a → r.2[j]? = some b → xs[i]? = some x →
      xs[j]? = some y → (a = b ↔ x = y)) ∧
    r.1.arrayof.map SymRec.name = firstNames [] xs ∧
    ∀ (i : Nat) (s : SymRec), r.1.arrayof[i]? = some s → s.id = i := by
  intro r
  have ok0 : SymsOK (Tab.init (List Nat) SymRec 128) := ⟨init_ok _ _ (by omega), by simp [Tab.init]⟩
  obtain ⟨h1, h2, h3⟩ := symbolNews_spec xs _ ok0
  have hnd := h1.tab.nodup
  have e0 : (Tab.init (List Nat) SymRec 128).tbl.map Prod.fst = [] := rfl
  rw [e0] at h2 h3
  rw [h2] at hnd
  refine ⟨h3.imp fun _ _ h => ⟨h.1, h.2.1⟩, ?_, ?_, ?_⟩
  · intro i j a b x y ha hb hx hy
    have hget : ∀ (i : Nat) (a : SymRec) (x : List Nat), r.2[i]? = some a → xs[i]? = some x →
        a.name = x ∧ a.terminal = isUpper (x.headD 0) ∧ (firstNames [] xs)[a.id]? = some x := by
      intro i a x ha hx
      have hl := List.forall₂_iff_get.mp h3
      have hi1 := (List.getElem?_eq_some_iff.mp hx)
      have ha' : (symbolNews (Tab.init (List Nat) SymRec 128) xs).2[i]? = some a := ha
      have hi2 := (List.getElem?_eq_some_iff.mp ha')
      have := hl.2 i hi1.1 hi2.1
      simp only [List.get_eq_getElem, hi1.2, hi2.2] at this
      exact this
    obtain ⟨a1, a2, a3⟩ := hget i a x ha hx
    obtain ⟨b1, b2, b3⟩ := hget j b y hb hy
    constructor
    · intro e; rw [← a1, ← b1, e]
    · intro e
      subst e
      have hid : a.id = b.id := by
        have q1 := List.getElem?_eq_some_iff.mp a3
        have q2 := List.getElem?_eq_some_iff.mp b3
        exact (List.Nodup.getElem_inj_iff hnd (hi := q1.1) (hj := q2.1)).mp (q1.2.trans q2.2.symm)
      cases a; cases b
      simp only at a1 a2 b1 b2 hid
      simp [a1, a2, b1, b2, hid]
  · rw [Tab.arrayof, List.map_map, ← h2]
    apply List.map_congr_left
    intro n hn
    obtain ⟨i, hi, e⟩ := List.getElem_of_mem hn
    have h' : r.1.tbl[i]? = some n := by rw [List.getElem?_eq_getElem hi, e]
    have := h1.entry i n.1 n.2 h'
    simp [this]
  · intro i s hi
    rw [Tab.arrayof, List.getElem?_map] at hi
    cases hn : r.1.tbl[i]? with
    | none => rw [hn] at hi; simp at hi
    | some n =>
      rw [hn] at hi
      simp only [Option.map_some, Option.some.injEq] at hi
      subst hi
      rw [h1.entry i n.1 n.2 hn]

/-- "$", "ID", "expr", "ID", "$" -/
example : (symbolTable [[36], [73, 68], [101, 120, 112, 114], [73, 68], [36]]).2.map
    (fun s => (s.id, s.terminal)) = [(0, false), (1, true), (2, false), (1, true), (0, false)] := by decide +kernel

end Verif.Lemon
