import Verif.Byacc.Lalr
import Verif.Proofs.Warshall
import Mathlib.Logic.Relation
import Mathlib.Data.Finset.Range
import Mathlib.Data.Finset.Card
/-
Correctness of byacc/lalr.c digraph/traverse.
-/
set_option autoImplicit false
namespace Verif.Byacc
open Relation

/-- height of `x` on the stack (top first); 0 when absent -/
def ht : List Nat → Nat → Nat
  | [], _ => 0
  | a :: s, x => if a = x then s.length + 1 else ht s x

theorem ht_le (s : List Nat) (x : Nat) : ht s x ≤ s.length := by
  induction s with
  | nil => simp [ht]
  | cons a s ih => simp only [ht, List.length_cons]; split <;> omega

theorem ht_pos {s : List Nat} {x : Nat} : 0 < ht s x ↔ x ∈ s := by
  induction s with
  | nil => simp [ht]
  | cons a s ih =>
    simp only [ht, List.mem_cons]
    split
    · rename_i h; simp [h]
    · rename_i h
      rw [ih]
      constructor
      · exact Or.inr
      · rintro (h' | h')
        · exact absurd h'.symm h
        · exact h'

theorem ht_inj {s : List Nat} {x y : Nat} (hx : x ∈ s) (h : ht s x = ht s y) : x = y := by
  induction s with
  | nil => simp at hx
  | cons a s ih =>
    simp only [ht] at h
    have h1 := ht_le s x
    have h2 := ht_le s y
    by_cases ha : a = x <;> by_cases hb : a = y
    · omega
    · rw [if_pos ha, if_neg hb] at h; omega
    · rw [if_neg ha, if_pos hb] at h; omega
    · rw [if_neg ha, if_neg hb] at h
      rcases List.mem_cons.mp hx with h' | h'
      · exact absurd h'.symm ha
      · exact ih h' h

theorem ht_append_right {a s : List Nat} {x : Nat} (h : x ∉ a) : ht (a ++ s) x = ht s x := by
  induction a with
  | nil => rfl
  | cons b a ih =>
    simp only [List.mem_cons, not_or] at h
    simp only [List.cons_append, ht, if_neg (Ne.symm h.1), ih h.2]

theorem ht_append_left {a s : List Nat} {x : Nat} (h : x ∈ a) : s.length < ht (a ++ s) x := by
  induction a with
  | nil => simp at h
  | cons b a ih =>
    simp only [List.cons_append, ht]
    split
    · simp; omega
    · rename_i hne
      rcases List.mem_cons.mp h with h' | h'
      · exact absurd h'.symm hne
      · exact ih h'

/-- `INDEX[x]` -/
def DS.I (st : DS) (x : Nat) : Nat := st.idx.getD x 0
/-- `m ∈ F(x)` -/
def DS.S (st : DS) (x m : Nat) : Prop := BIT (row st.F x) m = true

section
variable (n w : Nat) (R : List (List Nat)) (F0 : List (List Word))

def Edg (x y : Nat) : Prop := y ∈ R.getD x []
def Rch : Nat → Nat → Prop := ReflTransGen (Edg R)
def Fst' (x m : Nat) : Prop := ∃ y, Rch R x y ∧ BIT (row F0 y) m = true

structure DInv (st : DS) : Prop where
  ilen : st.idx.length = n + 1
  mat : MatOK st.F n w
  nodup : st.stk.Nodup
  slt : ∀ x ∈ st.stk, x < n
  gray : ∀ x ∈ st.stk, 1 ≤ st.I x ∧ st.I x ≤ ht st.stk x ∧ ∃ y ∈ st.stk, ht st.stk y = st.I x ∧ Rch R x y
  rest : ∀ x, x < n → x ∉ st.stk → st.I x = 0 ∨ st.I x = n + 2
  done : ∀ x, x < n → st.I x = n + 2 → (∀ m, Fst' R F0 x m → st.S x m) ∧ ∀ y, Edg R x y → st.I y = n + 2
  lower : ∀ x m, x < n → BIT (row F0 x) m = true → st.S x m
  upper : ∀ x m, x < n → st.S x m → Fst' R F0 x m

/-- All edges of the stack node `x` have been looked at. -/
def Comp (st : DS) (x : Nat) : Prop :=
  st.I x < ht st.stk x ∧ ∀ y, Edg R x y →
    (y ∈ st.stk ∧ st.I x ≤ ht st.stk y) ∨ (st.I y = n + 2 ∧ ∀ m, Fst' R F0 y m → st.S x m)

structure DPost (i : Nat) (st st' : DS) (new : List Nat) : Prop where
  inv : DInv n w R F0 st'
  stk : st'.stk = new ++ st.stk
  frameI : ∀ x, x < n → st.I x ≠ 0 → st'.I x = st.I x
  frameS : ∀ x, x < n → st.I x ≠ 0 → row st'.F x = row st.F x
  seen : st'.I i ≠ 0
  comp : ∀ x ∈ new, Comp n R F0 st' x ∧ st'.I i ≤ st'.I x ∧ (∀ m, st'.S x m → st'.S i m) ∧ Rch R i x

/-- invariant of the loop over the edges of `i` -/
structure DLoop (i : Nat) (st st' : DS) (pre : List Nat) (new : List Nat) : Prop where
  inv : DInv n w R F0 st'
  stk : st'.stk = new ++ i :: st.stk
  frameI : ∀ x, x < n → x ≠ i → st.I x ≠ 0 → st'.I x = st.I x
  frameS : ∀ x, x < n → x ≠ i → st.I x ≠ 0 → row st'.F x = row st.F x
  comp : ∀ x ∈ new, Comp n R F0 st' x ∧ st'.I i ≤ st'.I x ∧ (∀ m, st'.S x m → st'.S i m) ∧ Rch R i x
  pre : ∀ z ∈ pre, (z ∈ st'.stk ∧ st'.I i ≤ ht st'.stk z) ∨ (st'.I z = n + 2 ∧ ∀ m, Fst' R F0 z m → st'.S i m)

def whites (st : DS) : Nat := ((Finset.range n).filter (fun x => st.I x = 0)).card
end

variable {n w : Nat} {R : List (List Nat)} {F0 : List (List Word)}

theorem whites_le {st st' : DS} (h : ∀ x, x < n → st'.I x = 0 → st.I x = 0) : whites n st' ≤ whites n st := by
  apply Finset.card_le_card
  intro x
  simp only [Finset.mem_filter, Finset.mem_range]
  rintro ⟨h1, h2⟩
  exact ⟨h1, h x h1 h2⟩

theorem whites_lt {st st' : DS} {i : Nat} (hi : i < n) (h0 : st.I i = 0) (h1 : st'.I i ≠ 0)
    (h : ∀ x, x < n → st'.I x = 0 → st.I x = 0) : whites n st' < whites n st := by
  apply Finset.card_lt_card
  rw [Finset.ssubset_iff_of_subset]
  · exact ⟨i, by simp [hi, h0], by simp [h1]⟩
  · intro x
    simp only [Finset.mem_filter, Finset.mem_range]
    rintro ⟨h1, h2⟩
    exact ⟨h1, h x h1 h2⟩

theorem Fst'.of_rch {x y m : Nat} (h : Rch R x y) (hm : Fst' R F0 y m) : Fst' R F0 x m := by
  obtain ⟨z, h1, h2⟩ := hm
  exact ⟨z, h.trans h1, h2⟩

theorem DInv.len_le {st : DS} (h : DInv n w R F0 st) : st.stk.length ≤ n := by
  have h1 : st.stk.Subperm (List.range n) :=
    h.nodup.subperm (fun x hx => List.mem_range.mpr (h.slt x hx))
  simpa using h1.length_le

theorem DInv.gray_iff {st : DS} (h : DInv n w R F0 st) {x : Nat} (hx : x < n) :
    x ∈ st.stk ↔ st.I x ≠ 0 ∧ st.I x ≠ n + 2 := by
  constructor
  · intro hm
    obtain ⟨h1, h2, -⟩ := h.gray x hm
    have h3 := ht_le st.stk x
    have h4 := h.len_le
    omega
  · rintro ⟨h1, h2⟩
    by_contra hc
    rcases h.rest x hx hc with h' | h' <;> omega

theorem DS.I_set {st : DS} {i v : Nat} {s : List Nat} {F : List (List Word)} (hi : i < st.idx.length) (x : Nat) :
    (DS.mk (st.idx.set i v) s F).I x = if x = i then v else st.I x := by
  unfold DS.I
  simp only [List.getD_eq_getElem?_getD]
  split
  · rename_i h; subst h; rw [List.getElem?_set_self hi]; rfl
  · rename_i h; rw [List.getElem?_set_ne (Ne.symm h)]

/-- starting the loop -/
theorem DLoop.start {st : DS} {i : Nat} (h : DInv n w R F0 st) (hi : i < n) (h0 : st.I i = 0) :
    DLoop n w R F0 i st ⟨st.idx.set i (st.stk.length + 1), i :: st.stk, st.F⟩ [] [] := by
  have hil : i < st.idx.length := by rw [h.ilen]; omega
  have hI := fun x => DS.I_set (v := st.stk.length + 1) (s := i :: st.stk) (F := st.F) hil x
  have hns : i ∉ st.stk := by
    rw [h.gray_iff hi]; simp [h0]
  have hlen := h.len_le
  refine ⟨⟨?_, h.mat, ?_, ?_, ?_, ?_, ?_, h.lower, h.upper⟩, rfl, ?_, ?_, ?_, ?_⟩
  · simp [h.ilen]
  · exact List.nodup_cons.mpr ⟨hns, h.nodup⟩
  · intro x hx
    rcases List.mem_cons.mp hx with rfl | hx
    · exact hi
    · exact h.slt x hx
  · intro x hx
    rw [hI]
    by_cases hxi : x = i
    · subst hxi
      rw [if_pos rfl]
      refine ⟨by omega, by simp [ht], x, List.mem_cons_self, by simp [ht], .refl⟩
    · rw [if_neg hxi]
      have hx' : x ∈ st.stk := by
        rcases List.mem_cons.mp hx with h' | h'
        · exact absurd h' hxi
        · exact h'
      obtain ⟨h1, h2, y, hy, h3, h4⟩ := h.gray x hx'
      refine ⟨h1, ?_, y, List.mem_cons_of_mem _ hy, ?_, h4⟩
      · simp only [ht]; rw [if_neg (Ne.symm hxi)]; exact h2
      · simp only [ht]
        rw [if_neg]
        · exact h3
        · rintro rfl; exact hns hy
  · intro x hx hm
    simp only [List.mem_cons, not_or] at hm
    rw [hI, if_neg hm.1]
    exact h.rest x hx hm.2
  · intro x hx
    rw [hI]
    split
    · omega
    · intro hd
      refine ⟨(h.done x hx hd).1, fun y hy => ?_⟩
      have := (h.done x hx hd).2 y hy
      rw [hI, if_neg]
      · exact this
      · rintro rfl; omega
  · intro x _ hxi _
    rw [hI, if_neg hxi]
  · intros; rfl
  · intro x hx; simp at hx
  · intro x hx; simp at hx

theorem Comp.mono {st st' : DS} {new : List Nat} (hinv : DInv n w R F0 st) (hinv' : DInv n w R F0 st')
    (hstk : st'.stk = new ++ st.stk)
    (hI : ∀ x, x < n → st.I x ≠ 0 → st'.I x = st.I x)
    (hR : ∀ x, ∀ y ∈ R.getD x [], y < n)
    {x : Nat} (hx : x ∈ st.stk) (hS : ∀ m, st.S x m → st'.S x m) (h : Comp n R F0 st x) : Comp n R F0 st' x := by
  have hnd := hinv'.nodup
  rw [hstk] at hnd
  have hdis : ∀ y, y ∈ st.stk → y ∉ new := fun y hy hn => (List.disjoint_of_nodup_append hnd) hn hy
  have hht : ∀ y, y ∈ st.stk → ht st'.stk y = ht st.stk y := by
    intro y hy; rw [hstk, ht_append_right (hdis y hy)]
  have hxn := hinv.slt x hx
  have hIx : st'.I x = st.I x := hI x hxn (by have := (hinv.gray x hx).1; omega)
  refine ⟨by rw [hIx, hht x hx]; exact h.1, ?_⟩
  intro y hy
  have hyn := hR x y hy
  rcases h.2 y hy with ⟨h1, h2⟩ | ⟨h1, h2⟩
  · left
    refine ⟨by rw [hstk]; exact List.mem_append_right _ h1, ?_⟩
    rw [hIx, hht y h1]; exact h2
  · right
    refine ⟨by rw [hI y hyn (by omega)]; exact h1, fun m hm => hS m (h2 m hm)⟩

/-- the update of node `i` after edge `i → j` -/
def updEdge (i j : Nat) (st : DS) : DS :=
  { st with
    idx := if st.idx.getD i 0 > st.idx.getD j 0 then st.idx.set i (st.idx.getD j 0) else st.idx
    F := st.F.set i (orRow (row st.F i) (row st.F j)) }

theorem DLoop.step {i j : Nat} {st t1 t2 : DS} {pre new new' : List Nat}
    (hR : ∀ x, ∀ y ∈ R.getD x [], y < n) (hij : Edg R i j) (hi : i < n)
    (hpre : ∀ z ∈ pre, z < n) (L : DLoop n w R F0 i st t1 pre new) (P : DPost n w R F0 j t1 t2 new') :
    DLoop n w R F0 i st (updEdge i j t2) (pre ++ [j]) (new' ++ new) := by
  have hj := hR i j hij
  have his : i ∈ t1.stk := by rw [L.stk]; simp
  have his2 : i ∈ t2.stk := by rw [P.stk]; exact List.mem_append_right _ his
  have hgi := (L.inv.gray_iff hi).mp his
  have hIi : t2.I i = t1.I i := P.frameI i hi hgi.1
  have hil : i < t2.idx.length := by rw [P.inv.ilen]; omega
  have hin : i ∉ new' := by
    have hnd := P.inv.nodup
    rw [P.stk] at hnd
    exact fun hn => (List.disjoint_of_nodup_append hnd) hn his
  have hI : ∀ x, (updEdge i j t2).I x = if x = i then min (t2.I i) (t2.I j) else t2.I x := by
    intro x
    unfold updEdge
    by_cases hc : t2.idx.getD i 0 > t2.idx.getD j 0
    · simp only [if_pos hc]
      rw [DS.I_set hil]
      split
      · unfold DS.I; omega
      · rfl
    · simp only [if_neg hc]
      split
      · rename_i hx; subst hx
        show t2.I x = _
        unfold DS.I; omega
      · rfl
  have hmat := P.inv.mat
  have hrow : ∀ x, x ≠ i → row (updEdge i j t2).F x = row t2.F x := by
    intro x hx
    exact row_set_ne _ _ _ _ hx
  have hleneq : (row t2.F i).length = (row t2.F j).length := by rw [hmat.2 i hi, hmat.2 j hj]
  have hrowi : row (updEdge i j t2).F i = orRow (row t2.F i) (row t2.F j) :=
    row_set_self _ _ _ (by rw [hmat.1]; exact hi)
  have hS : ∀ x m, x ≠ i → ((updEdge i j t2).S x m ↔ t2.S x m) := by
    intro x m hx; unfold DS.S; rw [hrow x hx]
  have hSi : ∀ m, (updEdge i j t2).S i m ↔ (t2.S i m ∨ t2.S j m) := by
    intro m; unfold DS.S; rw [hrowi, BIT_orRow _ _ hleneq]; simp
  have hstk : (updEdge i j t2).stk = t2.stk := rfl
  have hgi2 := (P.inv.gray_iff hi).mp his2
  have hjcase : j ∈ t2.stk ∨ t2.I j = n + 2 := by
    by_cases hjs : j ∈ t2.stk
    · exact Or.inl hjs
    · rcases P.inv.rest j hj hjs with h | h
      · exact absurd h P.seen
      · exact Or.inr h
  have hSup : ∀ x m, x < n → t2.S x m → (updEdge i j t2).S x m := by
    intro x m hx h
    by_cases hxi : x = i
    · subst hxi; exact (hSi m).mpr (Or.inl h)
    · exact (hS x m hxi).mpr h
  have hdoneI : ∀ x, t2.I x = n + 2 → (updEdge i j t2).I x = n + 2 := by
    intro x hx
    rw [hI, if_neg]
    · exact hx
    · rintro rfl; exact hgi2.2 hx
  have hgrayi := P.inv.gray i his2
  have hlen := P.inv.len_le
  have hinv : DInv n w R F0 (updEdge i j t2) := by
    refine ⟨?_, ⟨?_, ?_⟩, P.inv.nodup, P.inv.slt, ?_, ?_, ?_, ?_, ?_⟩
    · unfold updEdge; simp only; split <;> simp [P.inv.ilen]
    · unfold updEdge; simp [hmat.1]
    · intro x hx
      by_cases hxi : x = i
      · subst hxi; rw [hrowi, orRow_length _ _ hleneq]; exact hmat.2 x hi
      · rw [hrow x hxi]; exact hmat.2 x hx
    · intro x hx
      rw [hstk] at hx ⊢
      rw [hI]
      by_cases hxi : x = i
      · subst hxi
        rw [if_pos rfl]
        rcases Nat.lt_or_ge (t2.I j) (t2.I x) with hlt | hge
        · rw [Nat.min_eq_right (by omega)]
          rcases hjcase with hjs | hjd
          · obtain ⟨h1, h2, y, hy, h3, h4⟩ := P.inv.gray j hjs
            exact ⟨h1, by omega, y, hy, h3, ReflTransGen.head hij h4⟩
          · have := ht_le t2.stk x
            omega
        · rw [Nat.min_eq_left (by omega)]
          exact hgrayi
      · rw [if_neg hxi]; exact P.inv.gray x hx
    · intro x hx hm
      rw [hI, if_neg]
      · exact P.inv.rest x hx hm
      · rintro rfl; exact hm his2
    · intro x hx hd
      have hxi : x ≠ i := by
        rintro rfl
        rw [hI, if_pos rfl] at hd
        have := ht_le t2.stk x
        have := hgrayi.2.1
        omega
      rw [hI, if_neg hxi] at hd
      obtain ⟨h1, h2⟩ := P.inv.done x hx hd
      exact ⟨fun m hm => (hS x m hxi).mpr (h1 m hm), fun y hy => hdoneI y (h2 y hy)⟩
    · intro x m hx hm
      exact hSup x m hx (P.inv.lower x m hx hm)
    · intro x m hx hm
      by_cases hxi : x = i
      · subst hxi
        rcases (hSi m).mp hm with h | h
        · exact P.inv.upper x m hx h
        · exact (P.inv.upper j m hj h).of_rch (ReflTransGen.single hij)
      · exact P.inv.upper x m hx ((hS x m hxi).mp hm)
  have hmono : ∀ x, x ∈ t2.stk → x ≠ i → Comp n R F0 t2 x → Comp n R F0 (updEdge i j t2) x := by
    intro x hx hxi hc
    refine ⟨by rw [hI, if_neg hxi]; exact hc.1, fun y hy => ?_⟩
    rcases hc.2 y hy with ⟨h1, h2⟩ | ⟨h1, h2⟩
    · left; refine ⟨h1, ?_⟩
      rw [hI, if_neg hxi]; exact h2
    · right; exact ⟨hdoneI y h1, fun m hm => (hS x m hxi).mpr (h2 m hm)⟩
  have hnd2 := P.inv.nodup
  rw [P.stk, L.stk] at hnd2
  refine ⟨hinv, ?_, ?_, ?_, ?_, ?_⟩
  · rw [hstk, P.stk, L.stk, List.append_assoc]
  · intro x hx hxi h0
    rw [hI, if_neg hxi]
    have h1 := L.frameI x hx hxi h0
    rw [P.frameI x hx (by rw [h1]; exact h0), h1]
  · intro x hx hxi h0
    rw [hrow x hxi]
    have h1 := L.frameI x hx hxi h0
    rw [P.frameS x hx (by rw [h1]; exact h0), L.frameS x hx hxi h0]
  · intro x hx
    rcases List.mem_append.mp hx with hx | hx
    · obtain ⟨h1, h2, h3, h4⟩ := P.comp x hx
      have hxs : x ∈ t2.stk := by rw [P.stk]; exact List.mem_append_left _ hx
      have hxi : x ≠ i := by rintro rfl; exact hin hx
      refine ⟨hmono x hxs hxi h1, ?_, ?_, ReflTransGen.head hij h4⟩
      · rw [hI, hI, if_pos rfl, if_neg hxi]; omega
      · intro m hm
        exact (hSi m).mpr (Or.inr (h3 m ((hS x m hxi).mp hm)))
    · obtain ⟨h1, h2, h3, h4⟩ := L.comp x hx
      have hxs1 : x ∈ t1.stk := by rw [L.stk]; exact List.mem_append_left _ hx
      have hxs : x ∈ t2.stk := by rw [P.stk]; exact List.mem_append_right _ hxs1
      have hxn := L.inv.slt x hxs1
      have hxg := (L.inv.gray_iff hxn).mp hxs1
      have hxi : x ≠ i := by
        have := (List.nodup_append.mp (List.nodup_append.mp hnd2).2.1).2.2
        exact this x hx i List.mem_cons_self
      have hSx : ∀ m, t2.S x m ↔ t1.S x m := by
        intro m; unfold DS.S; rw [P.frameS x hxn hxg.1]
      have hSi1 : ∀ m, t2.S i m ↔ t1.S i m := by
        intro m; unfold DS.S; rw [P.frameS i hi hgi.1]
      refine ⟨hmono x hxs hxi (h1.mono L.inv P.inv P.stk P.frameI hR hxs1 (fun m hm => (hSx m).mpr hm)), ?_, ?_, h4⟩
      · rw [hI, hI, if_pos rfl, if_neg hxi, P.frameI x hxn hxg.1]; omega
      · intro m hm
        exact (hSi m).mpr (Or.inl ((hSi1 m).mpr (h3 m ((hSx m).mp ((hS x m hxi).mp hm)))))
  · intro z hz
    rcases List.mem_append.mp hz with hz | hz
    · rcases L.pre z hz with ⟨h1, h2⟩ | ⟨h1, h2⟩
      · left
        have hzn : z ∉ new' := by
          have hnd := P.inv.nodup
          rw [P.stk] at hnd
          exact fun hn => (List.disjoint_of_nodup_append hnd) hn h1
        refine ⟨by rw [hstk, P.stk]; exact List.mem_append_right _ h1, ?_⟩
        rw [hI, if_pos rfl, hstk, P.stk, ht_append_right hzn]; omega
      · right
        have hzn := hpre z hz
        refine ⟨hdoneI z (by rw [P.frameI z hzn (by omega)]; exact h1), fun m hm => ?_⟩
        apply hSup i m hi
        have := h2 m hm
        unfold DS.S at this ⊢
        rw [P.frameS i hi hgi.1]; exact this
    · simp only [List.mem_singleton] at hz
      subst hz
      rcases hjcase with hjs | hjd
      · left
        refine ⟨hjs, ?_⟩
        have := (P.inv.gray z hjs).2.1
        rw [hI, if_pos rfl, hstk]; omega
      · right
        exact ⟨hdoneI z hjd, fun m hm => (hSi m).mpr (Or.inr ((P.inv.done z hj hjd).1 m hm))⟩


theorem travLoop_spec {i fuel : Nat} {st : DS} (hR : ∀ x, ∀ y ∈ R.getD x [], y < n) (hi : i < n)
    (trav : Nat → DS → Option DS)
    (htrav : ∀ j t, DInv n w R F0 t → j < n → t.I j = 0 → whites n t ≤ fuel →
      ∃ t' new, trav j t = some t' ∧ DPost n w R F0 j t t' new) :
    ∀ (js pre : List Nat) (t : DS) (new : List Nat), pre ++ js = R.getD i [] → DLoop n w R F0 i st t pre new →
      whites n t ≤ fuel →
      ∃ t' new', travLoop trav i js t = some t' ∧ DLoop n w R F0 i st t' (R.getD i []) new' := by
  intro js
  induction js with
  | nil =>
    intro pre t new he L _
    rw [List.append_nil] at he
    subst he
    exact ⟨t, new, rfl, L⟩
  | cons j js ih =>
    intro pre t new he L hw
    have hij : Edg R i j := by unfold Edg; rw [← he]; simp
    have hj := hR i j hij
    have hpre : ∀ z ∈ pre, z < n := fun z hz => hR i z (by rw [← he]; exact List.mem_append_left _ hz)
    have hmid : ∃ t1 new1, (if t.idx.getD j 0 = 0 then trav j t else some t) = some t1 ∧
        DPost n w R F0 j t t1 new1 := by
      by_cases h0 : t.idx.getD j 0 = 0
      · rw [if_pos h0]
        exact htrav j t L.inv hj h0 hw
      · rw [if_neg h0]
        exact ⟨t, [], rfl, L.inv, rfl, fun _ _ _ => rfl, fun _ _ _ => rfl, h0, fun x hx => by simp at hx⟩
    obtain ⟨t1, new1, e1, P⟩ := hmid
    unfold travLoop
    rw [e1]
    have L' := L.step hR hij hi hpre P
    refine ih (pre ++ [j]) (updEdge i j t1) _ (by simpa using he) L' ?_
    refine Nat.le_trans (whites_le ?_) hw
    intro x hx h0
    by_contra hne
    have h1 := P.frameI x hx hne
    have his : i ∈ (updEdge i j t1).stk := by rw [L'.stk]; simp
    by_cases hxi : x = i
    · subst hxi
      have := (L'.inv.gray x his).1
      omega
    · -- unchanged
      have : (updEdge i j t1).I x = t1.I x := by
        unfold updEdge DS.I
        simp only
        split
        · simp only [List.getD_eq_getElem?_getD]
          rw [List.getElem?_set_ne (Ne.symm hxi)]
        · rfl
      omega

theorem popLoop_spec (i inf : Nat) (B : List Nat) : ∀ (new idx : List Nat) (F : List (List Word)), i ∉ new →
    (∀ x ∈ new, x < idx.length ∧ x < F.length) → i < idx.length →
    ∃ idx' F', popLoop i inf (new ++ i :: B) idx F = ⟨idx', B, F'⟩ ∧ idx'.length = idx.length ∧ F'.length = F.length ∧
      (∀ x, idx'.getD x 0 = if x ∈ new ∨ x = i then inf else idx.getD x 0) ∧
      (∀ x, row F' x = if x ∈ new then row F i else row F x) := by
  intro new
  induction new with
  | nil =>
    intro idx F _ _ hi
    refine ⟨idx.set i inf, F, by simp [popLoop], by simp, rfl, ?_, by simp⟩
    intro x
    simp only [List.not_mem_nil, false_or, List.getD_eq_getElem?_getD]
    split
    · rename_i h; subst h; rw [List.getElem?_set_self hi]; rfl
    · rename_i h; rw [List.getElem?_set_ne (Ne.symm h)]
  | cons j new ih =>
    intro idx F hni hlt hi
    simp only [List.mem_cons, not_or] at hni
    have hj := hlt j List.mem_cons_self
    obtain ⟨idx', F', e, l1, l2, h1, h2⟩ := ih (idx.set j inf) (F.set j (row F i)) hni.2
      (fun x hx => by simpa using hlt x (List.mem_cons_of_mem _ hx)) (by simpa using hi)
    refine ⟨idx', F', ?_, by simpa using l1, by simpa using l2, ?_, ?_⟩
    · simp only [List.cons_append, popLoop]
      rw [if_neg hni.1]; exact e
    · intro x
      rw [h1]
      by_cases hx : x ∈ new ∨ x = i
      · rw [if_pos hx, if_pos]
        rcases hx with h | h
        · exact Or.inl (List.mem_cons_of_mem _ h)
        · exact Or.inr h
      · rw [if_neg hx]
        simp only [List.getD_eq_getElem?_getD]
        by_cases hxj : x = j
        · subst hxj; rw [List.getElem?_set_self hj.1, if_pos (Or.inl List.mem_cons_self)]; rfl
        · rw [List.getElem?_set_ne (Ne.symm hxj), if_neg]
          simp only [List.mem_cons]
          rintro ((h | h) | h)
          · exact hxj h
          · exact hx (Or.inl h)
          · exact hx (Or.inr h)
    · intro x
      rw [h2]
      rw [row_set_ne _ _ _ _ hni.1]
      by_cases hx : x ∈ new
      · rw [if_pos hx, if_pos (List.mem_cons_of_mem _ hx)]
      · rw [if_neg hx]
        by_cases hxj : x = j
        · subst hxj; rw [row_set_self _ _ _ hj.2, if_pos List.mem_cons_self]
        · rw [row_set_ne _ _ _ _ hxj, if_neg]
          simp [hxj, hx]

/-- The component of `i` is complete: pop it. -/
theorem DLoop.root {i : Nat} {st t : DS} {new : List Nat} (hR : ∀ x, ∀ y ∈ R.getD x [], y < n) (hi : i < n)
    (h0 : st.I i = 0) (hst : DInv n w R F0 st)
    (L : DLoop n w R F0 i st t (R.getD i []) new) (hroot : t.I i = st.stk.length + 1) :
    DPost n w R F0 i st (popLoop i (n + 2) t.stk t.idx t.F) [] := by
  have hnd := L.inv.nodup
  rw [L.stk] at hnd
  have hin : i ∉ new := fun h => (List.disjoint_of_nodup_append hnd) h List.mem_cons_self
  have hiB : i ∉ st.stk := (List.nodup_cons.mp (List.nodup_append.mp hnd).2.1).1
  have hdisB : ∀ y, y ∈ st.stk → y ∉ new := fun y hy hn =>
    (List.disjoint_of_nodup_append hnd) hn (List.mem_cons_of_mem _ hy)
  have hlenF := L.inv.mat.1
  have hleni := L.inv.ilen
  obtain ⟨idx', F', e, l1, l2, p1, p2⟩ := popLoop_spec i (n+2) st.stk new t.idx t.F hin
    (fun x hx => by
      have := L.inv.slt x (by rw [L.stk]; exact List.mem_append_left _ hx)
      omega) (by omega)
  rw [L.stk, e]
  have htB : ∀ y, y ∈ st.stk → ht t.stk y = ht st.stk y := by
    intro y hy
    rw [L.stk, ht_append_right (hdisB y hy)]
    simp only [ht]
    rw [if_neg]
    rintro rfl; exact hiB hy
  have hreg : ∀ y, y ∈ t.stk → st.stk.length + 1 ≤ ht t.stk y → y ∈ new ∨ y = i := by
    intro y hy hh
    rw [L.stk] at hy
    rcases List.mem_append.mp hy with h | h
    · exact Or.inl h
    · rcases List.mem_cons.mp h with h | h
      · exact Or.inr h
      · rw [htB y h] at hh
        have := ht_le st.stk y
        omega
  -- every node of the component reaches i
  have hreach : ∀ k x, ht t.stk x ≤ k → x ∈ new ∨ x = i → Rch R x i := by
    intro k
    induction k with
    | zero =>
      intro x hk hx
      have : x ∈ t.stk := by
        rw [L.stk]; rcases hx with h | h
        · exact List.mem_append_left _ h
        · subst h; simp
      have := ht_pos.mpr this
      omega
    | succ k ih =>
      intro x hk hx
      rcases hx with hx | rfl
      · obtain ⟨h1, h2, -, -⟩ := L.comp x hx
        have hxs : x ∈ t.stk := by rw [L.stk]; exact List.mem_append_left _ hx
        obtain ⟨-, -, y, hy, h3, h4⟩ := L.inv.gray x hxs
        have hyr := hreg y hy (by omega)
        exact h4.trans (ih y (by have := h1.1; omega) hyr)
      · exact .refl
  have hreachI : ∀ x, x ∈ new ∨ x = i → Rch R x i := fun x hx => hreach _ x (Nat.le_refl _) hx
  have hfrom : ∀ x, x ∈ new ∨ x = i → Rch R i x := by
    rintro x (h | rfl)
    · exact (L.comp x h).2.2.2
    · exact .refl
  have hsub : ∀ x, x ∈ new ∨ x = i → ∀ m, t.S x m → t.S i m := by
    rintro x (h | rfl)
    · exact (L.comp x h).2.2.1
    · exact fun _ h => h
  -- successors
  have hsucc : ∀ x y, x ∈ new ∨ x = i → Edg R x y →
      (y ∈ new ∨ y = i) ∨ (t.I y = n + 2 ∧ ∀ m, Fst' R F0 y m → t.S i m) := by
    rintro x y (hx | rfl) hy
    · obtain ⟨h1, h2, h3, -⟩ := L.comp x hx
      rcases h1.2 y hy with ⟨g1, g2⟩ | ⟨g1, g2⟩
      · exact Or.inl (hreg y g1 (by omega))
      · exact Or.inr ⟨g1, fun m hm => h3 m (g2 m hm)⟩
    · rcases L.pre y hy with ⟨g1, g2⟩ | h
      · exact Or.inl (hreg y g1 (by omega))
      · exact Or.inr h
  have hall : ∀ y, Rch R i y → (y ∈ new ∨ y = i) ∨ (y < n ∧ t.I y = n + 2 ∧ ∀ m, Fst' R F0 y m → t.S i m) := by
    intro y h
    induction h with
    | refl => exact Or.inl (Or.inr rfl)
    | tail h1 h2 ih =>
      rcases ih with ih | ⟨hlt, ih1, ih2⟩
      · rcases hsucc _ _ ih h2 with h | h
        · exact Or.inl h
        · exact Or.inr ⟨hR _ _ h2, h⟩
      · refine Or.inr ⟨hR _ _ h2, (L.inv.done _ hlt ih1).2 _ h2, fun m hm => ih2 m (hm.of_rch (ReflTransGen.single h2))⟩
  have hnewlt : ∀ x, x ∈ new ∨ x = i → x < n := by
    rintro x (h | rfl)
    · exact L.inv.slt x (by rw [L.stk]; exact List.mem_append_left _ h)
    · exact hi
  have hstar : ∀ m, Fst' R F0 i m → t.S i m := by
    rintro m ⟨y, hy, hm⟩
    rcases hall y hy with h | ⟨_, _, h⟩
    · exact hsub y h m (L.inv.lower y m (hnewlt y h) hm)
    · exact h m ⟨y, .refl, hm⟩
  have hI : ∀ x, (DS.mk idx' st.stk F').I x = if x ∈ new ∨ x = i then n + 2 else t.I x := p1
  have hrow : ∀ x, row F' x = if x ∈ new then row t.F i else row t.F x := p2
  have hSreg : ∀ x m, x ∈ new ∨ x = i → ((DS.mk idx' st.stk F').S x m ↔ t.S i m) := by
    intro x m hx
    unfold DS.S
    rw [hrow]
    split
    · rfl
    · rename_i h
      rcases hx with hx | rfl
      · exact absurd hx h
      · rfl
  have hSother : ∀ x m, ¬ (x ∈ new ∨ x = i) → ((DS.mk idx' st.stk F').S x m ↔ t.S x m) := by
    intro x m hx
    unfold DS.S
    rw [hrow, if_neg (fun h => hx (Or.inl h))]
  have hlen := hst.len_le
  -- nodes seen before are not in the component
  have hold : ∀ x, x < n → st.I x ≠ 0 → ¬ (x ∈ new ∨ x = i) := by
    rintro x hx h (hn | rfl)
    · have hxi : x ≠ i := by rintro rfl; exact hin hn
      have h1 := L.frameI x hx hxi h
      have h2 := (L.inv.gray_iff hx).mp (by rw [L.stk]; exact List.mem_append_left _ hn)
      rw [h1] at h2
      have := (hst.gray_iff hx).mpr h2
      exact hdisB x this hn
    · exact h h0
  refine ⟨⟨?_, ⟨?_, ?_⟩, hst.nodup, hst.slt, ?_, ?_, ?_, ?_, ?_⟩, rfl, ?_, ?_, ?_, ?_⟩
  · show idx'.length = _; omega
  · show F'.length = _; omega
  · intro x hx
    show (row F' x).length = w
    rw [hrow]
    split
    · exact L.inv.mat.2 i hi
    · exact L.inv.mat.2 x hx
  · intro x hx
    have hx' : x ∈ st.stk := hx
    have hxn := hst.slt x hx'
    have hxg := (hst.gray_iff hxn).mp hx'
    rw [hI, if_neg (hold x hxn hxg.1)]
    have hxi : x ≠ i := by rintro rfl; exact hiB hx'
    rw [L.frameI x hxn hxi hxg.1]
    exact hst.gray x hx'
  · intro x hx hm
    have hm' : x ∉ st.stk := hm
    rw [hI]
    split
    · exact Or.inr rfl
    · rename_i hn
      apply L.inv.rest x hx
      rw [L.stk]
      simp only [List.mem_append, List.mem_cons]
      rintro (h | h | h)
      · exact hn (Or.inl h)
      · exact hn (Or.inr h)
      · exact hm' h
  · intro x hx hd
    rw [hI] at hd
    by_cases hn : x ∈ new ∨ x = i
    · constructor
      · intro m hm
        rw [hSreg x m hn]
        exact hstar m (hm.of_rch (hfrom x hn))
      · intro y hy
        rw [hI]
        rcases hsucc x y hn hy with h | h
        · rw [if_pos h]
        · split
          · rfl
          · exact h.1
    · rw [if_neg hn] at hd
      obtain ⟨g1, g2⟩ := L.inv.done x hx hd
      constructor
      · intro m hm
        rw [hSother x m hn]; exact g1 m hm
      · intro y hy
        rw [hI]
        split
        · rfl
        · exact g2 y hy
  · intro x m hx hm
    by_cases hn : x ∈ new ∨ x = i
    · rw [hSreg x m hn]
      exact hsub x hn m (L.inv.lower x m hx hm)
    · rw [hSother x m hn]; exact L.inv.lower x m hx hm
  · intro x m hx hm
    by_cases hn : x ∈ new ∨ x = i
    · rw [hSreg x m hn] at hm
      exact (L.inv.upper i m hi hm).of_rch (hreachI x hn)
    · rw [hSother x m hn] at hm; exact L.inv.upper x m hx hm
  · intro x hx h
    rw [hI, if_neg (hold x hx h)]
    exact L.frameI x hx (by rintro rfl; exact h h0) h
  · intro x hx h
    show row F' x = _
    rw [hrow, if_neg (fun hn => hold x hx h (Or.inl hn))]
    exact L.frameS x hx (by rintro rfl; exact h h0) h
  · rw [hI, if_pos (Or.inr rfl)]; omega
  · intro x hx; simp at hx

theorem traverse_spec (hR : ∀ x, ∀ y ∈ R.getD x [], y < n) : ∀ (fuel i : Nat) (st : DS), DInv n w R F0 st → i < n →
    st.I i = 0 → whites n st ≤ fuel →
    ∃ st' new, traverse R (n + 2) fuel i st = some st' ∧ DPost n w R F0 i st st' new := by
  intro fuel
  induction fuel with
  | zero =>
    intro i st h hi h0 hw
    exfalso
    have : 0 < whites n st := Finset.card_pos.mpr ⟨i, by simp [hi, h0]⟩
    omega
  | succ fuel ih =>
    intro i st h hi h0 hw
    have L0 := DLoop.start h hi h0
    have hil : i < st.idx.length := by rw [h.ilen]; omega
    have hw0 : whites n ⟨st.idx.set i (st.stk.length + 1), i :: st.stk, st.F⟩ < whites n st := by
      apply whites_lt hi h0
      · rw [DS.I_set hil, if_pos rfl]; omega
      · intro x hx
        rw [DS.I_set hil]
        split
        · omega
        · exact id
    obtain ⟨t, new, e, L⟩ := travLoop_spec hR hi (traverse R (n+2) fuel) ih (R.getD i []) [] _ [] rfl L0 (by omega)
    unfold traverse
    simp only
    rw [e]
    simp only
    have hit : i ∈ t.stk := by rw [L.stk]; simp
    by_cases hroot : t.idx.getD i 0 = st.stk.length + 1
    · rw [if_pos hroot]
      exact ⟨_, [], rfl, L.root hR hi h0 h hroot⟩
    · rw [if_neg hroot]
      have hnd := L.inv.nodup
      rw [L.stk] at hnd
      have hin : i ∉ new := fun h => (List.disjoint_of_nodup_append hnd) h List.mem_cons_self
      have hhti : ht t.stk i = st.stk.length + 1 := by
        rw [L.stk, ht_append_right hin]; simp [ht]
      refine ⟨t, new ++ [i], rfl, L.inv, by rw [L.stk]; simp, ?_, ?_, ?_, ?_⟩
      · intro x hx hne
        exact L.frameI x hx (by rintro rfl; exact hne h0) hne
      · intro x hx hne
        exact L.frameS x hx (by rintro rfl; exact hne h0) hne
      · exact ((L.inv.gray_iff hi).mp hit).1
      · intro x hx
        rcases List.mem_append.mp hx with hx | hx
        · exact L.comp x hx
        · simp only [List.mem_singleton] at hx
          subst hx
          refine ⟨⟨?_, L.pre⟩, Nat.le_refl _, fun _ h => h, .refl⟩
          have := (L.inv.gray x hit).2.1
          have : t.I x ≠ st.stk.length + 1 := hroot
          omega

theorem DPost.empty {i : Nat} {st st' : DS} {new : List Nat} (P : DPost n w R F0 i st st' new) (hs : st.stk = []) :
    st'.stk = [] := by
  have hstk := P.stk
  rw [hs, List.append_nil] at hstk
  rcases List.eq_nil_or_concat new with h | ⟨l, x, h⟩
  · rw [hstk, h]
  · exfalso
    have hx : x ∈ new := by rw [h]; simp
    have hxs : x ∈ st'.stk := by rw [hstk]; exact hx
    have h1 := (P.comp x hx).1.1
    have h2 := (P.inv.gray x hxs).1
    have hnd := P.inv.nodup
    rw [hstk, h, List.concat_eq_append] at hnd
    have hxl : x ∉ l := fun hl => (List.disjoint_of_nodup_append hnd) hl (by simp)
    rw [hstk, h, List.concat_eq_append, ht_append_right hxl] at h1
    simp [ht] at h1
    omega

theorem digraphLoop_spec (hR : ∀ x, ∀ y ∈ R.getD x [], y < n) (fuel : Nat) : ∀ (is : List Nat) (st : DS),
    (∀ i ∈ is, i < n) → DInv n w R F0 st → st.stk = [] → whites n st ≤ fuel →
    ∃ st', digraphLoop R (n + 2) fuel is st = some st' ∧ DInv n w R F0 st' ∧ st'.stk = [] ∧
      (∀ x, x < n → st.I x ≠ 0 → st'.I x ≠ 0) ∧ ∀ i ∈ is, st'.I i ≠ 0 ∨ R.getD i [] = [] := by
  intro is
  induction is with
  | nil =>
    intro st _ h hs _
    exact ⟨st, rfl, h, hs, fun _ _ h => h, by simp⟩
  | cons i is ih =>
    intro st hlt h hs hw
    have hi := hlt i List.mem_cons_self
    have hlt' : ∀ i ∈ is, i < n := fun i hi => hlt i (List.mem_cons_of_mem _ hi)
    unfold digraphLoop
    by_cases hc : (st.idx.getD i 0 = 0 && (R.getD i []) != []) = true
    · rw [if_pos hc]
      simp only [Bool.and_eq_true, decide_eq_true_eq] at hc
      obtain ⟨st1, new, e, P⟩ := traverse_spec hR fuel i st h hi hc.1 hw
      rw [e]
      obtain ⟨st', e', h1, h2, h3, h4⟩ := ih st1 hlt' P.inv (P.empty hs) (by
        refine Nat.le_trans (whites_le ?_) hw
        intro x hx h0
        by_contra hne
        have := P.frameI x hx hne
        omega)
      refine ⟨st', e', h1, h2, ?_, ?_⟩
      · intro x hx hne
        exact h3 x hx (by rw [P.frameI x hx hne]; exact hne)
      · intro j hj
        rcases List.mem_cons.mp hj with rfl | hj
        · exact Or.inl (h3 j hi P.seen)
        · exact h4 j hj
    · rw [if_neg hc]
      obtain ⟨st', e', h1, h2, h3, h4⟩ := ih st hlt' h hs hw
      refine ⟨st', e', h1, h2, h3, ?_⟩
      intro j hj
      rcases List.mem_cons.mp hj with rfl | hj
      · by_cases h0 : st.idx.getD j 0 = 0
        · right
          simp only [h0, decide_true, Bool.true_and, bne_iff_ne, ne_eq, not_not] at hc
          exact hc
        · exact Or.inl (h3 j hi h0)
      · exact h4 j hj

theorem digraph_spec (hR : ∀ x, ∀ y ∈ R.getD x [], y < n) (hF : MatOK F0 n w) :
    ∃ F, digraph n R F0 = some F ∧ MatOK F n w ∧
      ∀ x, x < n → ∀ m, BIT (row F x) m = true ↔ ∃ y, ReflTransGen (fun x y => y ∈ R.getD x []) x y ∧ BIT (row F0 y) m = true := by
  have hz : ∀ x, (DS.mk (List.replicate (n+1) 0) [] F0).I x = 0 := by
    intro x
    unfold DS.I
    simp only [List.getD_eq_getElem?_getD, List.getElem?_replicate]
    split <;> rfl
  have h0 : DInv n w R F0 ⟨List.replicate (n+1) 0, [], F0⟩ := by
    refine ⟨by simp, hF, by simp, by simp, by simp, fun x _ _ => Or.inl (hz x), ?_, fun _ _ _ h => h,
      fun x m _ h => ⟨x, .refl, h⟩⟩
    intro x _ h
    rw [hz] at h; omega
  obtain ⟨st', e, h1, h2, -, h4⟩ := digraphLoop_spec hR (n+1) (List.range n) _ (fun i hi => List.mem_range.mp hi) h0 rfl (by
    unfold whites
    refine Nat.le_trans (Finset.card_filter_le _ _) ?_
    simp)
  refine ⟨st'.F, by unfold digraph; rw [e]; rfl, h1.mat, ?_⟩
  intro x hx m
  constructor
  · exact h1.upper x m hx
  · intro hm
    rcases h1.rest x hx (by rw [h2]; simp) with h | h
    · rcases h4 x (List.mem_range.mpr hx) with h' | h'
      · exact absurd h h'
      · obtain ⟨y, hy, hb⟩ := hm
        rcases ReflTransGen.cases_head hy with rfl | ⟨z, hz, -⟩
        · exact h1.lower x m hx hb
        · rw [h'] at hz; simp at hz
    · exact (h1.done x hx h).1 m hm

end Verif.Byacc
