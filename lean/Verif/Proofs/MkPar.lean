import Verif.Byacc.MkPar
import Verif.Proofs.Lalr
/-
Proofs about byacc/mkpar.c: action rows.
-/
set_option autoImplicit false
namespace Verif.Byacc
open Spec Relation

/-- Order of the actions of a row: by token; for one token the shift first, then the reductions
by rule number. -/
def ActLt (x y : Action) : Prop :=
  x.symbol < y.symbol ∨ (x.symbol = y.symbol ∧
    ((x.code = .SHIFT ∧ y.code = .REDUCE) ∨ (x.code = .REDUCE ∧ y.code = .REDUCE ∧ x.number < y.number)))

theorem ActLt.trans {x y z : Action} (h1 : ActLt x y) (h2 : ActLt y z) : ActLt x z := by
  unfold ActLt at *
  rcases h1 with h1 | ⟨e1, h1⟩ <;> rcases h2 with h2 | ⟨e2, h2⟩
  · left; omega
  · left; omega
  · left; omega
  · right
    refine ⟨by omega, ?_⟩
    rcases h1 with ⟨a, b⟩ | ⟨a, b, c⟩ <;> rcases h2 with ⟨a', b'⟩ | ⟨a', b', c'⟩
    · exact .inl ⟨a, b'⟩
    · exact .inl ⟨a, b'⟩
    · rw [b] at a'; cases a'
    · exact .inr ⟨a, b', by omega⟩

theorem mem_takeWhile_imp' {α : Type} {p : α → Bool} {l : List α} {x : α} (h : x ∈ l.takeWhile p) : p x = true := by
  induction l with
  | nil => simp at h
  | cons y l ih =>
    simp only [List.takeWhile_cons] at h
    split at h
    · rcases List.mem_cons.mp h with rfl | h
      · assumption
      · exact ih h
    · simp at h

theorem dropWhile_all {α : Type} {R : α → α → Prop} {p : α → Bool} {l : List α} (hl : l.Pairwise R)
    (hp : ∀ x ∈ l, ∀ y ∈ l, R x y → p y = true → p x = true) : ∀ x ∈ l.dropWhile p, p x = false := by
  induction l with
  | nil => simp
  | cons y l ih =>
    rw [List.pairwise_cons] at hl
    simp only [List.dropWhile_cons]
    split
    · exact ih hl.2 (fun a ha b hb => hp a (by simp [ha]) b (by simp [hb]))
    · rename_i h
      simp only [Bool.not_eq_true] at h
      intro x hx
      rcases List.mem_cons.mp hx with rfl | hx
      · exact h
      · by_contra hc
        simp only [Bool.not_eq_false] at hc
        have := hp y (by simp) x (by simp [hx]) (hl.1 x hx) hc
        rw [h] at this; cases this

theorem addReduce_spec (g : Gram) (acts : List Action) (ruleno symbol : Nat) (hs : acts.Pairwise ActLt)
    (hn : ∀ x ∈ acts, ¬ (x.symbol = symbol ∧ x.code = .REDUCE ∧ x.number = ruleno)) :
    (addReduce g acts ruleno symbol).Pairwise ActLt ∧
    ∀ x, x ∈ addReduce g acts ruleno symbol ↔ x ∈ acts ∨ x = reduceAction g ruleno symbol := by
  unfold addReduce
  simp only
  generalize hp1 : (fun x : Action => decide (x.symbol < symbol)) = p1
  generalize hp2 : (fun x : Action => decide (x.symbol = symbol ∧ x.code = .SHIFT)) = p2
  generalize hp3 : (fun x : Action => decide (x.symbol = symbol ∧ x.code = .REDUCE ∧ x.number < ruleno)) = p3
  have e1 : acts = acts.takeWhile p1 ++ acts.dropWhile p1 := (List.takeWhile_append_dropWhile).symm
  generalize hr1 : acts.dropWhile p1 = r1 at *
  have e2 : r1 = r1.takeWhile p2 ++ r1.dropWhile p2 := (List.takeWhile_append_dropWhile).symm
  generalize hr2 : r1.dropWhile p2 = r2 at *
  have e3 : r2 = r2.takeWhile p3 ++ r2.dropWhile p3 := (List.takeWhile_append_dropWhile).symm
  generalize hr3 : r2.dropWhile p3 = r3 at *
  have s1 : r1.Pairwise ActLt := by rw [e1] at hs; exact (List.pairwise_append.mp hs).2.1
  have s2 : r2.Pairwise ActLt := by rw [e2] at s1; exact (List.pairwise_append.mp s1).2.1
  have n1 : ∀ x ∈ r1, p1 x = false := by
    rw [← hr1]
    refine dropWhile_all hs ?_
    intro x _ y _ hxy hy
    subst hp1
    simp only [decide_eq_true_eq] at hy ⊢
    unfold ActLt at hxy
    omega
  have n2 : ∀ x ∈ r2, p2 x = false := by
    rw [← hr2]
    refine dropWhile_all s1 ?_
    intro x hx y _ hxy hy
    have := n1 x hx
    subst hp1 hp2
    simp only [decide_eq_true_eq, decide_eq_false_iff_not] at hy this ⊢
    unfold ActLt at hxy
    rcases hxy with h | ⟨h, ⟨_, h'⟩ | ⟨_, h', _⟩⟩
    · omega
    · rw [hy.2] at h'; cases h'
    · rw [hy.2] at h'; cases h'
  have m2 : ∀ x ∈ r2, p1 x = false := fun x hx => n1 x (by rw [e2]; simp [hx])
  have n3 : ∀ x ∈ r3, p3 x = false := by
    rw [← hr3]
    refine dropWhile_all s2 ?_
    intro x hx y _ hxy hy
    have a1 := m2 x hx
    have a2 := n2 x hx
    subst hp1 hp2 hp3
    simp only [decide_eq_true_eq, decide_eq_false_iff_not, not_and] at hy a1 a2 ⊢
    unfold ActLt at hxy
    rcases hxy with h | ⟨h, ⟨h', _⟩ | ⟨h', _, h''⟩⟩
    · omega
    · exact absurd h' (a2 (by omega))
    · exact ⟨by omega, h', by omega⟩
  have hmem : ∀ x, x ∈ acts ↔ x ∈ acts.takeWhile p1 ∨ x ∈ r1.takeWhile p2 ∨ x ∈ r2.takeWhile p3 ∨ x ∈ r3 := by
    intro x
    conv_lhs => rw [e1, e2, e3]
    simp only [List.mem_append]
  have hbefore : ∀ x, x ∈ acts.takeWhile p1 ∨ x ∈ r1.takeWhile p2 ∨ x ∈ r2.takeWhile p3 →
      ActLt x (reduceAction g ruleno symbol) := by
    intro x hx
    rcases hx with hx | hx | hx
    · have := mem_takeWhile_imp' hx
      subst hp1; simp only [decide_eq_true_eq] at this
      exact .inl this
    · have := mem_takeWhile_imp' hx
      subst hp2; simp only [decide_eq_true_eq] at this
      exact .inr ⟨this.1, .inl ⟨this.2, rfl⟩⟩
    · have := mem_takeWhile_imp' hx
      subst hp3; simp only [decide_eq_true_eq] at this
      exact .inr ⟨this.1, .inr ⟨this.2.1, rfl, this.2.2⟩⟩
  have hafter : ∀ x ∈ r3, ActLt (reduceAction g ruleno symbol) x := by
    intro x hx
    have hx2 : x ∈ r2 := by rw [e3]; simp [hx]
    have a1 := m2 x hx2
    have a2 := n2 x hx2
    have a3 := n3 x hx
    have a4 := hn x ((hmem x).mpr (by simp [hx]))
    subst hp1 hp2 hp3
    simp only [decide_eq_false_iff_not, not_and] at a1 a2 a3 a4
    unfold ActLt
    simp only [reduceAction]
    by_cases he : x.symbol = symbol
    · have hc : x.code = .REDUCE := by
        cases hc : x.code with
        | SHIFT => exact absurd hc (a2 he)
        | REDUCE => rfl
      exact .inr ⟨he.symm, .inr ⟨trivial, hc, by have := a3 he hc; have := a4 he hc; omega⟩⟩
    · left; omega
  constructor
  · have hs' : (acts.takeWhile p1 ++ (r1.takeWhile p2 ++ (r2.takeWhile p3 ++ r3))).Pairwise ActLt := by
      rw [← e3, ← e2, ← e1]; exact hs
    rw [← List.append_assoc, ← List.append_assoc, List.pairwise_append] at hs' ⊢
    refine ⟨hs'.1, ?_, ?_⟩
    · rw [List.pairwise_cons]; exact ⟨hafter, hs'.2.1⟩
    · intro x hx y hy
      rcases List.mem_cons.mp hy with rfl | hy
      · apply hbefore
        simpa [or_assoc] using hx
      · exact hs'.2.2 x hx y hy
  · intro x
    rw [hmem]
    simp only [List.mem_append, List.mem_cons]
    tauto

/-- all reductions at once -/
theorem addReduces_spec (g : Gram) (L : List (Nat × Nat)) (hL : L.Nodup) (acts : List Action)
    (hs : acts.Pairwise ActLt) (hn : ∀ x ∈ acts, x.code = .REDUCE → (x.number, x.symbol) ∉ L) :
    (L.foldl (fun acts p => addReduce g acts p.1 p.2) acts).Pairwise ActLt ∧
    ∀ x, x ∈ L.foldl (fun acts p => addReduce g acts p.1 p.2) acts ↔
      x ∈ acts ∨ ∃ p ∈ L, x = reduceAction g p.1 p.2 := by
  induction L generalizing acts with
  | nil => simp [hs]
  | cons p L ih =>
    rw [List.nodup_cons] at hL
    obtain ⟨h1, h2⟩ := addReduce_spec g acts p.1 p.2 hs (fun x hx hc => by
      apply hn x hx hc.2.1
      rw [hc.1, hc.2.2]; simp)
    obtain ⟨h3, h4⟩ := ih hL.2 (addReduce g acts p.1 p.2) h1 (by
      intro x hx hc
      rcases (h2 x).mp hx with h | rfl
      · exact fun hm => hn x h hc (by simp [hm])
      · simpa [reduceAction] using hL.1)
    refine ⟨h3, ?_⟩
    intro x
    rw [List.foldl_cons, h4, h2]
    simp only [List.mem_cons, exists_eq_or_imp]
    tauto

theorem getShifts_eq (g : Gram) (sp : SymPrec) (a : LR0) (s : Nat) :
    getShifts g sp a s = ((a.shiftsOf s).filter (fun k => g.isTok (a.acc k : Int))).map (shiftAction sp a) := by
  unfold getShifts
  rw [List.foldl_reverse]
  induction a.shiftsOf s with
  | nil => rfl
  | cons k l ih =>
    simp only [List.foldr_cons, List.filter_cons]
    split <;> simp [ih]

/-- the (rule, token) pairs added by `add_reductions` -/
def redPairs (g : Gram) (lo : LalrOut) (s : Nat) : List (Nat × Nat) :=
  (List.range' (lo.lookaheads.getD s 0) (lo.lookaheads.getD (s+1) 0 - lo.lookaheads.getD s 0)).flatMap fun i =>
    ((List.range g.ntokens).reverse.filter (fun j => BIT (row lo.LA i) j)).map fun j => (lo.ruleno.getD i 0, j)

theorem addReductions_eq (g : Gram) (lo : LalrOut) (s : Nat) (acts : List Action) :
    addReductions g lo s acts = (redPairs g lo s).foldl (fun acts p => addReduce g acts p.1 p.2) acts := by
  unfold addReductions redPairs
  simp only
  rw [List.foldl_flatMap]
  congr 1
  funext acts i
  unfold addRow
  rw [List.foldl_map, List.foldl_filter]

variable {g : Gram} {G : CFG} {a : LR0} {m : GotoMap}

theorem isTok_iff {X : Nat} : g.isTok (X : Int) = true ↔ X < g.ntokens := by
  have := isTok_false (g := g) (X := X)
  rw [← Bool.not_eq_false', this]
  simp only [decide_eq_false_iff_not]; omega

/-- Contents and order of the rows. -/
theorem GCtx.parseActions (C : GCtx g G a (setGotoMap g a)) {N : List Bool} (hN : ∀ A, nul N A = true ↔ Null G A)
    (sp : SymPrec) {lo : LalrOut} (hlo : Verif.Byacc.lalr g a N = some lo) {q : Nat} (hq : q < a.nstates) :
    (Verif.Byacc.parseActions g sp a lo q).Pairwise ActLt ∧
    ∀ x, x ∈ Verif.Byacc.parseActions g sp a lo q ↔
      (∃ X t, X < G.ntok ∧ ShiftsTo a q X t ∧
        x = { symbol := X, number := t, prec := sp.prec.getD X 0, code := .SHIFT, assoc := sp.assoc.getD X .TOKEN }) ∨
      (∃ r t, (∃ d, AItem g G a q r d ∧ Complete G r d) ∧ LASet G (ShiftsTo a) q r t ∧ t < G.ntok ∧
        x = reduceAction g (r+2) t) := by
  obtain ⟨out, ho, o1, o2, o3, o4, o5⟩ := C.lalr hN
  rw [hlo] at ho
  simp only [Option.some.injEq] at ho
  subst ho
  obtain ⟨la1, la2⟩ := lookaheadsOf_spec a
  have hsorted := shiftsOf_sorted C.aut q
  have hshs : (getShifts g sp a q).Pairwise ActLt := by
    rw [getShifts_eq, List.pairwise_map]
    apply List.Pairwise.filter
    refine hsorted.imp ?_
    intro x y h
    exact .inl h
  have hrule : ∀ i, i < redsLen a q → lo.ruleno.getD (base (redsLen a) q + i) 0 = (a.redsOf q).getD i 0 := by
    intro i hi
    have h := (laRuleno_spec a a.nstates).2 q i ((a.redsOf q)[i]'hi) hq (List.getElem?_eq_getElem hi)
    rw [o2, List.getD_eq_getElem?_getD, List.getD_eq_getElem?_getD, List.getElem?_eq_getElem hi]
    unfold laRuleno
    rw [h]
  have hpairs : redPairs g lo q = (List.range (redsLen a q)).flatMap fun i =>
      ((List.range g.ntokens).reverse.filter (fun j => BIT (row lo.LA (base (redsLen a) q + i)) j)).map
        fun j => ((a.redsOf q).getD i 0, j) := by
    unfold redPairs
    rw [o1, la2 q (by omega), la2 (q+1) (by omega)]
    simp only [base]
    rw [Nat.add_sub_cancel_left, List.range'_eq_map_range, List.flatMap_map]
    apply List.flatMap_congr
    intro i hi
    rw [hrule i (by simpa using hi)]
  have hmemp : ∀ p, p ∈ redPairs g lo q ↔ ∃ r t, r + 2 ∈ a.redsOf q ∧ LASet G (ShiftsTo a) q r t ∧ t < G.ntok ∧ p = (r+2, t) := by
    intro p
    rw [hpairs]
    simp only [List.mem_flatMap, List.mem_range, List.mem_map, List.mem_filter, List.mem_reverse]
    constructor
    · rintro ⟨i, hi, j, ⟨hj, hb⟩, rfl⟩
      have hget : (a.redsOf q)[i]? = some ((a.redsOf q)[i]'hi) := List.getElem?_eq_getElem hi
      have hge := (redsOf_sorted C.aut q).2 ((a.redsOf q)[i]'hi) (List.getElem_mem _)
      obtain ⟨r, hr⟩ : ∃ r, (a.redsOf q)[i]'hi = r + 2 := ⟨_, (Nat.sub_add_cancel hge).symm⟩
      refine ⟨r, j, ?_, ?_, by rw [← C.packs.ntok]; exact hj, ?_⟩
      · rw [← hr]; exact List.getElem_mem _
      · exact (o5 _ q r j ⟨hq, i, rfl, by rw [hget, hr]⟩).mp hb
      · rw [List.getD_eq_getElem?_getD, hget, hr]; rfl
    · rintro ⟨r, t, hr, hla, ht, rfl⟩
      obtain ⟨i, hi, e⟩ := List.getElem_of_mem hr
      have hget : (a.redsOf q)[i]? = some (r+2) := by rw [List.getElem?_eq_getElem hi, e]
      refine ⟨i, hi, t, ⟨by rw [C.packs.ntok]; exact ht, (o5 _ q r t ⟨hq, i, rfl, hget⟩).mpr hla⟩, ?_⟩
      rw [List.getD_eq_getElem?_getD, hget]; rfl
  have hnodup : (redPairs g lo q).Nodup := by
    rw [hpairs, List.nodup_flatMap]
    constructor
    · intro i _
      apply List.Nodup.map
      · intro x y h; simpa using h
      · exact (List.nodup_reverse.mpr List.nodup_range).filter _
    · apply (List.nodup_range (n := redsLen a q)).imp_of_mem
      intro i j hi hj hne
      simp only [List.mem_range] at hi hj
      rw [Function.onFun, List.disjoint_left]
      rintro p hp1 hp2
      simp only [List.mem_map] at hp1 hp2
      obtain ⟨_, -, rfl⟩ := hp1
      obtain ⟨_, -, e⟩ := hp2
      simp only [Prod.mk.injEq] at e
      have := e.1
      rw [List.getD_eq_getElem?_getD, List.getD_eq_getElem?_getD, List.getElem?_eq_getElem hi,
        List.getElem?_eq_getElem hj] at this
      simp only [Option.getD_some] at this
      have hs := List.pairwise_iff_getElem.mp (redsOf_sorted C.aut q).1
      rcases Nat.lt_trichotomy i j with h | h | h
      · have := hs i j hi hj h; omega
      · exact hne h
      · have := hs j i hj hi h; omega
  obtain ⟨h1, h2⟩ := addReduces_spec g (redPairs g lo q) hnodup (getShifts g sp a q) hshs (by
    intro x hx hc
    rw [getShifts_eq] at hx
    obtain ⟨k, -, rfl⟩ := List.mem_map.mp hx
    simp [shiftAction] at hc)
  rw [← addReductions_eq] at h1 h2
  refine ⟨h1, ?_⟩
  intro x
  unfold Verif.Byacc.parseActions
  rw [h2]
  apply or_congr
  · rw [getShifts_eq]
    simp only [List.mem_map, List.mem_filter, isTok_iff]
    constructor
    · rintro ⟨k, ⟨hk, ht⟩, rfl⟩
      exact ⟨a.acc k, k, by rw [← C.packs.ntok]; exact ht, (shiftsTo_iff C.aut).mpr ⟨hk, rfl⟩, rfl⟩
    · rintro ⟨X, t, hX, hs, rfl⟩
      obtain ⟨h1, h2⟩ := (shiftsTo_iff C.aut).mp hs
      subst h2
      exact ⟨t, ⟨h1, by rw [C.packs.ntok]; exact hX⟩, rfl⟩
  · constructor
    · rintro ⟨p, hp, rfl⟩
      obtain ⟨r, t, hr, hla, ht, rfl⟩ := (hmemp p).mp hp
      exact ⟨r, t, (redsOf_iff C.aut hq).mp hr, hla, ht, rfl⟩
    · rintro ⟨r, t, hr, hla, ht, rfl⟩
      exact ⟨(r+2, t), (hmemp _).mpr ⟨r, t, (redsOf_iff C.aut hq).mpr hr, hla, ht, rfl⟩, rfl⟩

end Verif.Byacc
