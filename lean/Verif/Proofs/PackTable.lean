import Verif.Proofs.Output
import Mathlib.Data.List.Perm.Subperm
import Mathlib.Data.List.Nodup
/-
The invariant of `pack_table`.
-/
set_option autoImplicit false
namespace Verif.Byacc

/-- A well formed vector: `tally` entries, on distinct columns, none negative. -/
structure VecOK (v : Vec) : Prop where
  tally : v.tally = v.ents.length
  nonneg : ∀ e ∈ v.ents, 0 ≤ e.1
  nodup : (v.ents.map Prod.fst).Nodup

/-- entries of vector `i` -/
def entsAt (vs : List Vec) (i : Nat) : List (Int × Nat) := (vs.getD i {}).ents

/-- `base[i]` -/
def Pack.baseAt (p : Pack) (i : Nat) : Int := p.base.getD i 0

/-- The vectors `prev` have been placed. -/
structure PInv (vs : List Vec) (prev : List Nat) (p : Pack) : Prop where
  sized : Sized p
  big : 1000 ≤ p.maxtable
  baselen : p.base.length = vs.length
  pos_eq : p.pos = prev.map p.baseAt
  low : ∀ i : Nat, i < p.lowzero → ∃ c, c ≠ -1 ∧ p.check[i]? = some c
  highlt : p.high < p.maxtable
  high : ∀ (i : Nat) (c : Int), p.high < i → p.check[i]? = some c → c = -1
  cell : ∀ (l : Nat) (c : Int), p.check[l]? = some c → c ≠ -1 →
    ∃ i ∈ prev, ∃ e ∈ entsAt vs i, p.baseAt i + e.1 = l
  ent : ∀ i ∈ prev, ∀ e ∈ entsAt vs i, 0 ≤ p.baseAt i + e.1 ∧ p.baseAt i + e.1 ≤ p.high ∧
    p.check[(p.baseAt i + e.1).toNat]? = some e.1 ∧ p.table[(p.baseAt i + e.1).toNat]? = some e.2
  nz : ∀ i ∈ prev, p.baseAt i ≠ 0
  same : ∀ i ∈ prev, ∀ k ∈ prev, p.baseAt i = p.baseAt k → entsAt vs i = entsAt vs k
  rest : ∀ i, i ∉ prev → p.baseAt i = 0
  spare : 1200 ≤ p.maxtable ∨ p.check[p.maxtable - 1]? = some (-1)

theorem PInv.lowle {vs : List Vec} {prev : List Nat} {p : Pack} (H : PInv vs prev p) : p.lowzero ≤ p.maxtable := by
  by_contra h
  obtain ⟨c, -, hc⟩ := H.low p.maxtable (by omega)
  have := (List.getElem?_eq_some_iff.1 hc).1
  rw [H.sized.c] at this
  omega

theorem PInv.init (vs : List Vec) : PInv vs [] (packInit vs.length) where
  sized := ⟨by simp [-List.reduceReplicate, packInit], by simp [-List.reduceReplicate, packInit]⟩
  big := by simp [-List.reduceReplicate, packInit]
  baselen := by simp [-List.reduceReplicate, packInit]
  pos_eq := by simp [-List.reduceReplicate, packInit]
  low := by simp [-List.reduceReplicate, packInit]
  highlt := by simp [-List.reduceReplicate, packInit]
  high i c _ h := by
    simp only [packInit, List.getElem?_replicate] at h
    split at h <;> simp_all
  cell l c h hc := by
    simp only [packInit, List.getElem?_replicate] at h
    split at h <;> simp_all
  ent := by simp
  nz := by simp
  same := by simp
  rest i _ := by
    simp only [Pack.baseAt, packInit, List.getD_eq_getElem?_getD, List.getElem?_replicate]
    split <;> rfl
  spare := .inr (by simp [-List.reduceReplicate, packInit])

/-- If no cell is free, at least as many entries as cells have been placed, and these are at
least 1200. -/
theorem PInv.full {vs : List Vec} {prev : List Nat} {p : Pack} (H : PInv vs prev p)
    (hf : ∀ i : Nat, i < p.maxtable → p.check[i]? ≠ some (-1)) :
    1200 ≤ (prev.map (fun i => (entsAt vs i).length)).sum := by
  have hbig : 1200 ≤ p.maxtable := by
    rcases H.spare with h | h
    · exact h
    · exact absurd h (hf _ (by have := H.big; omega))
  refine Nat.le_trans hbig ?_
  have hsub : ((List.range p.maxtable).map (fun n : Nat => (n : Int))) ⊆
      prev.flatMap (fun i => (entsAt vs i).map (fun e => p.baseAt i + e.1)) := by
    intro x hx
    obtain ⟨l, hl, rfl⟩ := List.mem_map.1 hx
    have hl := List.mem_range.1 hl
    have hlt : l < p.check.length := by rw [H.sized.c]; exact hl
    have hne := hf l hl
    rw [List.getElem?_eq_getElem hlt] at hne
    obtain ⟨i, hi, e, he, h⟩ := H.cell l _ (List.getElem?_eq_getElem hlt) (by simpa using hne)
    exact List.mem_flatMap.2 ⟨i, hi, List.mem_map.2 ⟨e, he, h⟩⟩
  have hnd : ((List.range p.maxtable).map (fun n : Nat => (n : Int))).Nodup := by
    exact List.nodup_range.map (fun a b h => by have h : (a : Int) = (b : Int) := h; omega)
  have := (List.subperm_of_subset hnd hsub).length_le
  simpa [List.length_flatMap] using this

theorem getD_set_int {l : List Int} {i k : Nat} {x : Int} (hi : i < l.length) :
    (l.set i x).getD k 0 = if k = i then x else l.getD k 0 := by
  simp only [List.getD_eq_getElem?_getD, List.getElem?_set]
  by_cases h : i = k
  · subst h; simp [hi]
  · have : ¬ k = i := fun h' => h h'.symm
    simp [h, this]

/-- State after a vector has been placed, except for `lowzero`. -/
theorem PInv.placed {vs : List Vec} {prev : List Nat} {p p1 p2 : Pack} {i : Nat} {j : Int} (H : PInv vs prev p)
    (hvs : ∀ k, VecOK (vs.getD k {}))
    (hi : i < vs.length) (hnew : i ∉ prev)
    (hP : Placed (entsAt vs i) p p1 p2 j)
    {p' : Pack} (ht : p'.table = p2.table) (hc : p'.check = p2.check) (hm : p'.maxtable = p2.maxtable)
    (hh : p'.high = p2.high) (hpos : p'.pos = p2.pos ++ [j]) (hbase : p'.base = p2.base.set i j)
    (hlow : ∀ k : Nat, k < p'.lowzero → ∃ c, c ≠ -1 ∧ p2.check[k]? = some c) :
    PInv vs (prev ++ [i]) p' := by
  obtain ⟨X, hnz, hj, hfree, W⟩ := hP
  have hbl : p2.base = p.base := W.base.trans X.base
  have hb : ∀ k, p'.baseAt k = if k = i then j else p.baseAt k := by
    intro k
    unfold Pack.baseAt
    rw [hbase, hbl]
    exact getD_set_int (by rw [H.baselen]; exact hi)
  have hbi : p'.baseAt i = j := by rw [hb, if_pos rfl]
  have hbp : ∀ k ∈ prev, p'.baseAt k = p.baseAt k := by
    intro k hk
    rw [hb, if_neg (by rintro rfl; exact hnew hk)]
  have hmt : p2.maxtable = p1.maxtable := W.maxtable
  have hle := X.le
  have hhl := H.highlt
  have hhe := X.high
  have hjp : ∀ k ∈ prev, p.baseAt k ≠ j := by
    intro k hk h
    exact hj (by rw [H.pos_eq]; exact List.mem_map.2 ⟨k, hk, h⟩)
  -- placed cells of earlier vectors are kept
  have hold : ∀ k ∈ prev, ∀ e ∈ entsAt vs k, ∀ e' ∈ entsAt vs i, j + e'.1 ≠ ((p.baseAt k + e.1).toNat : Int) := by
    intro k hk e he e' he' heq
    obtain ⟨h0, h1, h2, h3⟩ := H.ent k hk e he
    obtain ⟨hf, -⟩ := hfree e' he'
    have h4 := hf.2.2
    have h5 : (j + e'.1).toNat = (p.baseAt k + e.1).toNat := by omega
    rw [h5, X.oldc _ (by omega), h2] at h4
    have := (hvs k).nonneg e he
    simp at h4
    omega
  refine ⟨⟨by rw [ht, hm]; exact W.sized.t, by rw [hc, hm]; exact W.sized.c⟩, ?_, ?_, ?_, ?_, ?_, ?_, ?_, ?_, ?_, ?_, ?_, ?_⟩
  · have := H.big; omega
  · rw [hbase, hbl, List.length_set]; exact H.baselen
  · rw [hpos, W.pos, X.pos, H.pos_eq, List.map_append, List.map_singleton, hbi]
    congr 1
    exact List.map_congr_left fun k hk => (hbp k hk).symm
  · rw [hc]; exact hlow
  · rw [hh, hm, hmt]
    rcases W.high_eq with h | ⟨e, he, h⟩
    · omega
    · have := (hfree e he).1.2.1; omega
  · intro k c hk hck
    rw [hc] at hck
    rw [hh] at hk
    by_contra hne
    have haway : ∀ e ∈ entsAt vs i, j + e.1 ≠ k := by
      intro e he h
      have := W.high_ge e he
      omega
    rw [(W.away k haway).1] at hck
    have := X.used hck hne
    exact hne (H.high k c (by have := W.high_le; omega) this.2)
  · intro l c hl hcn
    rw [hc] at hl
    by_cases haway : ∀ e ∈ entsAt vs i, j + e.1 ≠ l
    · rw [(W.away l haway).1] at hl
      obtain ⟨k, hk, e, he, h⟩ := H.cell l c (X.used hl hcn).2 hcn
      exact ⟨k, List.mem_append_left _ hk, e, he, by rw [hbp k hk]; exact h⟩
    · push Not at haway
      obtain ⟨e, he, h⟩ := haway
      exact ⟨i, by simp, e, he, by rw [hbi]; exact h⟩
  · intro k hk e he
    rw [hc, ht, hh]
    rcases List.mem_append.1 hk with hk | hk
    · rw [hbp k hk]
      obtain ⟨h0, h1, h2, h3⟩ := H.ent k hk e he
      have ha := W.away (p.baseAt k + e.1).toNat (fun e' he' => hold k hk e he e' he')
      refine ⟨h0, by have := W.high_le; omega, ?_, ?_⟩
      · rw [ha.1, X.oldc _ (by omega)]; exact h2
      · rw [ha.2, X.oldt _ (by omega)]; exact h3
    · obtain rfl := List.mem_singleton.1 hk
      rw [hbi]
      exact ⟨(hfree e he).1.1, W.high_ge e he, (W.here e he).1, (W.here e he).2⟩
  · intro k hk
    rcases List.mem_append.1 hk with hk | hk
    · rw [hbp k hk]; exact H.nz k hk
    · obtain rfl := List.mem_singleton.1 hk
      rw [hbi]; exact hnz
  · intro k hk0 m hm0 heq
    rcases List.mem_append.1 hk0 with hk | hk <;> rcases List.mem_append.1 hm0 with hm' | hm'
    · rw [hbp k hk, hbp m hm'] at heq
      exact H.same k hk m hm' heq
    · obtain rfl := List.mem_singleton.1 hm'
      rw [hbp k hk, hbi] at heq
      exact absurd heq (hjp k hk)
    · obtain rfl := List.mem_singleton.1 hk
      rw [hbp m hm', hbi] at heq
      exact absurd heq.symm (hjp m hm')
    · obtain rfl := List.mem_singleton.1 hk
      obtain rfl := List.mem_singleton.1 hm'
      rfl
  · intro k hk
    simp only [List.mem_append, List.mem_singleton, not_or] at hk
    rw [hb, if_neg hk.2]
    exact H.rest k hk.1
  · rw [hm, hc, hmt]
    by_cases hbig : 1200 ≤ p1.maxtable
    · exact .inl hbig
    · right
      have hg := X.grown
      have hb0 := H.big
      have heq : p1.maxtable = p.maxtable := by omega
      have haway : ∀ e ∈ entsAt vs i, j + e.1 ≠ ((p1.maxtable - 1 : Nat) : Int) := by
        intro e he h
        have := (hfree e he).2
        omega
      rw [(W.away _ haway).1, heq, X.oldc _ (by omega)]
      rcases H.spare with h | h
      · omega
      · exact h

theorem matchLoop_spec (vs : List Vec) (v : Vec) (hv : v.tally = v.ents.length)
    (hvs : ∀ k, VecOK (vs.getD k {})) (l : List Nat) {k : Nat} (h : matchLoop vs v l = some k) :
    k ∈ l ∧ entsAt vs k = v.ents := by
  induction l with
  | nil => simp [matchLoop] at h
  | cons j l ih =>
    unfold matchLoop at h
    simp only at h
    split at h
    · simp at h
    · rename_i hc
      push Not at hc
      split at h
      · rename_i heq
        simp only [Option.some.injEq] at h
        subst h
        refine ⟨by simp, ?_⟩
        have h1 := (hvs j).tally
        rw [hc.2, hv] at h1
        rw [hv, List.take_of_length_le (by omega), List.take_of_length_le (by omega)] at heq
        exact heq
      · have := ih h
        exact ⟨by simp [this.1], this.2⟩

theorem sum_natAbs {l : List Int} {x : Int} (h : x ∈ l) : x ≤ ((l.map Int.natAbs).sum : Nat) := by
  induction l with
  | nil => simp at h
  | cons a l ih =>
    simp only [List.map_cons, List.sum_cons]
    rcases List.mem_cons.1 h with rfl | h
    · omega
    · have := ih h; omega

/-- One round of `pack_table`. -/
theorem packOne_spec {vs : List Vec} {prev : List Nat} {p : Pack} {i nstates : Nat} (H : PInv vs prev p)
    (hvs : ∀ k, VecOK (vs.getD k {})) (hi : i < vs.length) (hnew : i ∉ prev)
    (ht : 0 < (vs.getD i {}).tally) :
    packOne nstates vs prev i p = .fatal ∨
    (packOne nstates vs prev i p = .outOfBounds ∧
      1200 ≤ ((prev ++ [i]).map (fun k => (entsAt vs k).length)).sum) ∨
    ∃ p', packOne nstates vs prev i p = .ok p' ∧ PInv vs (prev ++ [i]) p' := by
  have hvi := hvs i
  unfold packOne
  split
  · rename_i k hk
    right; right
    refine ⟨_, rfl, ?_⟩
    unfold matchingVector at hk
    split at hk
    · simp at hk
    obtain ⟨hkp, hke⟩ := matchLoop_spec vs _ hvi.tally hvs _ hk
    simp only [List.mem_reverse] at hkp
    have hki : k ≠ i := by rintro rfl; exact hnew hkp
    have hb : ∀ m, Pack.baseAt { p with pos := p.pos ++ [p.base.getD k 0], base := p.base.set i (p.base.getD k 0) } m
        = if m = i then p.baseAt k else p.baseAt m := by
      intro m
      unfold Pack.baseAt
      exact getD_set_int (by rw [H.baselen]; exact hi)
    have hbp : ∀ m ∈ prev, Pack.baseAt { p with pos := p.pos ++ [p.base.getD k 0], base := p.base.set i (p.base.getD k 0) } m
        = p.baseAt m := by
      intro m hm
      rw [hb, if_neg (by rintro rfl; exact hnew hm)]
    have hbi := hb i
    rw [if_pos rfl] at hbi
    refine ⟨⟨H.sized.t, H.sized.c⟩, H.big, ?_, ?_, H.low, H.highlt, H.high, ?_, ?_, ?_, ?_, ?_, H.spare⟩
    · simp only [List.length_set]; exact H.baselen
    · simp only [List.map_append, List.map_singleton]
      rw [hbi, H.pos_eq]
      congr 1
      exact List.map_congr_left fun k hk => (hbp k hk).symm
    · intro l c h1 h2
      obtain ⟨m, hm, e, he, h⟩ := H.cell l c h1 h2
      exact ⟨m, List.mem_append_left _ hm, e, he, by rw [hbp m hm]; exact h⟩
    · intro m hm e he
      rcases List.mem_append.1 hm with hm | hm
      · rw [hbp m hm]; exact H.ent m hm e he
      · obtain rfl := List.mem_singleton.1 hm
        rw [hbi]
        exact H.ent k hkp e (by rw [hke]; exact he)
    · intro m hm
      rcases List.mem_append.1 hm with hm | hm
      · rw [hbp m hm]; exact H.nz m hm
      · obtain rfl := List.mem_singleton.1 hm
        rw [hbi]; exact H.nz k hkp
    · intro m hm0 m' hm0' heq
      rcases List.mem_append.1 hm0 with hm | hm <;> rcases List.mem_append.1 hm0' with hm' | hm'
      · rw [hbp m hm, hbp m' hm'] at heq
        exact H.same m hm m' hm' heq
      · obtain rfl := List.mem_singleton.1 hm'
        rw [hbp m hm, hbi] at heq
        exact (H.same m hm k hkp heq).trans hke
      · obtain rfl := List.mem_singleton.1 hm
        rw [hbp m' hm', hbi] at heq
        exact hke.symm.trans (H.same k hkp m' hm' heq)
      · obtain rfl := List.mem_singleton.1 hm
        obtain rfl := List.mem_singleton.1 hm'
        rfl
    · intro m hm
      simp only [List.mem_append, List.mem_singleton, not_or] at hm
      rw [hb, if_neg hm.2]
      exact H.rest m hm.1
  · unfold packVector
    rw [if_neg (by omega)]
    simp only
    have htake : (vs.getD i {}).ents.take (vs.getD i {}).tally = entsAt vs i := by
      unfold entsAt
      exact List.take_of_length_le (by rw [hvi.tally])
    rw [htake]
    have hpos : ∀ e ∈ entsAt vs i, 0 ≤ firstBase p.lowzero (entsAt vs i) + e.1 := by
      intro e he
      have := firstBase_ge p.lowzero (entsAt vs i) e he
      omega
    generalize hj0 : firstBase p.lowzero (entsAt vs i) = j0 at hpos
    have hends := searchBase_ends (entsAt vs i) hvi.nodup
      (max j0 (1 + p.high + ((p.pos.map Int.natAbs).sum : Nat))) (by omega)
      (searchFuel p j0) j0 H.sized H.lowle hpos (by omega) (by unfold searchFuel; push_cast; omega)
      (by
        intro hmem
        have h1 := sum_natAbs hmem
        omega)
      (by
        intro e he l hl c hc
        have := hvi.nonneg e he
        exact H.high l c (by omega) hc)
    rcases searchBase_spec (entsAt vs i) hvi.nodup (searchFuel p j0) j0 H.sized H.lowle hpos with
      h | h | ⟨p1, p2, j, hj, hP, ⟨l, h, hl1, hl2, hl3⟩ | ⟨h, hl⟩⟩
    · left; rw [h]; rfl
    · exact absurd h hends
    · right; right
      rw [h]
      refine ⟨_, rfl, H.placed hvs hi hnew hP rfl rfl rfl rfl rfl rfl ?_⟩
      intro k hk
      simp only at hk
      rcases Nat.lt_or_ge k p.lowzero with hlt | hge
      · have hq : PInv vs (prev ++ [i]) { p2 with lowzero := 0, pos := p2.pos ++ [j], base := p2.base.set i j } :=
          H.placed hvs hi hnew hP rfl rfl rfl rfl rfl rfl (by simp)
        obtain ⟨c, hc, hck⟩ := H.low k hlt
        obtain ⟨m, hm, e, he, heq⟩ := H.cell k c hck hc
        have hb : (Pack.baseAt { p2 with lowzero := 0, pos := p2.pos ++ [j], base := p2.base.set i j } m) = p.baseAt m := by
          unfold Pack.baseAt
          simp only
          rw [hP.written.base, hP.ext.base, getD_set_int (by rw [H.baselen]; exact hi),
            if_neg (by rintro rfl; exact hnew hm)]
        have := (hq.ent m (List.mem_append_left _ hm) e he).2.2.1
        rw [hb, heq] at this
        exact ⟨e.1, by have := (hvs m).nonneg e he; omega, by simpa using this⟩
      · exact hl3 k hge hk
    · right; left
      rw [h]
      refine ⟨rfl, ?_⟩
      have hq : PInv vs (prev ++ [i]) { p2 with lowzero := 0, pos := p2.pos ++ [j], base := p2.base.set i j } :=
        H.placed hvs hi hnew hP rfl rfl rfl rfl rfl rfl (by simp)
      apply hq.full
      intro k hk
      simp only at hk ⊢
      rcases Nat.lt_or_ge k p.lowzero with hlt | hge
      · obtain ⟨c, hc, hck⟩ := H.low k hlt
        obtain ⟨m, hm, e, he, heq⟩ := H.cell k c hck hc
        have hb : (Pack.baseAt { p2 with lowzero := 0, pos := p2.pos ++ [j], base := p2.base.set i j } m) = p.baseAt m := by
          unfold Pack.baseAt
          simp only
          rw [hP.written.base, hP.ext.base, getD_set_int (by rw [H.baselen]; exact hi),
            if_neg (by rintro rfl; exact hnew hm)]
        have := (hq.ent m (List.mem_append_left _ hm) e he).2.2.1
        rw [hb, heq] at this
        have h2 := (hvs m).nonneg e he
        simp only [Int.toNat_natCast] at this
        rw [this]
        simp; omega
      · exact hl k hge hk

theorem packLoop_spec {vs : List Vec} {nstates : Nat} (hvs : ∀ k, VecOK (vs.getD k {})) (rest prev : List Nat)
    {p : Pack} (H : PInv vs prev p) (hnd : (prev ++ rest).Nodup)
    (hr : ∀ i ∈ rest, i < vs.length ∧ 0 < (vs.getD i {}).tally) :
    packLoop nstates vs prev rest p = .fatal ∨
    (packLoop nstates vs prev rest p = .outOfBounds ∧
      1200 ≤ ((prev ++ rest).map (fun k => (entsAt vs k).length)).sum) ∨
    ∃ p', packLoop nstates vs prev rest p = .ok p' ∧ PInv vs (prev ++ rest) p' := by
  induction rest generalizing prev p with
  | nil => exact .inr (.inr ⟨p, rfl, by simpa using H⟩)
  | cons i rest ih =>
    have hnew : i ∉ prev := by
      intro h
      exact (List.nodup_append.1 hnd).2.2 i h i (by simp) rfl
    have e : prev ++ i :: rest = (prev ++ [i]) ++ rest := by simp
    unfold packLoop
    rcases packOne_spec (nstates := nstates) H hvs (hr i (by simp)).1 hnew (hr i (by simp)).2 with h | ⟨h, hc⟩ | ⟨p', h, hp⟩
    · left; rw [h]; rfl
    · right; left
      rw [h]
      refine ⟨rfl, ?_⟩
      rw [e, List.map_append, List.sum_append]
      omega
    · rw [h, e]
      exact ih (prev ++ [i]) hp (by rw [← e]; exact hnd) (fun k hk => hr k (by simp [hk]))

end Verif.Byacc
