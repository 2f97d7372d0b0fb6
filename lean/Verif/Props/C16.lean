import Verif.Props.C15
/-
C16 — accesses of the packer (byacc/output.c).
-/
set_option autoImplicit false
namespace Verif.Byacc
open Spec

theorem sublist_sum_le {l l' : List Nat} (h : l.Sublist l') : l.sum ≤ l'.sum := by
  induction h with
  | slnil => simp
  | cons a _ ih => simp only [List.sum_cons]; omega
  | cons_cons a _ ih => simp only [List.sum_cons]; omega

/-- C16, what holds: packing any collection of well formed vectors ends, never fails an assertion,
and leaves the arrays only if there are at least 1200 entries in all.  (`fatal` is the regular
error "maximum table size exceeded".) -/
theorem C16_bounds_partial (nstates : Nat) (vs : List Vec) (hvs : ∀ v ∈ vs, VecOK v) :
    packTable nstates vs (sortActions vs) ≠ .running ∧ packTable nstates vs (sortActions vs) ≠ .assertFail ∧
    ((vs.map (fun v => v.ents.length)).sum < 1200 → packTable nstates vs (sortActions vs) ≠ .outOfBounds) := by
  have hok : ∀ k, VecOK (vs.getD k {}) := by
    intro k
    rw [List.getD_eq_getElem?_getD]
    cases h : vs[k]? with
    | none => exact .empty
    | some v => exact hvs v (List.mem_of_getElem? h)
  rcases packTable_spec (vs := vs) nstates hok with h | ⟨h, hn⟩ | ⟨p', h, H⟩
  · rw [h]; simp
  · rw [h]
    refine ⟨by simp, by simp, ?_⟩
    intro hlt
    exfalso
    obtain ⟨hnd, hmem⟩ := sortActions_spec vs
    have hsub : ((sortActions vs).map (fun k => (entsAt vs k).length)).sum ≤
        ((List.range vs.length).map (fun k => (entsAt vs k).length)).sum := by
      have hs : (sortActions vs).Subperm (List.range vs.length) :=
        List.subperm_of_subset hnd (fun k hk => List.mem_range.2 ((hmem k).1 hk).1)
      obtain ⟨l, hl1, hl2⟩ := hs
      rw [← (hl1.map _).sum_eq]
      exact sublist_sum_le (hl2.map _)
    have he : (List.range vs.length).map (fun k => (entsAt vs k).length) = vs.map (fun v => v.ents.length) := by
      apply List.ext_getElem
      · simp
      · intro i h1 h2
        simp at h2
        simp [entsAt, h2]
    rw [he] at hsub
    omega
  · rw [h]; simp

example : (c15Vs.map (fun v => v.ents.length)).sum = 8 ∧
    (match packTable 2 c15Vs (sortActions c15Vs) with | .ok _ => true | _ => false) = true := by decide +kernel

/-- The same for the vectors the generator builds: they are well formed whenever the token codes are
distinct and not negative. -/
theorem C16_generated_partial (lp : Bool) (ntokens nsyms : Nat) (rs : List SrcRule)
    (h : UserRules ntokens nsyms (rs.map SrcRule.rule)) (g : Gram)
    (hg : g = packGrammar lp ntokens nsyms (rs.map SrcRule.p) (encPitem rs))
    (sp : SymPrec) (lemon : Bool) (srExpect rrExpect : Int) (sv : List Int) (hsv : SymVals ntokens nsyms sv)
    (per : Nat) (hper : per = 2 ∨ per = 3) :
    ∃ o, generate g sp lemon srExpect rrExpect = some o ∧ (∀ v ∈ (vectors per g sv o).2, VecOK v) ∧
      outputTables per g sv o ≠ .running ∧ outputTables per g sv o ≠ .assertFail ∧
      (((vectors per g sv o).2.map (fun v => v.ents.length)).sum < 1200 → outputTables per g sv o ≠ .outOfBounds) := by
  obtain ⟨o, ho, K⟩ := generate_ok lp ntokens nsyms rs h g hg sp lemon srExpect rrExpect
  have hnt : g.ntokens = ntokens := K.ctx.packs.ntok
  have hns : g.nsyms = nsyms := by rw [hg]; rfl
  obtain ⟨v1, v2, -⟩ := vectors_spec K (per := per) (by omega) (by rw [hnt, hns]; exact hsv)
  have hvs : ∀ v ∈ (vectors per g sv o).2, VecOK v := by
    intro v hv
    obtain ⟨i, hi⟩ := List.mem_iff_getElem?.1 hv
    have := v2 i
    rw [List.getD_eq_getElem?_getD, hi] at this
    exact this
  refine ⟨o, ho, hvs, ?_⟩
  obtain ⟨h1, h2, h3⟩ := C16_bounds_partial o.aut.nstates (vectors per g sv o).2 hvs
  unfold outputTables
  simp only
  cases hp : packTable o.aut.nstates (vectors per g sv o).2 (sortActions (vectors per g sv o).2) with
  | ok p => simp only [Out.bind]; split <;> simp
  | running => exact absurd hp h1
  | assertFail => exact absurd hp h2
  | outOfBounds => simp only [Out.bind]; exact ⟨by simp, by simp, fun h => absurd hp (h3 h)⟩
  | fatal => simp [Out.bind]

/-- The vector of a state that shifts 1200 tokens whose codes are 300 to 1499, the token with the
code 1499 being declared first. -/
def c16V : Vec := ⟨1200, 1200, ((1499 : Int), 1) :: (List.range 1199).map (fun k => (((300 + k : Nat) : Int), 1))⟩

theorem c16_ok : VecOK c16V := by
  refine ⟨?_, ?_, ?_⟩
  · unfold c16V
    rw [List.length_cons, List.length_map, List.length_range]
  · intro e he
    unfold c16V at he
    simp only [List.mem_cons, List.mem_map] at he
    rcases he with rfl | ⟨k, -, rfl⟩
    · simp
    · simp only; omega
  · simp only [c16V, List.map_cons, List.map_map, List.nodup_cons, List.mem_map, List.mem_range, Function.comp_apply]
    refine ⟨?_, ?_⟩
    · rintro ⟨k, hk, e⟩; omega
    · refine List.Nodup.map ?_ List.nodup_range
      intro a b h
      simp only [Function.comp_apply] at h
      omega

theorem tryBase_free (j : Int) (es : List (Int × Nat)) (p : Pack)
    (h : ∀ e ∈ es, 0 ≤ j + e.1 ∧ j + e.1 < (p.maxtable : Int) - 1 ∧ p.check[(j + e.1).toNat]? = some (-1)) :
    tryBase j es p = .ok (p, true) := by
  induction es with
  | nil => rfl
  | cons e es ih =>
    obtain ⟨h0, h1, h2⟩ := h e (by simp)
    unfold tryBase
    have he : ensure p (j + e.1) = .ok p := by
      unfold ensure
      rw [if_neg (by omega)]
    have hr : readCheck p (j + e.1) = .ok (-1) := by
      unfold readCheck
      rw [if_neg (by omega), h2]
    simp only [he, hr, Out.bind]
    rw [if_neg (by simp)]
    exact ih (fun e' he' => h e' (by simp [he']))

theorem firstBase_le {lz : Nat} {es : List (Int × Nat)} {b : Int} (hne : es ≠ [])
    (h : ∀ e ∈ es, (lz : Int) - e.1 ≤ b) : firstBase lz es ≤ b := by
  cases es with
  | nil => exact absurd rfl hne
  | cons e es =>
    unfold firstBase
    refine foldl_inv (f := fun (j : Int) (e : Int × Nat) => if (lz : Int) - e.1 > j then (lz : Int) - e.1 else j) es
      (s := (lz : Int) - e.1) (fun _ j => j ≤ b) (h e (by simp)) ?_
    rintro pre y post t hl ht
    have := h y (by rw [hl]; simp)
    split <;> omega

theorem ensure_grow (p : Pack) (hs : Sized p) (hm : p.maxtable = 1000)
    (hf : ∀ i : Nat, i < 1000 → p.check[i]? = some (-1)) :
    ∃ p1, ensure p (-300 + 1499) = .ok p1 ∧ Sized p1 ∧ p1.maxtable = 1200 ∧
      p1.pos = p.pos ∧ p1.lowzero = p.lowzero ∧ ∀ i : Nat, i < 1200 → p1.check[i]? = some (-1) := by
  have hg : growLoop (-300 + 1499) ((-300 + 1499 : Int).toNat + 1) p.maxtable = 1200 := by
    unfold growLoop
    rw [if_neg (by omega)]
    omega
  have h1 := hs.t
  have h2 := hs.c
  have he : ensure p (-300 + 1499) = .ok { p with
      table := p.table.take 1200 ++ List.replicate (1200 - p.table.length) 0
      check := p.check.take 1200 ++ List.replicate (1200 - p.check.length) (-1)
      maxtable := 1200 } := by
    unfold ensure
    rw [if_pos (by omega), if_neg (by unfold INT_MAX; omega), hg]
  refine ⟨_, he, ⟨?_, ?_⟩, rfl, rfl, rfl, ?_⟩
  · simp only [List.length_append, List.length_take, List.length_replicate]
    omega
  · simp only [List.length_append, List.length_take, List.length_replicate]
    omega
  · intro i hi
    simp only
    rw [List.take_of_length_le (by omega)]
    rcases Nat.lt_or_ge i 1000 with h | h
    · rw [List.getElem?_append_left (by omega)]; exact hf i h
    · rw [List.getElem?_append_right (by omega), List.getElem?_replicate, if_pos (by omega)]

theorem c16_mem {e : Int × Nat} : e ∈ c16V.ents ↔ e = (1499, 1) ∨ ∃ k, k < 1199 ∧ e = (((300 + k : Nat) : Int), 1) := by
  unfold c16V
  rw [List.mem_cons, List.mem_map]
  constructor
  · rintro (h | ⟨k, hk, rfl⟩)
    · exact .inl h
    · exact .inr ⟨k, List.mem_range.1 hk, rfl⟩
  · rintro (h | ⟨k, hk, rfl⟩)
    · exact .inl h
    · exact .inr ⟨k, List.mem_range.2 hk, rfl⟩

theorem c16_search (fuel : Nat) (p : Pack) (hs : Sized p) (hm : p.maxtable = 1000)
    (hf : ∀ i : Nat, i < 1000 → p.check[i]? = some (-1)) (hp0 : p.pos = []) (hl0 : p.lowzero = 0) :
    searchBase c16V.ents (fuel + 1) (-300) p = .outOfBounds := by
  unfold searchBase
  rw [if_neg (by omega)]
  have hens := ensure_grow p hs hm hf
  rw [hp0, hl0] at hens
  obtain ⟨p1, he, hs1, hm, hpos, hlow, hfree⟩ := hens
  have htry : tryBase (-300) c16V.ents p = .ok (p1, true) := by
    unfold c16V
    simp only
    unfold tryBase
    simp only [he, Out.bind]
    have hr : readCheck p1 (-300 + 1499) = .ok (-1) := by
      unfold readCheck
      rw [if_neg (by omega), hfree _ (by omega)]
    simp only [hr]
    rw [if_neg (by simp)]
    apply tryBase_free
    intro e he
    simp only [List.mem_map, List.mem_range] at he
    obtain ⟨k, hk, rfl⟩ := he
    refine ⟨by simp only; omega, by simp only; omega, hfree _ (by simp only; omega)⟩
  rw [htry]
  simp only [Out.bind, hpos, List.contains_nil, Bool.not_false, Bool.and_self, if_true]
  have hb : ∀ e ∈ c16V.ents, 0 ≤ -300 + e.1 ∧ -300 + e.1 < (p1.maxtable : Int) := by
    intro e he
    rcases c16_mem.1 he with rfl | ⟨k, hk, rfl⟩
    · simp only; omega
    · simp only; omega
  obtain ⟨p2, hw, W⟩ := writeEnts_spec (-300) c16V.ents hs1 hb c16_ok.nodup
  rw [hw]
  simp only
  have hfull : ∀ i : Nat, i < 1200 → ∃ c, p2.check[i]? = some c ∧ 0 ≤ c := by
    intro i hi
    by_cases h9 : i = 1199
    · subst h9
      exact ⟨1499, (W.here (1499, 1) (c16_mem.2 (.inl rfl))).1, by omega⟩
    · refine ⟨((300 + i : Nat) : Int), ?_, by omega⟩
      have := (W.here (((300 + i : Nat) : Int), 1) (c16_mem.2 (.inr ⟨i, by omega, rfl⟩))).1
      simp only at this
      rw [show (-300 + ((300 + i : Nat) : Int)).toNat = i by omega] at this
      exact this
  have hlen : p2.check.length = 1200 := by rw [W.sized.c, W.maxtable, hm]
  rcases scanLow_spec (p2.check.length + 1) p2 (by omega) with ⟨l, h1, h2, h3, -⟩ | ⟨h1, -⟩ | ⟨-, h2⟩
  · have hl := (List.getElem?_eq_some_iff.1 h3).1
    obtain ⟨c, hc1, hc2⟩ := hfull l (by omega)
    rw [h3] at hc1
    simp only [Option.some.injEq] at hc1
    omega
  · rw [h1]
  · rw [W.lowzero, hlow] at h2
    omega

/-- C16 is false in general: the scan for the first free slot leaves the array when every allocated
slot is used. -/
theorem C16_violated : VecOK c16V ∧ packTable 2 [c16V] (sortActions [c16V]) = .outOfBounds := by
  refine ⟨c16_ok, ?_⟩
  have hso : sortActions [c16V] = [0] := rfl
  rw [hso]
  have hfb : firstBase 0 c16V.ents = -300 := by
    have h1 : firstBase 0 c16V.ents ≤ -300 := by
      apply firstBase_le (List.cons_ne_nil _ _)
      intro e he
      rcases c16_mem.1 he with rfl | ⟨k, hk, rfl⟩
      · simp
      · simp only; omega
    have h2 := firstBase_ge 0 c16V.ents (((300 + 0 : Nat) : Int), 1) (c16_mem.2 (.inr ⟨0, by omega, rfl⟩))
    simp only at h2
    omega
  have hpv : packVector c16V (packInit 1) = .outOfBounds := by
    unfold packVector
    rw [if_neg (by unfold c16V; simp only; omega)]
    simp only
    rw [show c16V.ents.take c16V.tally = c16V.ents from List.take_of_length_le (by rw [c16_ok.tally])]
    rw [show (packInit 1).lowzero = 0 from rfl, hfb]
    unfold searchFuel
    refine c16_search _ _ (PInv.init [c16V]).sized rfl ?_ rfl rfl
    intro i hi
    rw [show (packInit 1).check = List.replicate 1000 (-1) from rfl, List.getElem?_replicate, if_pos hi]
  have : packOne 2 [c16V] [] 0 (packInit 1) = .outOfBounds := by
    unfold packOne
    rw [show matchingVector 2 [c16V] [] 0 = none from rfl]
    simp only
    rw [show [c16V].getD 0 {} = c16V from rfl, hpv]
    rfl
  unfold packTable packLoop
  rw [show [c16V].length = 1 from rfl, this]
  rfl

end Verif.Byacc
