import Verif.Proofs.LemonGen
/-
Looking up actions in the generated tables.
-/
set_option autoImplicit false
namespace Verif.Lemon

variable {g : Gram} {fb : Nat → Option Nat} {cs : List CState} {order : List Nat} {nx : Nat} {T : Tables}

theorem shiftEntry_eq (wf : g.WF) (hok : ∀ i, i < nx → ActsOK g cs.length order (stateAt cs order i).acts)
    (R : Reported g fb cs order nx T) {i t : Nat} (hi : i < nx) (ht : t < g.nterm) :
    T.shiftEntry i t = lastNum g cs.length order (stateAt cs order i) t := by
  unfold Tables.shiftEntry
  by_cases hl : i < T.shiftOfst.length
  · obtain ⟨_, o, h1, _, _, h2⟩ := R.shift i hl
    have h3 := h2 t ht
    rw [h1]
    simp only
    have ho : ((o : Int) + t).toNat = o + t := by omega
    rw [ho]
    cases hn : lastNum g cs.length order (stateAt cs order i) t with
    | some n =>
      rw [hn] at h3
      simp only at h3
      rw [if_pos ⟨by omega, h3.1⟩, h3.2]
    | none =>
      rw [hn] at h3
      obtain ⟨l, hne, h3⟩ := h3
      rw [if_neg]
      rintro ⟨_, h4⟩
      rw [h3] at h4
      exact hne (Option.some.inj h4)
  · rw [List.getElem?_eq_none (by omega)]
    simp only
    refine (lastNum_tok_none wf (hok i hi) ?_ ht).symm
    have := (R.cover i).not.mp hl
    push Not at this
    have := this i (Nat.le_refl _) hi
    omega

theorem gotoEntry_eq (R : Reported g fb cs order nx T) {i : Nat} (hi : i < nx) {X : Nat} (hX : g.nlow ≤ X)
    (hX' : X < g.nsym) {n : Nat} (h : lastNum g cs.length order (stateAt cs order i) X = some n) : T.gotoEntry i (g.index X) = some n := by
  obtain ⟨o, h1, h2, h3, h4⟩ := R.reduce i hi X hX hX' n h
  unfold Tables.gotoEntry
  rw [h1]
  simp only
  rw [if_pos ⟨h2, h3⟩, h4]

/-- `yy_find_reduce_action` finds the entry -/
theorem findReduce_eq (R : Reported g fb cs order nx T) {i : Nat} (hi : i < nx) {X : Nat} (hX : g.nlow ≤ X)
    (hX' : X < g.nsym) {n : Nat} (h : lastNum g cs.length order (stateAt cs order i) X = some n) : T.findReduce i (g.index X) = some n := by
  obtain ⟨o, h1, h2, h3, h4⟩ := R.reduce i hi X hX hX' n h
  have hlt := (List.getElem?_eq_some_iff.mp h4).1
  unfold Tables.findReduce
  rw [h1]
  have hc : (decide (o + (g.index X : Int) < 0) || decide (o + (g.index X : Int) ≥ (T.action.length : Int)) ||
      T.lookahead[(o + (g.index X : Int)).toNat]? != some (g.index X)) = false := by
    rw [h3]
    simp
    omega
  cases T.errsym <;> simp only [hc, Bool.false_eq_true, if_false, h4]

/-- one round of `yy_find_shift_action` -/
theorem findShiftLoop_succ (R : Reported g fb cs order nx T) (hfb : FallbackOK g fb) (hw : ∀ W, g.wildcard = some W → 0 < W ∧ W < g.nterm)
    {i t : Nat} (hl : i < T.shiftOfst.length) (ht : t < g.nterm) (nd : Bool) (fuel : Nat) :
    T.findShiftLoop nd i (fuel + 1) t = match lastNum g cs.length order (stateAt cs order i) t with
      | some n => some n
      | none =>
        match fb t with
        | some t' => if nd = false ∧ fb t' ≠ none then none else T.findShiftLoop nd i fuel t'
        | none =>
          match g.wildcard with
          | none => T.dflt[i]?
          | some W =>
            match lastNum g cs.length order (stateAt cs order i) W with
            | some n => if 0 < t then some n else T.dflt[i]?
            | none => T.dflt[i]? := by
  obtain ⟨hi, o, h1, h2, h3, h4⟩ := R.shift i hl
  have h5 := h4 t ht
  have hff : ∀ t, t < g.nterm → T.fallback[t]? = some ((fb t).getD 0) := R.fallback
  have hwi : T.wildcard = g.wildcard := by
    rw [R.wildcard]
    cases hg : g.wildcard with
    | none => rfl
    | some W =>
      have := hw W hg
      simp [Gram.index, this.2]
  rw [Tables.findShiftLoop, h1]
  simp only
  have hb : (decide ((o : Int) < 0) || decide ((o : Int) > (T.action.length : Int)) || decide ((o : Int) + (T.nterm : Int) > (T.lookahead.length : Int)) ||
      decide (T.nterm ≤ t)) = false := by
    rw [R.nterm]
    simp only [Bool.or_eq_false_iff, decide_eq_false_iff_not]
    omega
  rw [hb]
  simp only [Bool.false_eq_true, if_false]
  have ho : (o : Int).toNat = o := by omega
  rw [ho]
  cases hn : lastNum g cs.length order (stateAt cs order i) t with
  | some n =>
    rw [hn] at h5
    simp only at h5
    rw [h5.1]
    simp only [if_true]
    exact h5.2
  | none =>
    rw [hn] at h5
    obtain ⟨l, hne, h5⟩ := h5
    rw [h5]
    simp only [if_neg hne]
    rw [hff t ht]
    cases hf : fb t with
    | some t' =>
      obtain ⟨_, _, k1, k2⟩ := hfb t t' hf
      obtain ⟨k, rfl⟩ := Nat.exists_eq_succ_of_ne_zero (Nat.ne_of_gt k1)
      simp only [Option.getD_some, Nat.succ_eq_add_one]
      rw [hff (k + 1) k2]
      have hz : (some ((fb (k + 1)).getD 0) != some 0) = decide (fb (k + 1) ≠ none) := by
        cases hf' : fb (k + 1) with
        | none => rfl
        | some t'' =>
          have := (hfb _ _ hf').2.2.1
          simp
          omega
      rw [hz]
      cases nd <;> simp
    | none =>
      simp only [Option.getD_none]
      rw [hwi]
      cases hg : g.wildcard with
      | none => rfl
      | some W =>
        simp only
        obtain ⟨w1, w2⟩ := hw W hg
        have h6 := h4 W w2
        cases hm : lastNum g cs.length order (stateAt cs order i) W with
        | some n =>
          rw [hm] at h6
          simp only at h6
          rw [h6.1, h6.2]
          simp
        | none =>
          rw [hm] at h6
          obtain ⟨l', hne', h6⟩ := h6
          rw [h6]
          simp [hne']

/-- the default of a state as a number -/
def dfltNum (g : Gram) (nstate : Nat) : Option Nat → Nat
  | none => nstate + g.rules.length
  | some r => nstate + g.rules.length + 3 + g.iRule r

theorem dflt_eq (R : Reported g fb cs order nx T) {i : Nat} (hi : i < nx) :
    T.dflt[i]? = some (dfltNum g cs.length (dfltReduce g (stateAt cs order i))) := by
  rw [R.dflt i hi]
  cases dfltReduce g (stateAt cs order i) <;> rfl

/-- the choice described by `Finds` for the state with number `i` -/
abbrev FindsAt (g : Gram) (fb : Nat → Option Nat) (cs : List CState) (order : List Nat) (i : Nat) : Nat → Nat → Prop :=
  Finds (lastNum g cs.length order (stateAt cs order i)) fb g.wildcard (dfltNum g cs.length (dfltReduce g (stateAt cs order i)))

theorem Finds.unique {act fb : Nat → Option Nat} {wild : Option Nat} {d : Nat} {t n n' : Nat} (h : Finds act fb wild d t n)
    (h' : Finds act fb wild d t n') : n = n' := by
  induction h with
  | hit h =>
    cases h' with
    | hit k => rw [h] at k; exact Option.some.inj k
    | fallback k => rw [h] at k; cases k
    | wildcard k => rw [h] at k; cases k
    | dflt k => rw [h] at k; cases k
  | fallback h1 h2 _ ih =>
    cases h' with
    | hit k => rw [h1] at k; cases k
    | fallback _ k k' => rw [h2] at k; cases k; exact ih k'
    | wildcard _ k => rw [h2] at k; cases k
    | dflt _ k => rw [h2] at k; cases k
  | wildcard h1 h2 h3 h4 h5 =>
    cases h' with
    | hit k => rw [h1] at k; cases k
    | fallback _ k => rw [h2] at k; cases k
    | wildcard _ _ k _ k' => rw [h3] at k; cases k; rw [h5] at k'; exact Option.some.inj k'
    | dflt _ _ k =>
      rcases k _ h3 with e | e
      · exact absurd e h4
      · rw [h5] at e; cases e
  | dflt h1 h2 h3 =>
    cases h' with
    | hit k => rw [h1] at k; cases k
    | fallback _ k => rw [h2] at k; cases k
    | wildcard _ _ k k' k'' =>
      rcases h3 _ k with e | e
      · exact absurd e k'
      · rw [k''] at e; cases e
    | dflt => rfl

/-- what the loop finds is right -/
theorem finds_of_loop (R : Reported g fb cs order nx T) (hfb : FallbackOK g fb) (hw : ∀ W, g.wildcard = some W → 0 < W ∧ W < g.nterm)
    {i : Nat} (hl : i < T.shiftOfst.length) {nd : Bool} : ∀ (fuel t n : Nat), t < g.nterm → T.findShiftLoop nd i fuel t = some n →
      FindsAt g fb cs order i t n := by
  have hi := (R.shift i hl).1
  intro fuel
  induction fuel with
  | zero => intro t n _ h; cases h
  | succ fuel ih =>
    intro t n ht h
    rw [findShiftLoop_succ R hfb hw hl ht] at h
    cases hn : lastNum g cs.length order (stateAt cs order i) t with
    | some a => rw [hn] at h; cases h; exact .hit hn
    | none =>
      rw [hn] at h
      simp only at h
      cases hf : fb t with
      | some t' =>
        rw [hf] at h
        simp only at h
        split_ifs at h
        exact .fallback hn hf (ih t' n (hfb t t' hf).2.2.2 h)
      | none =>
        rw [hf, dflt_eq R hi] at h
        simp only at h
        cases hg : g.wildcard with
        | none =>
          rw [hg] at h
          cases h
          exact .dflt hn hf (by rw [hg]; intro W hW; cases hW)
        | some W =>
          rw [hg] at h
          simp only at h
          cases hm : lastNum g cs.length order (stateAt cs order i) W with
          | some a =>
            rw [hm] at h
            simp only at h
            split_ifs at h with h0
            · cases h
              exact .wildcard hn hf hg (by omega) hm
            · cases h
              exact .dflt hn hf (by rw [hg]; intro W' hW'; exact .inl (by omega))
          | none =>
            rw [hm] at h
            cases h
            exact .dflt hn hf (by rw [hg]; intro W' hW'; cases hW'; exact .inr hm)

/-- what is right is found; without assertions -/
theorem loop_of_finds (R : Reported g fb cs order nx T) (hfb : FallbackOK g fb) (hw : ∀ W, g.wildcard = some W → 0 < W ∧ W < g.nterm)
    {i : Nat} (hl : i < T.shiftOfst.length) {t n : Nat} (ht : t < g.nterm) (h : FindsAt g fb cs order i t n) :
    ∃ fuel, ∀ fuel', fuel ≤ fuel' → T.findShiftLoop true i fuel' t = some n := by
  have hi := (R.shift i hl).1
  induction h with
  | hit h =>
    refine ⟨1, fun fuel' hf => ?_⟩
    obtain ⟨k, rfl⟩ := Nat.exists_eq_add_of_le' hf
    rw [findShiftLoop_succ R hfb hw hl ht, h]
  | @fallback t t' n h1 h2 _ ih =>
    obtain ⟨fuel, hfu⟩ := ih (hfb t t' h2).2.2.2
    refine ⟨fuel + 1, fun fuel' hf => ?_⟩
    obtain ⟨k, rfl⟩ := Nat.exists_eq_add_of_le' (Nat.le_of_succ_le_succ (Nat.succ_le_succ hf) : fuel + 1 ≤ fuel')
    rw [← Nat.add_assoc, findShiftLoop_succ R hfb hw hl ht, h1, h2]
    simp only
    rw [if_neg (by simp)]
    exact hfu _ (by omega)
  | wildcard h1 h2 h3 h4 h5 =>
    refine ⟨1, fun fuel' hf => ?_⟩
    obtain ⟨k, rfl⟩ := Nat.exists_eq_add_of_le' hf
    rw [findShiftLoop_succ R hfb hw hl ht, h1, h2, h3]
    simp only
    rw [h5]
    simp only
    rw [if_pos (by omega)]
  | dflt h1 h2 h3 =>
    refine ⟨1, fun fuel' hf => ?_⟩
    obtain ⟨k, rfl⟩ := Nat.exists_eq_add_of_le' hf
    rw [findShiftLoop_succ R hfb hw hl ht, h1, h2]
    simp only
    rw [dflt_eq R hi]
    cases hg : g.wildcard with
    | none => rfl
    | some W =>
      simp only
      rcases h3 W hg with e | e
      · rw [e]
        split
        · simp
        · rfl
      · rw [e]

/-- without chains of fallbacks two rounds are enough, and the assertion holds -/
theorem loop_total (R : Reported g fb cs order nx T) (hfb : FallbackOK g fb) (hw : ∀ W, g.wildcard = some W → 0 < W ∧ W < g.nterm)
    (hch : ∀ t t', fb t = some t' → fb t' = none) {i : Nat} (hl : i < T.shiftOfst.length) {t : Nat} (ht : t < g.nterm) (nd : Bool)
    {fuel : Nat} (hf : 2 ≤ fuel) : ∃ n, T.findShiftLoop nd i fuel t = some n := by
  have hi := (R.shift i hl).1
  have hone : ∀ t, t < g.nterm → fb t = none → ∀ fuel, ∃ n, T.findShiftLoop nd i (fuel + 1) t = some n := by
    intro t ht h0 fuel
    rw [findShiftLoop_succ R hfb hw hl ht, h0, dflt_eq R hi]
    split
    · exact ⟨_, rfl⟩
    · simp only
      split
      · exact ⟨_, rfl⟩
      · split
        · split_ifs
          · exact ⟨_, rfl⟩
          · exact ⟨_, rfl⟩
        · exact ⟨_, rfl⟩
  obtain ⟨k, rfl⟩ := Nat.exists_eq_add_of_le' hf
  cases h0 : fb t with
  | none => exact hone t ht h0 (k + 1)
  | some t' =>
    rw [show k + 2 = (k + 1) + 1 from rfl, findShiftLoop_succ R hfb hw hl ht, h0]
    split
    · exact ⟨_, rfl⟩
    · simp only
      rw [if_neg (by rw [hch t t' h0]; simp)]
      exact hone t' (hfb t t' h0).2.2.2 (hch t t' h0) k

end Verif.Lemon
