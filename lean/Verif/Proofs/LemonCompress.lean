import Verif.Spec.LemonTable
import Verif.Proofs.LemonComp
/-
`CompressTables`: lemmas.
-/
set_option autoImplicit false
namespace Verif.Lemon

variable {g : Gram}

/-! ### Most frequent reduction -/

/-- reductions by `r` in a list -/
def countRed (r : Nat) (l : List Act) : Nat := (l.filter (Act.reduces r)).length

theorem bestScan_nil {s : Nat × Option Nat × Bool} : bestScan g [] s = s := rfl

theorem bestScan_cons {ap : Act} {l : List Act} {nbest : Nat} {rbest : Option Nat} {w : Bool} :
    bestScan g (ap :: l) (nbest, rbest, w) =
      bestScan g l (if ap.type = .REDUCE ∧ g.lhsStart ap.x = false ∧ some ap.x ≠ rbest ∧ nbest < countRed ap.x (ap :: l) then
        (countRed ap.x (ap :: l), some ap.x, w || (ap.type == .SHIFT && some ap.sp == g.wildcard))
        else (nbest, rbest, w || (ap.type == .SHIFT && some ap.sp == g.wildcard))) := by
  rw [bestScan]
  simp only []
  by_cases h1 : ap.type = .REDUCE
  · by_cases h2 : g.lhsStart ap.x
    · simp [h1, h2]
    · by_cases h3 : some ap.x = rbest
      · simp [h1, h2, h3]
      · have hc : 1 + (l.filter fun ap2 => ap2.type == .REDUCE && some ap2.x != rbest && ap2.x == ap.x).length =
            countRed ap.x (ap :: l) := by
          unfold countRed
          rw [List.filter_cons_of_pos (by simp [Act.reduces, h1]), List.length_cons, Nat.add_comm]
          congr 2
          apply List.filter_congr
          intro b _
          by_cases hb : b.x = ap.x
          · simp [Act.reduces, hb, h3]
          · have : (b.x == ap.x) = false := by simpa using hb
            simp [Act.reduces, this]
        simp only [h1, h2, h3, hc]
        simp only [bne_self_eq_false, Bool.false_eq_true, ite_false, beq_iff_eq, h3, gt_iff_lt, true_and, ne_eq, not_false_eq_true]
        split_ifs <;> rfl
  · simp [h1]

/-- Result of the search: nothing if all reductions are by start rules; else a rule that is
reduced by most often; and whether the wildcard is shifted. -/
theorem bestScan_spec : ∀ (l pre : List Act) (nbest : Nat) (rbest : Option Nat) (w : Bool),
    (∀ r, rbest = some r → g.lhsStart r = false ∧ nbest = countRed r (pre ++ l) ∧ 0 < nbest) → (rbest = none → nbest = 0) →
    (∀ a ∈ pre, a.type = .REDUCE → g.lhsStart a.x = false → countRed a.x (pre ++ l) ≤ nbest) →
    ∀ nb rb w', bestScan g l (nbest, rbest, w) = (nb, rb, w') →
    (∀ r, rb = some r → g.lhsStart r = false ∧ nb = countRed r (pre ++ l) ∧ 0 < nb) ∧ (rb = none → nb = 0) ∧
    (∀ a ∈ pre ++ l, a.type = .REDUCE → g.lhsStart a.x = false → countRed a.x (pre ++ l) ≤ nb) ∧
    (w' = true ↔ w = true ∨ ∃ a ∈ l, a.type = .SHIFT ∧ g.wildcard = some a.sp) := by
  intro l
  induction l with
  | nil =>
    intro pre nbest rbest w h1 h2 h3 nb rb w' h
    rw [bestScan_nil] at h
    simp only [Prod.mk.injEq] at h
    obtain ⟨rfl, rfl, rfl⟩ := h
    exact ⟨h1, h2, by simpa using h3, by simp⟩
  | cons ap l ih =>
    intro pre nbest rbest w h1 h2 h3 nb rb w' h
    rw [bestScan_cons] at h
    have hpre : pre ++ ap :: l = (pre ++ [ap]) ++ l := by simp
    have hle : ∀ r, countRed r (ap :: l) ≤ countRed r (pre ++ ap :: l) := by
      intro r; unfold countRed; rw [List.filter_append]; simp
    have hw : ∀ w'', (w'' = true ↔ (w || (ap.type == .SHIFT && some ap.sp == g.wildcard)) = true ∨
          ∃ a ∈ l, a.type = .SHIFT ∧ g.wildcard = some a.sp) →
        (w'' = true ↔ w = true ∨ ∃ a ∈ ap :: l, a.type = .SHIFT ∧ g.wildcard = some a.sp) := by
      intro w'' hw
      rw [hw]
      simp only [Bool.or_eq_true, Bool.and_eq_true, beq_iff_eq, List.mem_cons, exists_eq_or_imp]
      constructor
      · rintro ((h | ⟨h, h'⟩) | h)
        · exact .inl h
        · exact .inr (.inl ⟨h, h'.symm⟩)
        · exact .inr (.inr h)
      · rintro (h | ⟨h, h'⟩ | h)
        · exact .inl (.inl h)
        · exact .inl (.inr ⟨h, h'.symm⟩)
        · exact .inr h
    by_cases hc : ap.type = .REDUCE ∧ g.lhsStart ap.x = false ∧ some ap.x ≠ rbest ∧ nbest < countRed ap.x (ap :: l)
    · rw [if_pos hc] at h
      obtain ⟨c1, c2, c3, c4⟩ := hc
      have hnone : countRed ap.x pre = 0 := by
        by_contra hne
        obtain ⟨b, hb⟩ := List.length_pos_iff_exists_mem.mp (Nat.pos_of_ne_zero hne)
        obtain ⟨hb1, hb2⟩ := List.mem_filter.mp hb
        simp only [Act.reduces, Bool.and_eq_true, beq_iff_eq] at hb2
        have := h3 b hb1 hb2.1 (by rw [hb2.2]; exact c2)
        rw [hb2.2] at this
        have := hle ap.x
        omega
      have heq : countRed ap.x (ap :: l) = countRed ap.x (pre ++ ap :: l) := by
        have e : countRed ap.x (pre ++ ap :: l) = countRed ap.x pre + countRed ap.x (ap :: l) := by
          unfold countRed; rw [List.filter_append, List.length_append]
        omega
      obtain ⟨r1, r2, r3, r4⟩ := ih (pre ++ [ap]) _ _ _ (by
          intro r hr
          cases hr
          rw [← hpre]
          exact ⟨c2, heq, by omega⟩) (by simp) (by
          intro a ha t1 t2
          rw [← hpre]
          rcases List.mem_append.mp ha with ha | ha
          · exact Nat.le_of_lt (Nat.lt_of_le_of_lt (h3 a ha t1 t2) c4)
          · simp only [List.mem_singleton] at ha
            rw [ha, ← heq]) nb rb w' h
      rw [← hpre] at r1 r3
      exact ⟨r1, r2, r3, hw w' r4⟩
    · rw [if_neg hc] at h
      obtain ⟨r1, r2, r3, r4⟩ := ih (pre ++ [ap]) _ _ _ (by
          intro r hr
          rw [← hpre]
          exact h1 r hr) h2 (by
          intro a ha t1 t2
          rw [← hpre]
          rcases List.mem_append.mp ha with ha | ha
          · exact h3 a ha t1 t2
          · simp only [List.mem_singleton] at ha
            subst ha
            by_cases hr : some a.x = rbest
            · exact (h1 a.x hr.symm).2.1 ▸ Nat.le_refl _
            · have hn : countRed a.x (a :: l) ≤ nbest := by
                by_contra hh
                exact hc ⟨t1, t2, hr, by omega⟩
              by_cases hp : countRed a.x pre = 0
              · have e : countRed a.x (pre ++ a :: l) = countRed a.x pre + countRed a.x (a :: l) := by
                  unfold countRed; rw [List.filter_append, List.length_append]
                omega
              · obtain ⟨b, hb⟩ := List.length_pos_iff_exists_mem.mp (Nat.pos_of_ne_zero hp)
                obtain ⟨hb1, hb2⟩ := List.mem_filter.mp hb
                simp only [Act.reduces, Bool.and_eq_true, beq_iff_eq] at hb2
                have := h3 b hb1 hb2.1 (by rw [hb2.2]; exact t2)
                rw [hb2.2] at this
                exact this) nb rb w' h
      rw [← hpre] at r1 r3
      exact ⟨r1, r2, r3, hw w' r4⟩

theorem countRed_pos {r : Nat} {l : List Act} : 0 < countRed r l ↔ ∃ a ∈ l, a.type = .REDUCE ∧ a.x = r := by
  unfold countRed
  rw [List.length_pos_iff_exists_mem]
  simp [Act.reduces]

/-! ### Usable actions on a symbol -/

theorem onSym_cons (a : Act) (l : List Act) (X : Nat) :
    onSym (a :: l) X = (if a.type.live = true ∧ a.sp = X then [(a.type, a.x)] else []) ++ onSym l X := by
  unfold onSym
  rw [List.filter_cons]
  by_cases h1 : a.type.live = true <;> by_cases h2 : a.sp = X <;> simp [h1, h2]

theorem mem_onSym {l : List Act} {X : Nat} {e : AType × Nat} :
    e ∈ onSym l X ↔ ∃ a ∈ l, a.type.live = true ∧ a.sp = X ∧ (a.type, a.x) = e := by
  unfold onSym
  simp only [List.mem_map, List.mem_filter, Bool.and_eq_true, beq_iff_eq]
  constructor
  · rintro ⟨a, ⟨h1, h2, h3⟩, h4⟩; exact ⟨a, h1, h2, h3, h4⟩
  · rintro ⟨a, h1, h2, h3, h4⟩; exact ⟨a, ⟨h1, h2, h3⟩, h4⟩

/-- what is known of a state's actions after `FindActions` -/
structure Resolved (g : Gram) (l : List Act) : Prop where
  sp : ∀ a ∈ l, g.plain a.sp ∧ g.index a.sp < g.nsymbol
  ty : ∀ a ∈ l, a.type = .SHIFT ∨ a.type = .ACCEPT ∨ a.type = .REDUCE ∨ a.type = .ERROR ∨ a.type.settled = true
  one : ∀ X, onSym l X = [] ∨ (∃ q, onSym l X = [(.SHIFT, q)]) ∨ (∃ r, onSym l X = [(.REDUCE, r)]) ∨
    onSym l X = [(.ACCEPT, 0)] ∨ ∃ q r, onSym l X = [(.ERROR, q), (.REDUCE, r)]
  nt : ∀ X, g.nlow ≤ X → (l.filter fun a => a.sp == X) = [] ∨ ∃ a, (l.filter fun a => a.sp == X) = [a] ∧
    (a.type = .SHIFT ∨ (a.type = .ACCEPT ∧ a.x = 0))
  len : l.length < 2 ^ 30

theorem onSym_unused (r : Nat) (X : Nat) : ∀ l : List Act,
    onSym (l.map fun b => if b.reduces r then { b with type := .NOT_USED } else b) X =
      (onSym l X).filter fun e => !(e == (AType.REDUCE, r)) := by
  intro l
  induction l with
  | nil => rfl
  | cons a l ih =>
    rw [List.map_cons, onSym_cons, onSym_cons, List.filter_append, ih]
    congr 1
    by_cases h : a.reduces r = true
    · simp only [Act.reduces, Bool.and_eq_true, beq_iff_eq] at h
      obtain ⟨h1, h2⟩ := h
      by_cases h3 : a.sp = X <;> simp [Act.reduces, h1, h2, h3, AType.live]
    · have h' : ¬ ((a.type, a.x) = (AType.REDUCE, r)) := by
        simp only [Act.reduces, Bool.and_eq_true, beq_iff_eq] at h
        simpa using h
      simp only [h]
      by_cases h3 : a.type.live = true ∧ a.sp = X
      · simp [h3, h']
      · simp [h3]

theorem onSym_default {r : Nat} : ∀ l : List Act, (∀ a ∈ l, a.sp ≠ g.nsym) → (∃ a ∈ l, a.type = .REDUCE ∧ a.x = r) →
    onSym (makeDefault g r l) g.nsym = [(.REDUCE, r)] ∧
    ∀ X, X ≠ g.nsym → onSym (makeDefault g r l) X = (onSym l X).filter fun e => !(e == (AType.REDUCE, r)) := by
  intro l
  induction l with
  | nil => rintro _ ⟨a, h, _⟩; cases h
  | cons a l ih =>
    intro hs hex
    have hnil : ∀ l : List Act, (∀ a ∈ l, a.sp ≠ g.nsym) → onSym l g.nsym = [] := by
      intro l hl
      unfold onSym
      rw [List.map_eq_nil_iff, List.filter_eq_nil_iff]
      intro b hb
      simp [hl b hb]
    rw [makeDefault]
    by_cases h : a.reduces r = true
    · rw [if_pos h]
      simp only [Act.reduces, Bool.and_eq_true, beq_iff_eq] at h
      obtain ⟨h1, h2⟩ := h
      constructor
      · rw [onSym_cons, onSym_unused, hnil l fun b hb => hs b (List.mem_cons_of_mem _ hb)]
        simp [h1, h2, AType.live]
      · intro X hX
        rw [onSym_cons, onSym_unused, onSym_cons, List.filter_append]
        have : ¬ (g.nsym = X) := fun h => hX h.symm
        simp only [this, and_false, ite_false, List.nil_append]
        split_ifs with h3
        · simp [h1, h2]
        · simp
    · rw [if_neg h]
      obtain ⟨i1, i2⟩ := ih (fun b hb => hs b (List.mem_cons_of_mem _ hb)) (by
        obtain ⟨b, hb, hb'⟩ := hex
        rcases List.mem_cons.mp hb with rfl | hb
        · exact absurd (by simpa [Act.reduces] using hb') h
        · exact ⟨b, hb, hb'⟩)
      have h' : ¬ ((a.type, a.x) = (AType.REDUCE, r)) := by
        simp only [Act.reduces, Bool.and_eq_true, beq_iff_eq] at h
        simpa using h
      constructor
      · rw [onSym_cons, i1]
        simp [hs a List.mem_cons_self]
      · intro X hX
        rw [onSym_cons, onSym_cons, List.filter_append, i2 X hX]
        congr 1
        split_ifs
        · simp [h']
        · simp

theorem onSym_sort {l : List Act} (hl : l.length < 2 ^ 30) (X : Nat) :
    (onSym (actionSort g l) X).Perm (onSym l X) ∧ (onSym (actionSort g l) X).Pairwise fun a b => a.1.code ≤ b.1.code := by
  obtain ⟨h1, h2⟩ := actionSort_spec (g := g) hl
  constructor
  · exact (h1.filter _).map _
  · unfold onSym
    rw [List.pairwise_map]
    have h3 : ((actionSort g l).filter fun a => a.type.live && a.sp == X).Pairwise fun x y => actioncmp g x y ≤ 0 := h2.filter _
    rw [List.pairwise_iff_getElem] at h3 ⊢
    intro i j hi hj hij
    have h := h3 i j hi hj hij
    have e1 : ∀ k (hk : k < ((actionSort g l).filter fun a => a.type.live && a.sp == X).length),
        (((actionSort g l).filter fun a => a.type.live && a.sp == X)[k]).sp = X := by
      intro k hk
      have := List.getElem_mem hk
      have := (List.mem_filter.mp this).2
      simp only [Bool.and_eq_true, beq_iff_eq] at this
      exact this.2
    rw [actioncmp_le, e1 i hi, e1 j hj] at h
    rcases h with h | ⟨_, h | ⟨h, _⟩⟩
    · omega
    · exact Nat.le_of_lt h
    · rw [h]

theorem Resolved.ne_nsym {l : List Act} (h : Resolved g l) (wf : g.WF) : ∀ a ∈ l, a.sp ≠ g.nsym := by
  intro a ha he
  have h1 := (h.sp a ha).2
  have h2 := wf.nsym
  unfold Gram.index Gram.nsymbol at h1
  unfold Gram.nlow at h2
  rw [he] at h1
  split_ifs at h1 <;> omega

theorem index_nsym (wf : g.WF) : g.index g.nsym = g.nsymbol := by
  have h2 := wf.nsym
  unfold Gram.index Gram.nsymbol
  unfold Gram.nlow at h2
  split_ifs <;> omega

theorem makeDefault_length (r : Nat) (l : List Act) : (makeDefault g r l).length = l.length := by
  induction l with
  | nil => rfl
  | cons a l ih => rw [makeDefault]; split_ifs <;> simp [ih]

theorem mem_makeDefault {r : Nat} {a : Act} : ∀ {l : List Act}, a ∈ makeDefault g r l → ∃ b ∈ l, a.x = b.x ∧ a.id = b.id ∧
    (a.sp = b.sp ∨ (a.sp = g.nsym ∧ a.type = .REDUCE)) ∧ (a.type = b.type ∨ a.type = .NOT_USED) := by
  intro l
  induction l with
  | nil => intro h; cases h
  | cons c l ih =>
    intro h
    rw [makeDefault] at h
    split_ifs at h with h1
    · simp only [Act.reduces, Bool.and_eq_true, beq_iff_eq] at h1
      rcases List.mem_cons.mp h with rfl | h
      · exact ⟨c, List.mem_cons_self, rfl, rfl, .inr ⟨rfl, h1.1⟩, .inl rfl⟩
      · obtain ⟨b, hb, rfl⟩ := List.mem_map.mp h
        refine ⟨b, List.mem_cons_of_mem _ hb, ?_⟩
        split_ifs
        · exact ⟨rfl, rfl, .inl rfl, .inr rfl⟩
        · exact ⟨rfl, rfl, .inl rfl, .inl rfl⟩
    · rcases List.mem_cons.mp h with rfl | h
      · exact ⟨_, List.mem_cons_self, rfl, rfl, .inl rfl, .inl rfl⟩
      · obtain ⟨b, hb, h⟩ := ih h
        exact ⟨b, List.mem_cons_of_mem _ hb, h⟩

theorem dflt_onSym (wf : g.WF) {c : CState} (h : ∀ a ∈ c.acts, a.sp = g.nsym ∨ g.index a.sp < g.nsymbol) :
    dfltReduce g c = (onSym c.acts g.nsym).getLast?.map Prod.snd := by
  unfold dfltReduce onSym
  rw [List.getLast?_map, Option.map_map]
  congr 2
  apply List.filter_congr
  intro a ha
  congr 1
  rcases h a ha with h | h
  · simp [h, index_nsym wf]
  · have : a.sp ≠ g.nsym := by
      intro he
      rw [he, index_nsym wf] at h
      omega
    rw [beq_eq_false_iff_ne.mpr this, decide_eq_false (by omega)]

/-- What `CompressTables` does to a state in its first pass. -/
theorem compressState_spec (wf : g.WF) {l : List Act} (h : Resolved g l) :
    (dfltReduce g (compressState g l) = none ∧ compressState g l = ⟨l, none⟩ ∧
      ((∃ a ∈ l, a.type = .SHIFT ∧ g.wildcard = some a.sp) ∨ ∀ a ∈ l, a.type = .REDUCE → g.lhsStart a.x = true)) ∨
    ∃ r, dfltReduce g (compressState g l) = some r ∧ g.lhsStart r = false ∧ (∃ a ∈ l, a.type = .REDUCE ∧ a.x = r) ∧
      (∀ a ∈ l, a.type = .REDUCE → g.lhsStart a.x = false → countRed a.x l ≤ countRed r l) ∧
      (¬ ∃ a ∈ l, a.type = .SHIFT ∧ g.wildcard = some a.sp) ∧
      onSym (compressState g l).acts g.nsym = [(.REDUCE, r)] ∧
      (∀ X, X ≠ g.nsym → (onSym (compressState g l).acts X).Perm ((onSym l X).filter fun e => !(e == (AType.REDUCE, r))) ∧
        (onSym (compressState g l).acts X).Pairwise fun a b => a.1.code ≤ b.1.code) ∧
      (∀ X, X ≠ g.nsym → ((compressState g l).acts.filter fun a => a.sp == X).length ≤ (l.filter fun a => a.sp == X).length) ∧
      (∀ a ∈ (compressState g l).acts, (a.sp = g.nsym ∧ a.type = .REDUCE) ∨ ∃ b ∈ l, a.sp = b.sp) ∧
      (∀ a ∈ (compressState g l).acts, ∃ b ∈ l, (a.type = b.type ∨ a.type = .NOT_USED)) ∧
      ((compressState g l).auto = none ∨ (compressState g l).auto = some r) ∧
      ((compressState g l).auto = some r ↔ ∀ X, ∀ e ∈ onSym l X, e.1 ≠ .SHIFT ∧ (e.1 = .REDUCE → e.2 = r)) := by
  obtain ⟨nb, rb, w, hb⟩ : ∃ nb rb w, bestScan g l (0, none, false) = (nb, rb, w) := ⟨_, _, _, rfl⟩
  obtain ⟨s1, s2, s3, s4⟩ := bestScan_spec l [] 0 none false (by simp) (by simp) (by simp) nb rb w hb
  simp only [List.nil_append] at s1 s3
  have hno : dfltReduce g ⟨l, none⟩ = none := by
    rw [dflt_onSym wf fun a ha => .inr (h.sp a ha).2]
    have : onSym l g.nsym = [] := by
      rw [List.eq_nil_iff_forall_not_mem]
      intro e he
      obtain ⟨a, ha, _, h2, _⟩ := mem_onSym.mp he
      exact h.ne_nsym wf a ha h2
    simp [this]
  unfold compressState
  rw [hb]
  cases rb with
  | none =>
    refine .inl ⟨hno, rfl, .inr ?_⟩
    intro a ha hr
    by_contra hs
    have h3 := s3 a ha hr (by simpa using hs)
    have h0 := s2 rfl
    have := countRed_pos.mpr ⟨a, ha, hr, rfl⟩
    omega
  | some r =>
    obtain ⟨k1, k2, k3⟩ := s1 r rfl
    simp only []
    by_cases hw : w = true
    · rw [if_pos (by simp [hw])]
      refine .inl ⟨hno, rfl, .inl ?_⟩
      simpa using s4.mp hw
    · have hw' : w = false := by simpa using hw
      have hn : ¬ nb < 1 := by omega
      simp only [hw', hn, decide_false, Bool.false_or, Bool.false_eq_true, ite_false]
      right
      have hex : ∃ a ∈ l, a.type = .REDUCE ∧ a.x = r := countRed_pos.mp (by omega)
      have hlen : (makeDefault g r l).length < 2 ^ 30 := by rw [makeDefault_length]; exact h.len
      obtain ⟨d1, d2⟩ := onSym_default (g := g) (r := r) l (h.ne_nsym wf) hex
      obtain ⟨hperm, hsort⟩ := actionSort_spec (g := g) hlen
      have hsp : ∀ a ∈ actionSort g (makeDefault g r l), (a.sp = g.nsym ∧ a.type = .REDUCE) ∨ ∃ b ∈ l, a.sp = b.sp := by
        intro a ha
        obtain ⟨b, hb, _, _, hc, _⟩ := mem_makeDefault (hperm.mem_iff.mp ha)
        rcases hc with hc | hc
        · exact .inr ⟨b, hb, hc⟩
        · exact .inl hc
      have hdef : onSym (actionSort g (makeDefault g r l)) g.nsym = [(.REDUCE, r)] := by
        have := (onSym_sort (g := g) hlen g.nsym).1
        rw [d1] at this
        exact List.perm_singleton.mp this
      have hX : ∀ X, X ≠ g.nsym → (onSym (actionSort g (makeDefault g r l)) X).Perm
          ((onSym l X).filter fun e => !(e == (AType.REDUCE, r))) := by
        intro X hX
        rw [← d2 X hX]
        exact (onSym_sort (g := g) hlen X).1
      refine ⟨r, ?_, k1, hex, ?_, ?_, hdef, ?_, ?_, hsp, ?_, ?_, ?_⟩
      · rw [dflt_onSym wf]
        · simp [hdef]
        · intro a ha
          rcases hsp a ha with h1 | ⟨b, hb, h1⟩
          · exact .inl h1.1
          · right; rw [h1]; exact (h.sp b hb).2
      · intro a ha hr hs
        rw [← k2]; exact s3 a ha hr hs
      · intro hh
        exact hw (s4.mpr (.inr hh))
      · intro X hX'
        exact ⟨hX X hX', (onSym_sort (g := g) hlen X).2⟩
      · intro X hX'
        rw [(hperm.filter _).length_eq]
        clear hlen hperm hsort hsp hdef hX d1 d2 hex k1 k2 k3 s1 s3 s4 hno hb
        have hu : ∀ l : List Act, ((l.map fun b => if b.reduces r then { b with type := .NOT_USED } else b).filter
            fun a => a.sp == X).length = (l.filter fun a => a.sp == X).length := by
          intro l
          induction l with
          | nil => rfl
          | cons a l ih =>
            rw [List.map_cons, List.filter_cons, List.filter_cons]
            have : (if a.reduces r = true then ({ a with type := .NOT_USED } : Act) else a).sp = a.sp := by split_ifs <;> rfl
            rw [this]
            split_ifs <;> simp [ih]
        clear h
        induction l with
        | nil => simp [makeDefault]
        | cons a l ih =>
          rw [makeDefault]
          split_ifs with h1
          · rw [List.filter_cons_of_neg (by simpa using fun h => hX' h.symm), hu, List.filter_cons]
            split_ifs <;> simp
          · rw [List.filter_cons, List.filter_cons]
            split_ifs <;> simp [ih]
      · intro a ha
        obtain ⟨b, hb, _, _, _, hc⟩ := mem_makeDefault (hperm.mem_iff.mp ha)
        exact ⟨b, hb, hc⟩
      · split_ifs <;> simp
      · have : (if autoReduce r (actionSort g (makeDefault g r l)) = true then some r else none) = some r ↔
            autoReduce r (actionSort g (makeDefault g r l)) = true := by split_ifs <;> simp_all
        rw [this]
        unfold autoReduce
        rw [List.all_eq_true]
        simp only [Bool.and_eq_true, Bool.not_eq_true', beq_eq_false_iff_ne, Bool.and_eq_false_iff, bne_eq_false_iff_eq]
        constructor
        · intro hall X e he
          by_cases hX' : X = g.nsym
          · obtain ⟨a, ha, _, h2, _⟩ := mem_onSym.mp he
            exact absurd (h2.trans hX') (h.ne_nsym wf a ha)
          · by_cases he' : e = (.REDUCE, r)
            · subst he'; simp
            · have hm : e ∈ onSym (actionSort g (makeDefault g r l)) X := by
                rw [(hX X hX').mem_iff, List.mem_filter]
                exact ⟨he, by simpa using he'⟩
              obtain ⟨a, ha, _, _, h3⟩ := mem_onSym.mp hm
              have := hall a ha
              rw [← h3]
              refine ⟨this.1, fun hr => ?_⟩
              rcases this.2 with h4 | h4
              · exact absurd hr h4
              · exact h4
        · intro hall a ha
          by_cases hlv : a.type.live = true
          · have hm : (a.type, a.x) ∈ onSym (actionSort g (makeDefault g r l)) a.sp := mem_onSym.mpr ⟨a, ha, hlv, rfl, rfl⟩
            by_cases hX' : a.sp = g.nsym
            · rw [hX', hdef] at hm
              simp only [List.mem_singleton, Prod.mk.injEq] at hm
              simp [hm.1, hm.2]
            · rw [(hX a.sp hX').mem_iff, List.mem_filter] at hm
              have := hall a.sp _ hm.1
              refine ⟨this.1, ?_⟩
              by_cases hr : a.type = .REDUCE
              · exact .inr (this.2 hr)
              · exact .inl hr
          · refine ⟨fun e => hlv (by rw [e]; rfl), .inl fun e => hlv (by rw [e]; rfl)⟩

end Verif.Lemon
