import Verif.Spec.Conflict
import Verif.Proofs.MkPar
/-
Proofs about `remove_conflicts`.
-/
set_option autoImplicit false
namespace Verif.Byacc
open Spec

theorem ActLt.irrefl {x : Action} : ¬ ActLt x x := by
  unfold ActLt
  rintro (h | ⟨-, ⟨h, h'⟩ | ⟨-, -, h⟩⟩)
  · omega
  · rw [h] at h'; cases h'
  · omega

theorem act_tri {P : List Action} (h : P.Pairwise ActLt) {x z : Action} (hx : x ∈ P) (hz : z ∈ P) :
    x = z ∨ ActLt x z ∨ ActLt z x := by
  obtain ⟨i, hi, rfl⟩ := List.getElem_of_mem hx
  obtain ⟨j, hj, rfl⟩ := List.getElem_of_mem hz
  have := List.pairwise_iff_getElem.mp h
  rcases Nat.lt_trichotomy i j with hij | hij | hij
  · exact .inr (.inl (this i j hi hj hij))
  · subst hij; exact .inl rfl
  · exact .inr (.inr (this j i hj hi hij))

theorem act_eq {P : List Action} {X : Nat} (h : P.Pairwise ActLt) (hX : ∀ x ∈ P, x.symbol = X) {x z : Action}
    (hx : x ∈ P) (hz : z ∈ P) (cx : x.code = .REDUCE) (cz : z.code = .REDUCE) (e : x.number = z.number) : x = z := by
  rcases act_tri h hx hz with h | h | h
  · exact h
  · exfalso
    have := hX x hx; have := hX z hz
    rcases h with h | ⟨-, ⟨h, -⟩ | ⟨-, -, h⟩⟩
    · omega
    · rw [cx] at h; cases h
    · omega
  · exfalso
    have := hX x hx; have := hX z hz
    rcases h with h | ⟨-, ⟨h, -⟩ | ⟨-, -, h⟩⟩
    · omega
    · rw [cz] at h; cases h
    · omega

theorem shift_eq {P : List Action} {X : Nat} (h : P.Pairwise ActLt) (hX : ∀ x ∈ P, x.symbol = X) {x z : Action}
    (hx : x ∈ P) (hz : z ∈ P) (cx : x.code = .SHIFT) (cz : z.code = .SHIFT) : x = z := by
  rcases act_tri h hx hz with h | h | h
  · exact h
  · exfalso
    have := hX x hx; have := hX z hz
    rcases h with h | ⟨-, ⟨-, h⟩ | ⟨h, -, -⟩⟩
    · omega
    · rw [cz] at h; cases h
    · rw [cx] at h; cases h
  · exfalso
    have := hX x hx; have := hX z hz
    rcases h with h | ⟨-, ⟨-, h⟩ | ⟨h, -, -⟩⟩
    · omega
    · rw [cx] at h; cases h
    · rw [cz] at h; cases h

theorem Best.unique {lemon : Bool} {P : List Action} {X : Nat} (h : P.Pairwise ActLt) (hX : ∀ x ∈ P, x.symbol = X)
    {x z : Action} (hx : Best lemon (Cands P) x) (hz : Best lemon (Cands P) z) : x = z := by
  obtain ⟨x1, x2, x3⟩ := hx
  obtain ⟨z1, z2, z3⟩ := hz
  apply act_eq h hX x1.1 z1.1 x1.2.1 z1.2.1
  by_cases hc : lemon = false ∨ ∃ f, IsFirst (Cands P) f ∧ ¬ HasPrec f
  · have := (x2 hc).2 z z1
    have := (z2 hc).2 x x1
    omega
  · have := x3 hc z z1
    have := z3 hc x x1
    omega

/-! ### flags of a list, computed from prefixes -/

open Classical in
noncomputable def flags (F : List Action → Action → Prop) (L : List Action) : List Bool :=
  (List.range L.length).map fun i => decide (∃ y, L[i]? = some y ∧ F (L.take i) y)

open Classical in
theorem flags_snoc (F : List Action → Action → Prop) (L : List Action) (y : Action) (b : Bool)
    (hb : b = true ↔ F L y) : flags F (L ++ [y]) = flags F L ++ [b] := by
  have hb' : b = decide (F L y) := by rw [Bool.eq_iff_iff, hb]; simp
  subst hb'
  unfold flags
  rw [List.length_append, List.length_singleton, List.range_succ, List.map_append]
  congr 1
  · apply List.map_congr_left
    intro i hi
    simp only [List.mem_range] at hi
    rw [List.getElem?_append_left hi, List.take_append_of_le_length (by omega)]
  · simp

theorem flags_length (F : List Action → Action → Prop) (L : List Action) : (flags F L).length = L.length := by
  simp [flags]

theorem srCount_eq (acc : Bool) (L : List Action) : srCount acc L = (flags (SRConf acc) L).count true := by
  unfold srCount flags
  rw [List.count_eq_countP, List.countP_map]
  congr 1
  funext i
  simp

theorem rrCount_eq (lemon acc : Bool) (L : List Action) : rrCount lemon acc L = (flags (RRConf lemon acc) L).count true := by
  unfold rrCount flags
  rw [List.count_eq_countP, List.countP_map]
  congr 1
  funext i
  simp

open Classical in
theorem srCount_snoc (acc : Bool) (L : List Action) (y : Action) :
    srCount acc (L ++ [y]) = srCount acc L + if SRConf acc L y then 1 else 0 := by
  rw [srCount_eq, srCount_eq, flags_snoc _ _ _ (decide (SRConf acc L y)) (by simp), List.count_append]
  congr 1
  by_cases h : SRConf acc L y <;> simp [h]

open Classical in
theorem rrCount_snoc (lemon acc : Bool) (L : List Action) (y : Action) :
    rrCount lemon acc (L ++ [y]) = rrCount lemon acc L + if RRConf lemon acc L y then 1 else 0 := by
  rw [rrCount_eq, rrCount_eq, flags_snoc _ _ _ (decide (RRConf lemon acc L y)) (by simp), List.count_append]
  congr 1
  by_cases h : RRConf lemon acc L y <;> simp [h]

/-! ### one token -/

theorem supp_supp (p : Action) (n k : Nat) : (p.supp n).supp k = p.supp k := rfl

/-- `pref` is the shift, not (or not finally) beaten -/
def PhS (P : List Action) (q : Action) : Prop :=
  q.supp 0 ∈ P ∧ q.code = .SHIFT ∧ (∀ r ∈ P, r.code = .REDUCE → ¬ Overrides q r) ∧
  ((q.suppressed = 0 ∧ ∀ r ∈ P, r.code = .REDUCE → ¬ Cancels q r) ∨
   (q.suppressed = 2 ∧ ∃ r ∈ P, r.code = .REDUCE ∧ Cancels q r))

/-- `pref` is the chosen reduction -/
def PhR (lemon : Bool) (P : List Action) (q : Action) : Prop :=
  q.suppressed = 0 ∧ Best lemon (Cands P) q

structure GI (lemon acc : Bool) (X : Nat) (c0 : CR) (P : List Action) (mid : List Action) (q : Action) (c : CR) : Prop where
  before : c.before = c0.visited ++ mid
  pref : c.pref = some q
  symbol : c.symbol = (X : Int)
  same : (mid ++ q :: c.between).map (fun x => x.supp 0) = P
  dead : ∀ y ∈ mid ++ c.between, y.suppressed ≠ 0
  marks : (mid ++ q :: c.between).map (fun x => x.suppressed == 1) = flags (fun P y => SRConf acc P y ∨ RRConf lemon acc P y) P
  phase : (acc = false ∧ PhS P q) ∨ PhR lemon P q
  sr : c.sr = c0.sr + srCount acc P
  rr : c.rr = c0.rr + rrCount lemon acc P

section
variable {lemon acc : Bool} {X : Nat} {c0 c : CR} {P mid : List Action} {q y : Action}

open Classical in
/-- `y` is appended with its final mark, `pref` may get mark 2 -/
theorem GI.snoc_keep (h : GI lemon acc X c0 P mid q c) (q' : Action) (hq' : q'.supp 0 = q.supp 0)
    (hm : (q'.suppressed == 1) = (q.suppressed == 1)) (y : Action) (n : Nat) (hn : n ≠ 0) (hy : y.supp 0 = y) (sr rr : Nat)
    (hmark : n = 1 ↔ (SRConf acc P y ∨ RRConf lemon acc P y))
    (hph : (acc = false ∧ PhS (P ++ [y]) q') ∨ PhR lemon (P ++ [y]) q')
    (hsr : sr = c.sr + if SRConf acc P y then 1 else 0)
    (hrr : rr = c.rr + if RRConf lemon acc P y then 1 else 0) :
    GI lemon acc X c0 (P ++ [y]) mid q' ⟨c.before, some q', c.between ++ [y.supp n], c.symbol, sr, rr⟩ := by
  refine ⟨h.before, rfl, h.symbol, ?_, ?_, ?_, hph, ?_, ?_⟩
  · have := h.same
    simp only [List.map_append, List.map_cons, List.map_nil, supp_supp, hy, hq'] at this ⊢
    rw [← this]
    simp
  · intro z hz
    simp only [List.mem_append, List.mem_singleton] at hz
    rcases hz with hz | hz | hz
    · exact h.dead z (by simp [hz])
    · exact h.dead z (by simp [hz])
    · subst hz; exact hn
  · rw [flags_snoc _ _ _ (n == 1) (by simpa using hmark), ← h.marks]
    simp [hm, Action.supp]
  · rw [srCount_snoc, ← Nat.add_assoc, ← h.sr]; exact hsr
  · rw [rrCount_snoc, ← Nat.add_assoc, ← h.rr]; exact hrr

open Classical in
/-- `y` replaces `pref` -/
theorem GI.snoc_replace (h : GI lemon acc X c0 P mid q c) (y : Action)
    (hm : q.suppressed ≠ 1) (hy : y.supp 0 = y)
    (hmark : ¬ (SRConf acc P y ∨ RRConf lemon acc P y))
    (hph : PhR lemon (P ++ [y]) y) :
    GI lemon acc X c0 (P ++ [y]) (mid ++ q.supp 2 :: c.between) y (c.replace q y) := by
  refine ⟨by simp [CR.replace, h.before], rfl, h.symbol, ?_, ?_, ?_, .inr hph, ?_, ?_⟩
  · have := h.same
    simp only [List.map_append, List.map_cons, CR.replace, List.map_nil, supp_supp, hy] at this ⊢
    rw [← this]
  · intro z hz
    simp only [List.mem_append, List.mem_cons, CR.replace, List.not_mem_nil, or_false] at hz
    rcases hz with hz | rfl | hz
    · exact h.dead z (by simp [hz])
    · simp [Action.supp]
    · exact h.dead z (by simp [hz])
  · rw [flags_snoc _ _ _ false (by simpa using hmark), ← h.marks]
    have e : (y.suppressed == 1) = false := by rw [← hy]; rfl
    simp [CR.replace, hmark, e, Action.supp, hm]
  · rw [srCount_snoc, if_neg (fun hc => hmark (.inl hc))]; exact h.sr
  · rw [rrCount_snoc, if_neg (fun hc => hmark (.inr hc))]; exact h.rr

end

theorem cands_snoc {P : List Action} {y : Action} (hy : y.code = .REDUCE) (z : Action) :
    Cands (P ++ [y]) z ↔ Cands P z ∨ (z = y ∧ ∀ s ∈ P, s.code = .SHIFT → Overrides s y) := by
  unfold Cands
  constructor
  · rintro ⟨h1, h2, h3⟩
    rcases List.mem_append.mp h1 with h1 | h1
    · exact .inl ⟨h1, h2, fun s hs => h3 s (by simp [hs])⟩
    · simp only [List.mem_singleton] at h1
      subst h1
      exact .inr ⟨rfl, fun s hs => h3 s (by simp [hs])⟩
  · rintro (⟨h1, h2, h3⟩ | ⟨rfl, h3⟩)
    · refine ⟨by simp [h1], h2, ?_⟩
      intro s hs hc
      rcases List.mem_append.mp hs with hs | hs
      · exact h3 s hs hc
      · simp only [List.mem_singleton] at hs
        subst hs; rw [hy] at hc; cases hc
    · refine ⟨by simp, hy, ?_⟩
      intro s hs hc
      rcases List.mem_append.mp hs with hs | hs
      · exact h3 s hs hc
      · simp only [List.mem_singleton] at hs
        subst hs; rw [hy] at hc; cases hc

/-- the first candidate stays first when an action with a larger number is appended -/
theorem isFirst_snoc {P : List Action} {y q : Action} (hy : y.code = .REDUCE)
    (hlt : ∀ x ∈ P, x.code = .REDUCE → x.number < y.number) (hq : Cands P q) (f : Action) :
    IsFirst (Cands (P ++ [y])) f ↔ IsFirst (Cands P) f := by
  unfold IsFirst
  constructor
  · rintro ⟨h1, h2⟩
    have hfq := h2 q ((cands_snoc hy q).mpr (.inl hq))
    rcases (cands_snoc hy f).mp h1 with h1 | ⟨rfl, -⟩
    · exact ⟨h1, fun z hz => h2 z ((cands_snoc hy z).mpr (.inl hz))⟩
    · have := hlt q hq.1 hq.2.1; omega
  · rintro ⟨h1, h2⟩
    refine ⟨(cands_snoc hy f).mpr (.inl h1), fun z hz => ?_⟩
    rcases (cands_snoc hy z).mp hz with hz | ⟨rfl, -⟩
    · exact h2 z hz
    · have := hlt f h1.1 h1.2.1; omega

/-- `q` stays the best when `y` does not beat it -/
theorem best_snoc_keep {lemon : Bool} {P : List Action} {y q : Action} (hy : y.code = .REDUCE)
    (hlt : ∀ x ∈ P, x.code = .REDUCE → x.number < y.number) (hb : Best lemon (Cands P) q)
    (hno : ¬ (lemon = true ∧ HasPrec q ∧ HasPrec y ∧ q.prec < y.prec)) : Best lemon (Cands (P ++ [y])) q := by
  obtain ⟨h1, h2, h3⟩ := hb
  have hf := isFirst_snoc hy hlt h1
  refine ⟨(cands_snoc hy q).mpr (.inl h1), ?_, ?_⟩
  · intro hc
    rw [hf]
    apply h2
    rcases hc with hc | ⟨f, hc1, hc2⟩
    · exact .inl hc
    · exact .inr ⟨f, (hf f).mp hc1, hc2⟩
  · intro hc
    have hc' : ¬ (lemon = false ∨ ∃ f, IsFirst (Cands P) f ∧ ¬ HasPrec f) := by
      rintro (h | ⟨f, h1, h2⟩)
      · exact hc (.inl h)
      · exact hc (.inr ⟨f, (hf f).mpr h1, h2⟩)
    intro z hz
    rcases (cands_snoc hy z).mp hz with hz | ⟨rfl, -⟩
    · exact h3 hc' z hz
    · have hlem : lemon = true := by
        cases lemon with
        | false => exact absurd (Or.inl rfl) hc'
        | true => rfl
      have hnum := hlt q h1.1 h1.2.1
      by_cases hqp : HasPrec q
      · by_cases hzp : HasPrec z
        · have : ¬ q.prec < z.prec := fun h => hno ⟨hlem, hqp, hzp, h⟩
          omega
        · unfold HasPrec at hqp hzp; omega
      · -- the candidate without precedence is maximal: then the first one has none either
        exfalso
        -- existence of a first candidate
        obtain ⟨f, hf1, hf2⟩ : ∃ f, IsFirst (Cands P) f ∧ True := by
          have hex : ∃ n, ∃ f, Cands P f ∧ f.number = n := ⟨_, q, h1, rfl⟩
          classical
          obtain ⟨f, hf1, hf2⟩ := Nat.find_spec hex
          exact ⟨f, ⟨hf1, fun z hz => by rw [hf2]; exact Nat.find_min' hex ⟨z, hz, rfl⟩⟩, trivial⟩
        by_cases hfp : HasPrec f
        · have := h3 hc' f hf1.1
          unfold HasPrec at hqp hfp; omega
        · exact hc' (.inr ⟨f, hf1, hfp⟩)

/-- `y` becomes the best -/
theorem best_snoc_new {lemon : Bool} {P : List Action} {y q : Action} (hy : y.code = .REDUCE)
    (hP : P.Pairwise ActLt) {X : Nat} (hX : ∀ x ∈ P, x.symbol = X)
    (hlt : ∀ x ∈ P, x.code = .REDUCE → x.number < y.number) (hb : Best lemon (Cands P) q)
    (hyes : lemon = true ∧ HasPrec q ∧ HasPrec y ∧ q.prec < y.prec) : Best lemon (Cands (P ++ [y])) y := by
  obtain ⟨h1, h2, h3⟩ := hb
  obtain ⟨l1, l2, l3, l4⟩ := hyes
  have hf := isFirst_snoc hy hlt h1
  have hc' : ¬ (lemon = false ∨ ∃ f, IsFirst (Cands P) f ∧ ¬ HasPrec f) := by
    intro hc
    have hq1 := h2 hc
    rcases hc with h | ⟨f, hf1, hf2⟩
    · rw [l1] at h; cases h
    · have e : f = q := act_eq hP hX hf1.1.1 h1.1 hf1.1.2.1 h1.2.1 (by
        have := hf1.2 q h1; have := hq1.2 f hf1.1; omega)
      subst e; exact hf2 l2
  refine ⟨(cands_snoc hy y).mpr (.inr ⟨rfl, ?_⟩), ?_, ?_⟩
  · intro s hs hc
    obtain ⟨o1, o2, o3⟩ := h1.2.2 s hs hc
    exact ⟨o1, l3, .inl (by omega)⟩
  · intro hc
    exfalso
    apply hc'
    rcases hc with h | ⟨f, hf1, hf2⟩
    · exact .inl h
    · exact .inr ⟨f, (hf f).mp hf1, hf2⟩
  · intro _ z hz
    rcases (cands_snoc hy z).mp hz with hz | ⟨rfl, -⟩
    · left
      have := h3 hc' z hz; omega
    · right; exact ⟨rfl, Nat.le_refl _⟩

theorem no_cands {P : List Action} {s z : Action} (hs : s ∈ P) (hc : s.code = .SHIFT)
    (hno : ∀ r ∈ P, r.code = .REDUCE → ¬ Overrides s r) : ¬ Cands P z := by
  rintro ⟨h1, h2, h3⟩
  exact hno z h1 h2 (h3 s hs hc)

/-- one step inside a group -/
theorem GI.step {lem lemon fin acc : Bool} {X : Nat} {c0 c : CR} {P mid : List Action} {q y : Action}
    (hacc : acc = (fin && X == 0)) (hlem : lemon = (lem && !acc))
    (h : GI lemon acc X c0 P mid q c) (hP : (P ++ [y]).Pairwise ActLt) (hX : ∀ x ∈ P ++ [y], x.symbol = X)
    (hs0 : ∀ x ∈ P ++ [y], x.suppressed = 0) :
    ∃ mid' q', GI lemon acc X c0 (P ++ [y]) mid' q' (crStep lem fin c y) := by
  have hyX : y.symbol = X := hX y (by simp)
  have hPX : ∀ x ∈ P, x.symbol = X := fun x hx => hX x (by simp [hx])
  have hPp : P.Pairwise ActLt := (List.pairwise_append.mp hP).1
  have hPy : ∀ x ∈ P, ActLt x y := fun x hx => (List.pairwise_append.mp hP).2.2 x hx y (by simp)
  have hy0 : y.supp 0 = y := by
    have := hs0 y (by simp)
    cases y; simp only [Action.supp] at *; simp [this]
  have hPne : P ≠ [] := by rw [← h.same]; simp
  have hyR : y.code = .REDUCE := by
    obtain ⟨x, hx⟩ := List.exists_mem_of_ne_nil P hPne
    rcases hPy x hx with h' | ⟨-, ⟨-, h'⟩ | ⟨-, h', -⟩⟩
    · rw [hPX x hx, hyX] at h'; omega
    · exact h'
    · exact h'
  have hlt : ∀ x ∈ P, x.code = .REDUCE → x.number < y.number := by
    intro x hx hc
    rcases hPy x hx with h' | ⟨-, ⟨h', -⟩ | ⟨-, -, h'⟩⟩
    · rw [hPX x hx, hyX] at h'; omega
    · rw [hc] at h'; cases h'
    · exact h'
  unfold crStep
  rw [if_neg (by rw [h.symbol, hyX]; simp)]
  have hfin : (fin && c.symbol == 0) = acc := by
    rw [hacc, h.symbol]
    cases fin
    · simp
    · rw [Bool.true_and, Bool.true_and, Bool.eq_iff_iff]; simp
  rw [hfin]
  cases hA : acc with
  | true =>
    subst hA
    have hl : lemon = false := by rw [hlem]; simp
    rcases h.phase with ⟨h', -⟩ | h'
    · cases h'
    obtain ⟨r1, r2⟩ := h'
    refine ⟨mid, q, ?_⟩
    simp only [if_true]
    have := h.snoc_keep q rfl rfl y 1 (by omega) hy0 (c.sr + 1) c.rr
      ⟨fun _ => .inl ⟨hPne, .inl rfl⟩, fun _ => rfl⟩
      (.inr ⟨r1, best_snoc_keep hyR hlt r2 (by rw [hl]; simp)⟩)
      (by rw [if_pos ⟨hPne, .inl rfl⟩]) (by rw [if_neg (by rintro ⟨h', -⟩; cases h')]; rfl)
    rw [← h.pref] at this
    exact this
  | false =>
    subst hA
    have hl : lemon = lem := by rw [hlem]; simp
    simp only [Bool.false_eq_true, if_false]
    rw [h.pref]
    simp only
    rcases h.phase with ⟨-, p1, p2, p3, p4⟩ | ⟨r1, r2⟩
    · rw [if_pos p2]
      have ov : ∀ r, Overrides (q.supp 0) r ↔ Overrides q r := fun r => Iff.rfl
      have hq1 : q.suppressed ≠ 1 := by rcases p4 with ⟨h', -⟩ | ⟨h', -⟩ <;> omega
      have hnoRR : ∀ z, ¬ RRConf lemon false P z := by
        rintro z ⟨-, w, hw, -⟩
        exact no_cands p1 p2 p3 hw.1
      have hSR : SRConf false P y ↔ ¬ (HasPrec q ∧ HasPrec y) := by
        constructor
        · rintro ⟨-, h' | ⟨s, hs, hc, -, hn⟩⟩
          · cases h'
          · have : s = q.supp 0 := shift_eq hPp hPX hs p1 hc p2
            subst this; exact hn
        · intro hn
          exact ⟨hPne, .inr ⟨q.supp 0, p1, p2, p3, hn⟩⟩
      -- keeping the shift phase
      have hphS : ¬ Overrides q y → ¬ Cancels q y → PhS (P ++ [y]) q := by
        intro n1 n2
        refine ⟨by simp [p1], p2, ?_, ?_⟩
        · intro r hr hc
          rcases List.mem_append.mp hr with hr | hr
          · exact p3 r hr hc
          · simp only [List.mem_singleton] at hr; subst hr; exact n1
        · rcases p4 with ⟨a1, a2⟩ | ⟨a1, r, hr, a2⟩
          · left; refine ⟨a1, ?_⟩
            intro r hr hc
            rcases List.mem_append.mp hr with hr | hr
            · exact a2 r hr hc
            · simp only [List.mem_singleton] at hr; subst hr; exact n2
          · right; exact ⟨a1, r, by simp [hr], a2⟩
      have hreplace : Overrides q y → ∃ mid' q', GI lemon false X c0 (P ++ [y]) mid' q' (c.replace q y) := by
        intro ho
        refine ⟨_, _, h.snoc_replace y hq1 hy0 ?_ ?_⟩
        · rintro (h' | h')
          · exact (hSR.mp h') ⟨ho.1, ho.2.1⟩
          · exact hnoRR y h'
        · have hcy : ∀ z, Cands (P ++ [y]) z ↔ z = y := by
            intro z
            rw [cands_snoc hyR]
            constructor
            · rintro (h' | ⟨h', -⟩)
              · exact absurd h' (no_cands p1 p2 p3)
              · exact h'
            · rintro rfl
              refine .inr ⟨rfl, ?_⟩
              intro s hs hc
              have : s = q.supp 0 := shift_eq hPp hPX hs p1 hc p2
              subst this; exact ho
          refine ⟨by rw [← hy0]; rfl, (hcy y).mpr rfl, ?_, ?_⟩
          · intro _
            exact ⟨(hcy y).mpr rfl, fun z hz => by rw [(hcy z).mp hz]⟩
          · intro _ z hz
            rw [(hcy z).mp hz]; right; exact ⟨rfl, Nat.le_refl _⟩
      have hkeep2 : HasPrec q ∧ HasPrec y → ¬ Overrides q y → ¬ Cancels q y →
          ∃ mid' q', GI lemon false X c0 (P ++ [y]) mid' q' (c.keep (y.supp 2)) := by
        intro hh n1 n2
        have hns : ¬ SRConf false P y := fun h' => (hSR.mp h') hh
        refine ⟨mid, q, ?_⟩
        have := h.snoc_keep q rfl rfl y 2 (by omega) hy0 c.sr c.rr
          ⟨fun h' => by omega, fun h' => by rcases h' with h' | h'; exacts [absurd h' hns, absurd h' (hnoRR y)]⟩
          (.inl ⟨rfl, hphS n1 n2⟩) (by rw [if_neg hns]; rfl) (by rw [if_neg (hnoRR y)]; rfl)
        rw [← h.pref] at this
        exact this
      by_cases hh : HasPrec q ∧ HasPrec y
      · rw [if_pos (by simpa [HasPrec] using hh)]
        by_cases c1 : q.prec < y.prec
        · rw [if_pos c1]
          exact hreplace ⟨hh.1, hh.2, .inl c1⟩
        rw [if_neg c1]
        by_cases c2 : q.prec > y.prec
        · rw [if_pos c2]
          refine hkeep2 hh ?_ ?_
          · rintro ⟨-, -, h' | ⟨h', -⟩⟩ <;> omega
          · rintro ⟨-, -, h', -⟩; omega
        rw [if_neg c2]
        have ceq : q.prec = y.prec := by omega
        by_cases c3 : q.assoc = .LEFT
        · rw [if_pos c3]
          exact hreplace ⟨hh.1, hh.2, .inr ⟨ceq, c3⟩⟩
        rw [if_neg c3]
        by_cases c4 : q.assoc = .RIGHT
        · rw [if_pos c4]
          refine hkeep2 hh ?_ ?_
          · rintro ⟨-, -, h' | ⟨-, h'⟩⟩
            · omega
            · exact c3 h'
          · rintro ⟨-, -, -, -, h'⟩; exact h' c4
        rw [if_neg c4]
        have hns : ¬ SRConf false P y := fun h' => (hSR.mp h') hh
        refine ⟨mid, q.supp 2, ?_⟩
        exact h.snoc_keep (q.supp 2) rfl (by simp [Action.supp, hq1]) y 2 (by omega) hy0 c.sr c.rr
          ⟨fun h' => by omega, fun h' => by rcases h' with h' | h'; exacts [absurd h' hns, absurd h' (hnoRR y)]⟩
          (.inl ⟨rfl, by
            refine ⟨by simp [supp_supp, p1], p2, ?_, .inr ⟨rfl, y, by simp, hyR, hh.1, hh.2, ceq, c3, c4⟩⟩
            intro r hr hc
            rcases List.mem_append.mp hr with hr | hr
            · exact p3 r hr hc
            · simp only [List.mem_singleton] at hr; subst hr
              rintro ⟨-, -, h' | ⟨-, h'⟩⟩
              · simp only [Action.supp] at h'; omega
              · exact c3 h'⟩) (by rw [if_neg hns]; rfl) (by rw [if_neg (hnoRR y)]; rfl)
      · rw [if_neg (by simpa [HasPrec] using hh)]
        refine ⟨mid, q, ?_⟩
        have hs := hSR.mpr hh
        have := h.snoc_keep q rfl rfl y 1 (by omega) hy0 (c.sr+1) c.rr
          ⟨fun h' => .inl hs, fun h' => rfl⟩
          (.inl ⟨rfl, hphS (fun h' => hh ⟨h'.1, h'.2.1⟩) (fun h' => hh ⟨h'.1, h'.2.1⟩)⟩)
          (by rw [if_pos hs]) (by rw [if_neg (hnoRR y)]; rfl)
        rw [← h.pref] at this
        exact this
    · have hqR := r2.1.2.1
      rw [if_neg (by rw [hqR]; simp)]
      have hnoSR : ¬ SRConf false P y := by
        rintro ⟨-, h' | ⟨s, hs, hc, hn, -⟩⟩
        · cases h'
        · exact no_cands hs hc hn r2.1
      have hRR : RRConf lemon false P y ↔ ¬ (lemon = true ∧ HasPrec q ∧ HasPrec y ∧ q.prec ≠ y.prec) := by
        constructor
        · rintro ⟨-, z, hz, hn⟩
          rw [Best.unique hPp hPX hz r2] at hn; exact hn
        · intro hn; exact ⟨rfl, q, r2, hn⟩
      by_cases c1 : lemon = true ∧ HasPrec q ∧ HasPrec y ∧ q.prec < y.prec
      · rw [if_pos (by rw [← hl]; simpa [HasPrec, and_assoc] using c1)]
        refine ⟨_, _, h.snoc_replace y (by omega) hy0 ?_ ⟨by rw [← hy0]; rfl, best_snoc_new hyR hPp hPX hlt r2 c1⟩⟩
        rintro (h' | h')
        · exact hnoSR h'
        · exact hRR.mp h' ⟨c1.1, c1.2.1, c1.2.2.1, by omega⟩
      · rw [if_neg (by rw [← hl]; simpa [HasPrec, and_assoc] using c1)]
        by_cases c2 : lemon = true ∧ HasPrec q ∧ HasPrec y ∧ q.prec > y.prec
        · rw [if_pos (by rw [← hl]; simpa [HasPrec, and_assoc] using c2)]
          refine ⟨mid, q, ?_⟩
          have hnRR : ¬ RRConf lemon false P y := fun h' => hRR.mp h' ⟨c2.1, c2.2.1, c2.2.2.1, by omega⟩
          have := h.snoc_keep q rfl rfl y 2 (by omega) hy0 c.sr c.rr
            ⟨fun h' => by omega, fun h' => by rcases h' with h' | h'; exacts [absurd h' hnoSR, absurd h' hnRR]⟩
            (.inr ⟨r1, best_snoc_keep hyR hlt r2 c1⟩) (by rw [if_neg hnoSR]; rfl) (by rw [if_neg hnRR]; rfl)
          rw [← h.pref] at this
          exact this
        · rw [if_neg (by rw [← hl]; simpa [HasPrec, and_assoc] using c2)]
          refine ⟨mid, q, ?_⟩
          have hyRR : RRConf lemon false P y := hRR.mpr (by
            rintro ⟨e1, e2, e3, e4⟩
            rcases Int.lt_trichotomy q.prec y.prec with h' | h' | h'
            · exact c1 ⟨e1, e2, e3, h'⟩
            · exact e4 h'
            · exact c2 ⟨e1, e2, e3, h'⟩)
          have := h.snoc_keep q rfl rfl y 1 (by omega) hy0 c.sr (c.rr+1)
            ⟨fun h' => .inr hyRR, fun h' => rfl⟩
            (.inr ⟨r1, best_snoc_keep hyR hlt r2 c1⟩) (by rw [if_neg hnoSR]; rfl) (by rw [if_pos hyRR])
          rw [← h.pref] at this
          exact this

/-- Result of resolving the competitors `L` of one token: `V` is `L` with marks. -/
structure GroupRes (lemon acc : Bool) (L V : List Action) : Prop where
  /-- nothing but the marks changes -/
  same : V.map (fun x => x.supp 0) = L
  /-- unmarked actions are the kept ones -/
  kept : ∀ y ∈ V, (y.suppressed = 0 ↔ Kept lemon L (y.supp 0))
  /-- mark 1 is set on the conflicts -/
  conf : ∀ (i : Nat) (y : Action), V[i]? = some y →
    (y.suppressed = 1 ↔ SRConf acc (L.take i) (y.supp 0) ∨ RRConf lemon acc (L.take i) (y.supp 0))

theorem supp_zero {y : Action} (h : y.suppressed = 0) : y.supp 0 = y := by
  cases y; simp only [Action.supp] at *; simp [h]

theorem GI.res {lemon acc : Bool} {X : Nat} {c0 c : CR} {P mid : List Action} {q : Action}
    (h : GI lemon acc X c0 P mid q c) (hP : P.Pairwise ActLt) (hX : ∀ x ∈ P, x.symbol = X) :
    GroupRes lemon acc P (mid ++ q :: c.between) := by
  have hother : ∀ y ∈ mid ++ c.between, y.supp 0 ≠ q.supp 0 := by
    have := hP
    rw [← h.same, List.map_append, List.map_cons, List.pairwise_append, List.pairwise_cons] at this
    intro y hy e
    rcases List.mem_append.mp hy with hy | hy
    · have := this.2.2 (y.supp 0) (List.mem_map.mpr ⟨y, hy, rfl⟩) (q.supp 0) (by simp)
      rw [e] at this; exact ActLt.irrefl this
    · have := this.2.1.1 (y.supp 0) (List.mem_map.mpr ⟨y, hy, rfl⟩)
      rw [e] at this; exact ActLt.irrefl this
  have hin : ∀ y ∈ mid ++ q :: c.between, y.supp 0 ∈ P := by
    intro y hy; rw [← h.same]; exact List.mem_map.mpr ⟨y, hy, rfl⟩
  have hqP := hin q (by simp)
  refine ⟨h.same, ?_, ?_⟩
  · intro y hy
    have hyP := hin y hy
    by_cases hyq : y = q
    · subst hyq
      rcases h.phase with ⟨-, p1, p2, p3, p4⟩ | ⟨r1, r2⟩
      · constructor
        · intro h0
          rcases p4 with ⟨-, a⟩ | ⟨a, -⟩
          · exact .inl ⟨p2, fun r hr hc => ⟨p3 r hr hc, a r hr hc⟩⟩
          · omega
        · rintro (⟨-, hk⟩ | ⟨hk, -⟩)
          · rcases p4 with ⟨a, -⟩ | ⟨-, r, hr, hc, a⟩
            · exact a
            · exact absurd a (hk r hr hc).2
          · have : y.code = .REDUCE := hk
            rw [p2] at this; cases this
      · refine ⟨fun _ => .inr ⟨r2.1.2.1, ?_⟩, fun _ => r1⟩
        rw [supp_zero r1]; exact r2
    · have hy' : y ∈ mid ++ c.between := by
        simp only [List.mem_append, List.mem_cons] at hy ⊢
        tauto
      have hd := h.dead y hy'
      have hne := hother y hy'
      constructor
      · intro h0; exact absurd h0 hd
      · intro hk
        exfalso
        rcases h.phase with ⟨-, p1, p2, p3, p4⟩ | ⟨r1, r2⟩
        · rcases hk with ⟨hc, -⟩ | ⟨hc, hb⟩
          · exact hne (shift_eq hP hX hyP p1 hc p2)
          · exact no_cands p1 p2 p3 hb.1
        · rcases hk with ⟨hc, hk⟩ | ⟨hc, hb⟩
          · exact (hk q r2.1.1 r2.1.2.1).1 (r2.1.2.2 _ hyP hc)
          · apply hne
            rw [supp_zero r1]
            exact Best.unique hP hX hb r2
  · intro i y hy
    have h1 : ((mid ++ q :: c.between).map (fun x => x.suppressed == 1))[i]? = some (y.suppressed == 1) := by
      rw [List.getElem?_map, hy]; rfl
    have h2 : P[i]? = some (y.supp 0) := by
      rw [← h.same, List.getElem?_map, hy]; rfl
    rw [h.marks] at h1
    unfold flags at h1
    rw [List.getElem?_map, List.getElem?_range (List.getElem?_eq_some_iff.mp h2).1] at h1
    simp only [Option.map_some, Option.some.injEq] at h1
    constructor
    · intro e
      rw [e] at h1
      have h1' := @of_decide_eq_true _ (_) h1
      obtain ⟨z, hz, hz'⟩ := h1'
      rw [h2] at hz; cases hz; exact hz'
    · intro e
      have : (y.suppressed == 1) = true := by
        rw [← h1]; exact @decide_eq_true _ (_) ⟨_, h2, e⟩
      simpa using this

theorem take_split {L P Q : List Action} (h : L = P ++ Q) : L.take P.length = P := by
  subst h; simp

/-- all competitors for one token -/
theorem group_spec (lem fin : Bool) (X : Nat) (c0 : CR) (L : List Action) (hne : L ≠ [])
    (hL : L.Pairwise ActLt) (hX : ∀ x ∈ L, x.symbol = X) (h0 : ∀ x ∈ L, x.suppressed = 0)
    (hc0 : c0.symbol ≠ (X : Int)) (hacc : (fin && X == 0) = true → ∀ x ∈ L, x.code = .REDUCE) :
    ∃ V, (L.foldl (crStep lem fin) c0).visited = c0.visited ++ V ∧
      (L.foldl (crStep lem fin) c0).symbol = (X : Int) ∧
      GroupRes (lem && !(fin && X == 0)) (fin && X == 0) L V ∧
      (L.foldl (crStep lem fin) c0).sr = c0.sr + srCount (fin && X == 0) L ∧
      (L.foldl (crStep lem fin) c0).rr = c0.rr + rrCount (lem && !(fin && X == 0)) (fin && X == 0) L := by
  generalize hA : (fin && X == 0) = acc at *
  have key := foldl_inv (f := crStep lem fin) L (s := c0) (fun P c =>
    (P = [] ∧ c = c0) ∨ ∃ mid q, GI (lem && !acc) acc X c0 P mid q c) (.inl ⟨rfl, rfl⟩) (by
    intro pre y post t hl hP
    have hin : ∀ x ∈ pre ++ [y], x ∈ L := by
      intro x hx; rw [hl]
      simp only [List.mem_append, List.mem_cons, List.not_mem_nil, or_false] at hx ⊢; tauto
    have hpw : (pre ++ [y]).Pairwise ActLt := by
      rw [hl, show pre ++ y :: post = (pre ++ [y]) ++ post by simp] at hL
      exact (List.pairwise_append.mp hL).1
    right
    rcases hP with ⟨rfl, rfl⟩ | ⟨mid, q, hG⟩
    · have hy := hin y (by simp)
      have hy0 := supp_zero (h0 y hy)
      refine ⟨[], y, ?_⟩
      unfold crStep
      rw [if_pos (by rw [hX y hy]; exact hc0.symm)]
      have n1 : ¬ SRConf acc [] y := fun h => h.1 rfl
      have n2 : ¬ RRConf (lem && !acc) acc [] y := by
        rintro ⟨-, z, hz, -⟩; have := hz.1.1; simp at this
      have hs := srCount_snoc acc [] y
      have hr := rrCount_snoc (lem && !acc) acc [] y
      rw [if_neg n1] at hs
      rw [if_neg n2] at hr
      have z1 : srCount acc [] = 0 := by simp [srCount]
      have z2 : rrCount (lem && !acc) acc [] = 0 := by simp [rrCount]
      refine ⟨by simp, rfl, by rw [hX y hy], by simp [hy0], by simp, ?_, ?_, ?_, ?_⟩
      · have := flags_snoc (fun P y => SRConf acc P y ∨ RRConf (lem && !acc) acc P y) [] y false (by simp [n1, n2])
        rw [this]
        simp [flags, h0 y hy]
      · have : y.code = .SHIFT ∨ y.code = .REDUCE := by cases y.code <;> simp
        rcases this with hc | hc
        · left
          refine ⟨?_, by simp [hy0], hc, ?_, .inl ⟨h0 y hy, ?_⟩⟩
          · cases acc with
            | false => rfl
            | true => have := hacc rfl y hy; rw [hc] at this; cases this
          · intro r hr hcr
            simp only [List.nil_append, List.mem_singleton] at hr
            subst hr; rw [hc] at hcr; cases hcr
          · intro r hr hcr
            simp only [List.nil_append, List.mem_singleton] at hr
            subst hr; rw [hc] at hcr; cases hcr
        · right
          have hcy : ∀ z, Cands ([] ++ [y]) z ↔ z = y := by
            intro z
            rw [cands_snoc hc]
            constructor
            · rintro (⟨h', -⟩ | ⟨h', -⟩)
              · simp at h'
              · exact h'
            · rintro rfl; exact .inr ⟨rfl, by simp⟩
          refine ⟨h0 y hy, (hcy y).mpr rfl, ?_, ?_⟩
          · intro _
            exact ⟨(hcy y).mpr rfl, fun z hz => by rw [(hcy z).mp hz]⟩
          · intro _ z hz
            rw [(hcy z).mp hz]; right; exact ⟨rfl, Nat.le_refl _⟩
      · rw [hs, z1]; rfl
      · rw [hr, z2]; rfl
    · exact hG.step hA.symm rfl hpw (fun x hx => hX x (hin x hx)) (fun x hx => h0 x (hin x hx)))
  rcases key with ⟨h, -⟩ | ⟨mid, q, h⟩
  · exact absurd h hne
  · refine ⟨mid ++ q :: (L.foldl (crStep lem fin) c0).between, ?_, h.symbol, h.res hL hX, h.sr, h.rr⟩
    unfold CR.visited
    rw [h.before, h.pref]
    simp [CR.visited]

/-- Result for a whole row. -/
structure RowRes (lem fin : Bool) (N : Nat) (acts : List Action) (c : CR) : Prop where
  same : c.visited.map (fun x => x.supp 0) = acts
  group : ∀ X, GroupRes (lem && !(fin && X == 0)) (fin && X == 0) (competitors acts X) (competitors c.visited X)
  sr : c.sr = ((List.range N).map (fun X => srCount (fin && X == 0) (competitors acts X))).sum
  rr : c.rr = ((List.range N).map (fun X => rrCount (lem && !(fin && X == 0)) (fin && X == 0) (competitors acts X))).sum

theorem groupRes_nil (lemon acc : Bool) : GroupRes lemon acc [] [] := ⟨rfl, by simp, by simp⟩

/-- splitting off the first group -/
theorem first_group {acts : List Action} (hs : acts.Pairwise ActLt) (hne : acts ≠ []) :
    ∃ X L rest, acts = L ++ rest ∧ L ≠ [] ∧ (∀ x ∈ L, x.symbol = X) ∧ (∀ x ∈ rest, X < x.symbol) := by
  cases acts with
  | nil => exact absurd rfl hne
  | cons p l =>
    refine ⟨p.symbol, (p :: l).takeWhile (fun x => decide (x.symbol ≤ p.symbol)),
      (p :: l).dropWhile (fun x => decide (x.symbol ≤ p.symbol)), (List.takeWhile_append_dropWhile).symm, ?_, ?_, ?_⟩
    · simp
    · intro x hx
      have h1 := mem_takeWhile_imp' hx
      simp only [decide_eq_true_eq] at h1
      have h2 : x ∈ p :: l := (List.takeWhile_prefix _).subset hx
      rcases List.mem_cons.mp h2 with rfl | h2
      · rfl
      · have := (List.pairwise_cons.mp hs).1 x h2
        unfold ActLt at this; omega
    · intro x hx
      have := dropWhile_all hs (p := fun x => decide (x.symbol ≤ p.symbol)) (by
        intro x _ y _ hxy hy
        simp only [decide_eq_true_eq] at hy ⊢
        unfold ActLt at hxy; omega) x hx
      simp only [decide_eq_false_iff_not] at this
      omega

theorem competitors_append (l l' : List Action) (X : Nat) : competitors (l ++ l') X = competitors l X ++ competitors l' X := by
  simp [competitors]

theorem competitors_self {l : List Action} {X : Nat} (h : ∀ x ∈ l, x.symbol = X) : competitors l X = l := by
  unfold competitors
  rw [List.filter_eq_self]
  intro x hx; simp [h x hx]

theorem competitors_none {l : List Action} {X : Nat} (h : ∀ x ∈ l, x.symbol ≠ X) : competitors l X = [] := by
  unfold competitors
  rw [List.filter_eq_nil_iff]
  intro x hx; simp [h x hx]

theorem sum_range_update {N X : Nat} (f f' : Nat → Nat) (d : Nat) (hX : X < N) (h1 : ∀ Y, Y ≠ X → f' Y = f Y)
    (h2 : f' X = f X + d) : ((List.range N).map f').sum = ((List.range N).map f).sum + d := by
  induction N with
  | zero => omega
  | succ N ih =>
    rw [List.range_succ, List.map_append, List.map_append, List.sum_append, List.sum_append]
    simp only [List.map_cons, List.map_nil, List.sum_cons, List.sum_nil, Nat.add_zero]
    by_cases e : X = N
    · subst e
      have : (List.range X).map f' = (List.range X).map f := by
        apply List.map_congr_left
        intro Y hY
        simp only [List.mem_range] at hY
        exact h1 Y (by omega)
      rw [this, h2]; omega
    · rw [ih (by omega), h1 N (fun h => e h.symm)]; omega

theorem row_aux (lem fin : Bool) (N : Nat) : ∀ (n : Nat) (acts : List Action) (c0 : CR), acts.length ≤ n →
    acts.Pairwise ActLt → (∀ x ∈ acts, x.suppressed = 0 ∧ x.symbol < N ∧ c0.symbol < (x.symbol : Int)) →
    (∀ x ∈ acts, x.code = .SHIFT → x.symbol ≠ 0) →
    ∃ V, (acts.foldl (crStep lem fin) c0).visited = c0.visited ++ V ∧
      V.map (fun x => x.supp 0) = acts ∧
      (∀ X, GroupRes (lem && !(fin && X == 0)) (fin && X == 0) (competitors acts X) (competitors V X)) ∧
      (acts.foldl (crStep lem fin) c0).sr = c0.sr + ((List.range N).map (fun X => srCount (fin && X == 0) (competitors acts X))).sum ∧
      (acts.foldl (crStep lem fin) c0).rr = c0.rr + ((List.range N).map (fun X => rrCount (lem && !(fin && X == 0)) (fin && X == 0) (competitors acts X))).sum := by
  intro n
  induction n with
  | zero =>
    intro acts c0 hl _ _ _
    have : acts = [] := List.length_eq_zero_iff.mp (by omega)
    subst this
    refine ⟨[], by simp, rfl, fun X => groupRes_nil _ _, ?_, ?_⟩
    · simp [competitors, srCount]
    · simp [competitors, rrCount]
  | succ n ih =>
    intro acts c0 hl hs hx hz
    by_cases hne : acts = []
    · subst hne
      refine ⟨[], by simp, rfl, fun X => groupRes_nil _ _, ?_, ?_⟩
      · simp [competitors, srCount]
      · simp [competitors, rrCount]
    obtain ⟨X, L, rest, e, hLne, hLX, hrest⟩ := first_group hs hne
    subst e
    obtain ⟨hs1, hs2, hs3⟩ := List.pairwise_append.mp hs
    have hXlt : X < N ∧ c0.symbol < (X : Int) := by
      obtain ⟨x, hxL⟩ := List.exists_mem_of_ne_nil L hLne
      have := hx x (by simp [hxL])
      rw [hLX x hxL] at this
      exact this.2
    obtain ⟨V1, a1, a2, a3, a4, a5⟩ := group_spec lem fin X c0 L hLne hs1 hLX
      (fun x h => (hx x (by simp [h])).1) (by omega) (by
        intro hacc x h
        cases hc : x.code with
        | REDUCE => rfl
        | SHIFT =>
          exfalso
          simp only [Bool.and_eq_true, beq_iff_eq] at hacc
          exact hz x (by simp [h]) hc (by rw [hLX x h]; exact hacc.2))
    rw [List.foldl_append]
    have hLlen : 0 < L.length := List.length_pos_iff.mpr hLne
    obtain ⟨V2, b1, b2, b3, b4, b5⟩ := ih rest (L.foldl (crStep lem fin) c0)
      (by simp only [List.length_append] at hl; omega) hs2
      (fun x h => by
        have := hx x (by simp [h])
        refine ⟨this.1, this.2.1, ?_⟩
        rw [a2]; have := hrest x h; omega) (fun x h => hz x (by simp [h]))
    have hV1 : ∀ x ∈ V1, x.symbol = X := by
      intro x h
      have : x.supp 0 ∈ L := by rw [← a3.same]; exact List.mem_map.mpr ⟨x, h, rfl⟩
      exact hLX (x.supp 0) this
    have hV2 : ∀ x ∈ V2, X < x.symbol := by
      intro x h
      have : x.supp 0 ∈ rest := by rw [← b2]; exact List.mem_map.mpr ⟨x, h, rfl⟩
      exact hrest (x.supp 0) this
    refine ⟨V1 ++ V2, by rw [b1, a1, List.append_assoc], by rw [List.map_append, a3.same, b2], ?_, ?_, ?_⟩
    · intro Y
      rw [competitors_append, competitors_append]
      by_cases hY : Y = X
      · subst hY
        rw [competitors_self hLX, competitors_self hV1,
          competitors_none (fun x h => by have := hrest x h; omega),
          competitors_none (fun x h => by have := hV2 x h; omega), List.append_nil, List.append_nil]
        exact a3
      · rw [competitors_none (l := L) (fun x h => by rw [hLX x h]; exact fun h => hY h.symm),
          competitors_none (l := V1) (fun x h => by rw [hV1 x h]; exact fun h => hY h.symm)]
        exact b3 Y
    · rw [b4, a4, Nat.add_assoc]
      congr 1
      rw [Nat.add_comm]
      symm
      apply sum_range_update _ _ _ hXlt.1
      · intro Y hY
        rw [competitors_append, competitors_none (l := L) (fun x h => by rw [hLX x h]; exact fun h => hY h.symm)]
        rfl
      · rw [competitors_append, competitors_self hLX, competitors_none (l := rest) (fun x h => by have := hrest x h; omega), List.append_nil]
        rw [show srCount (fin && X == 0) [] = 0 by simp [srCount]]; omega
    · rw [b5, a5, Nat.add_assoc]
      congr 1
      rw [Nat.add_comm]
      symm
      apply sum_range_update _ _ _ hXlt.1
      · intro Y hY
        rw [competitors_append, competitors_none (l := L) (fun x h => by rw [hLX x h]; exact fun h => hY h.symm)]
        rfl
      · rw [competitors_append, competitors_self hLX, competitors_none (l := rest) (fun x h => by have := hrest x h; omega), List.append_nil]
        rw [show rrCount (lem && !(fin && X == 0)) (fin && X == 0) [] = 0 by simp [rrCount]]; omega

theorem crRow_spec (lem fin : Bool) (N : Nat) (acts : List Action) (hs : acts.Pairwise ActLt)
    (h0 : ∀ x ∈ acts, x.suppressed = 0 ∧ x.symbol < N) (hz : ∀ x ∈ acts, x.code = .SHIFT → x.symbol ≠ 0) :
    RowRes lem fin N acts (crRow lem fin acts) := by
  obtain ⟨V, h1, h2, h3, h4, h5⟩ := row_aux lem fin N acts.length acts ⟨[], none, [], -1, 0, 0⟩ (Nat.le_refl _) hs
    (fun x hx => ⟨(h0 x hx).1, (h0 x hx).2, by simp only; omega⟩) hz
  have hv : (crRow lem fin acts).visited = V := by
    unfold crRow; rw [h1]; simp [CR.visited]
  refine ⟨by rw [hv]; exact h2, fun X => by rw [hv]; exact h3 X, ?_, ?_⟩
  · unfold crRow; rw [h4]; simp
  · unfold crRow; rw [h5]; simp

end Verif.Byacc
