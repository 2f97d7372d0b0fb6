import Verif.Proofs.Nullable
import Verif.Proofs.Warshall
import Verif.Spec.LR0
import Mathlib.Data.List.Sort
namespace Verif.Byacc
open Spec Relation

/-! ### loops -/

theorem loop_congr {σ} {n : Nat} {f f' : σ → Nat → σ} {s : σ} (h : ∀ k t, k < n → f t k = f' t k) :
    loop n f s = loop n f' s := by
  induction n with
  | zero => rfl
  | succ n ih =>
    rw [loop_succ, loop_succ, ih (fun k t hk => h k t (by omega)), h n _ (by omega)]

theorem loop_id {σ} {n : Nat} {f : σ → Nat → σ} {s : σ} (h : ∀ k, k < n → f s k = s) :
    loop n f s = s := by
  induction n with
  | zero => rfl
  | succ n ih => rw [loop_succ, ih (fun k hk => h k (by omega)), h n (by omega)]

theorem loop_add {σ} (a b : Nat) (f : σ → Nat → σ) (s : σ) :
    loop (a + b) f s = loop b (fun st i => f st (a + i)) (loop a f s) := by
  induction b with
  | zero => rfl
  | succ b ih => rw [← Nat.add_assoc, loop_succ, loop_succ, ih]

theorem loop_nest {σ} (a : Nat) (f : σ → Nat → σ) (s : σ) :
    loop a (fun st w => loop 64 (fun st i => f st (64 * w + i)) st) s = loop (64 * a) f s := by
  induction a with
  | zero => rfl
  | succ a ih => rw [loop_succ, ih, show 64 * (a+1) = 64 * a + 64 by omega, loop_add]

/-! ### folds of SETBIT -/

theorem foldl_SETBIT {α : Type} (l : List α) (f : α → Option Nat) (row : List Word)
    (h : ∀ a ∈ l, ∀ n, f a = some n → n / 64 < row.length) :
    let out := l.foldl (fun r a => match f a with | some n => SETBIT r n | none => r) row
    out.length = row.length ∧
    ∀ m, BIT out m = true ↔ (BIT row m = true ∨ ∃ a ∈ l, f a = some m) := by
  induction l generalizing row with
  | nil => simp
  | cons a l ih =>
    simp only [List.foldl_cons]
    rcases hfa : f a with _ | n
    · obtain ⟨h1, h2⟩ := ih row (fun b hb => h b (by simp [hb]))
      refine ⟨h1, fun m => ?_⟩
      rw [h2]; simp [hfa]
    · have hn := h a (by simp) n hfa
      obtain ⟨h1, h2⟩ := ih (SETBIT row n) (fun b hb k hk => by
        rw [SETBIT_length]; exact h b (by simp [hb]) k hk)
      rw [SETBIT_length] at h1
      refine ⟨h1, fun m => ?_⟩
      rw [h2, BIT_SETBIT _ _ _ hn]
      simp only [Bool.or_eq_true, decide_eq_true_eq, List.mem_cons, exists_eq_or_imp, hfa,
        Option.some.injEq]
      constructor
      · rintro ((h | h) | h)
        · exact Or.inl h
        · exact Or.inr (Or.inl h.symm)
        · exact Or.inr (Or.inr h)
      · rintro (h | h | h)
        · exact Or.inl (Or.inl h)
        · exact Or.inl (Or.inr h.symm)
        · exact Or.inr h

/-! ### derives -/

variable {g : Gram} {G : CFG}

theorem mem_derives (hp : Packs g G) {A i : Nat} (hA : 0 < A) :
    i ∈ derives g A ↔ ∃ r α, i = r + 2 ∧ G.rules[r]? = some (A, α) := by
  simp only [derives, List.mem_filter, List.mem_range, beq_iff_eq]
  constructor
  · rintro ⟨h1, h2⟩
    rw [hp.nrules] at h1
    match i, h1, h2 with
    | 0, _, h2 => rw [hp.low.1] at h2; omega
    | 1, _, h2 => rw [hp.low.2] at h2; omega
    | r+2, h1, h2 =>
      have hr : r < G.rules.length := by omega
      refine ⟨r, (G.rules[r]).2, rfl, ?_⟩
      have e := hp.lhs r (G.rules[r]).1 (G.rules[r]).2 (by rw [List.getElem?_eq_getElem hr])
      rw [List.getElem?_eq_getElem hr, ← h2, e]
  · rintro ⟨r, α, rfl, hr⟩
    refine ⟨?_, hp.lhs r A α hr⟩
    rw [hp.nrules]
    have := (List.getElem?_eq_some_iff.mp hr).1
    omega

theorem derives_sorted (g : Gram) (A : Nat) : (derives g A).Pairwise (· < ·) :=
  List.Pairwise.filter _ List.pairwise_lt_range

/-! ### positions -/

/-- position of item `(r,d)` -/
def pos (g : Gram) (r d : Nat) : Nat := g.rhs (r+2) + d

theorem rhs_mono (hp : Packs g G) {a b : Nat} (hab : a < b) (hb : b ≤ G.rules.length) :
    ∀ A α, G.rules[a]? = some (A, α) → g.rhs (a+2) + α.length < g.rhs (b+2) := by
  induction b with
  | zero => omega
  | succ b ih =>
    intro A α ha
    have hlt : b < G.rules.length := by omega
    have hn := hp.next b (G.rules[b]).1 (G.rules[b]).2 (by rw [List.getElem?_eq_getElem hlt])
    rw [show b + 1 + 2 = b + 3 by omega, hn]
    rcases Nat.lt_or_ge a b with h | h
    · have := ih h (by omega) A α ha; omega
    · have : a = b := by omega
      subst this
      have e : G.rules[a] = (A, α) := by
        rw [List.getElem?_eq_getElem hlt] at ha; simpa using ha
      rw [e]; simp only; omega

theorem rhs_lt (hp : Packs g G) {a b : Nat} (hab : a < b) (hb : b ≤ G.rules.length) :
    g.rhs (a+2) < g.rhs (b+2) := by
  have hlt : a < G.rules.length := by omega
  have := rhs_mono hp hab hb (G.rules[a]).1 (G.rules[a]).2 (by rw [List.getElem?_eq_getElem hlt])
  omega

theorem pos_inj (hp : Packs g G) {r d r' d' : Nat} (h : IsItem G r d) (h' : IsItem G r' d')
    (e : pos g r d = pos g r' d') : r = r' ∧ d = d' := by
  obtain ⟨A, α, hr, hd⟩ := h
  obtain ⟨A', α', hr', hd'⟩ := h'
  unfold pos at e
  have hl := (List.getElem?_eq_some_iff.mp hr).1
  have hl' := (List.getElem?_eq_some_iff.mp hr').1
  rcases Nat.lt_trichotomy r r' with h | h | h
  · have := rhs_mono hp h (by omega) A α hr; omega
  · subst h; exact ⟨rfl, by omega⟩
  · have := rhs_mono hp h (by omega) A' α' hr'; omega

theorem pos_lt (hp : Packs g G) {r d : Nat} (h : IsItem G r d) : pos g r d < g.nitems := by
  obtain ⟨A, α, hr, hd⟩ := h
  have hl := (List.getElem?_eq_some_iff.mp hr).1
  have := rhs_mono hp hl le_rfl A α hr
  rw [hp.nitems]; unfold pos; omega

theorem pos_pos (hp : Packs g G) {r d : Nat} (h : IsItem G r d) : 1 ≤ pos g r d := by
  obtain ⟨A, α, hr, hd⟩ := h
  have hl := (List.getElem?_eq_some_iff.mp hr).1
  unfold pos
  rcases Nat.eq_zero_or_pos r with rfl | h0
  · have := hp.one; simp only [Nat.zero_add]; omega
  · have := rhs_lt hp h0 (Nat.le_of_lt hl)
    simp only [Nat.zero_add] at this
    omega

theorem exists_item (hp : Packs g G) {p : Nat} (h1 : 1 ≤ p) (h2 : p < g.nitems) :
    ∃ r d, IsItem G r d ∧ p = pos g r d := by
  rw [hp.nitems] at h2
  have key : ∀ n, n ≤ G.rules.length → p < g.rhs (n+2) → ∃ r d, IsItem G r d ∧ p = pos g r d := by
    intro n
    induction n with
    | zero => intro _ h; rw [hp.one] at h; omega
    | succ n ih =>
      intro hn h
      rcases Nat.lt_or_ge p (g.rhs (n+2)) with hlt | hge
      · exact ih (by omega) hlt
      · have hlt : n < G.rules.length := by omega
        have hr : G.rules[n]? = some ((G.rules[n]).1, (G.rules[n]).2) := by
          rw [List.getElem?_eq_getElem hlt]
        have := hp.next n _ _ hr
        rw [show n + 1 + 2 = n + 3 by omega, this] at h
        exact ⟨n, p - g.rhs (n+2), ⟨_, _, hr, by omega⟩, by unfold pos; omega⟩
  exact key _ le_rfl h2

theorem item_sym (hp : Packs g G) {r d A : Nat} {α : List Nat} {X : Nat}
    (hr : G.rules[r]? = some (A, α)) (hX : α[d]? = some X) : g.item (pos g r d) = (X : Int) :=
  hp.sym r A α d X hr hX

theorem item_end (hp : Packs g G) {r A : Nat} {α : List Nat}
    (hr : G.rules[r]? = some (A, α)) : g.item (pos g r α.length) = -((r+2 : Nat) : Int) :=
  hp.term r A α hr

/-- what `item` says about a valid item -/
theorem item_cases (hp : Packs g G) {r d : Nat} (h : IsItem G r d) :
    (∃ A α X, G.rules[r]? = some (A, α) ∧ α[d]? = some X ∧ g.item (pos g r d) = (X : Int)) ∨
    (∃ A α, G.rules[r]? = some (A, α) ∧ d = α.length ∧ g.item (pos g r d) = -((r+2 : Nat) : Int)) := by
  obtain ⟨A, α, hr, hd⟩ := h
  rcases Nat.lt_or_ge d α.length with hl | hl
  · exact Or.inl ⟨A, α, α[d], hr, List.getElem?_eq_getElem hl, item_sym hp hr (List.getElem?_eq_getElem hl)⟩
  · have : d = α.length := by omega
    subst this
    exact Or.inr ⟨A, α, hr, rfl, item_end hp hr⟩

/-! ### first-derives -/

/-- `B` is the first symbol of a rule of `A` -/
def LeftCorner (G : CFG) (A B : Nat) : Prop := ∃ β, (A, B :: β) ∈ G.rules

theorem mem_rules_iff {A : Nat} {α : List Nat} : (A, α) ∈ G.rules ↔ ∃ r : Nat, G.rules[r]? = some (A, α) :=
  List.mem_iff_getElem?

theorem effRow_spec (hp : Packs g G) (hwf : WF G g.nsyms) (v : Nat) :
    (effRow g v).length = wordsize g.nvars ∧
    ∀ w, BIT (effRow g v) w = true ↔ LeftCorner G (G.ntok + v) (G.ntok + w) := by
  have hnt : g.start = G.ntok := hp.ntok
  have hpos : 0 < G.ntok + v := by have := hwf.ntok; omega
  have hfold : effRow g v = (derives g (g.start + v)).foldl (fun r a =>
      match (if g.isVar (g.item (g.rhs a)) then some ((g.item (g.rhs a)).toNat - g.start) else none) with
      | some n => SETBIT r n | none => r) (zeroRow (wordsize g.nvars)) := by
    unfold effRow
    congr 1
    funext r a
    simp only
    split <;> rfl
  have hfirst : ∀ (r A : Nat) (α : List Nat), G.rules[r]? = some (A, α) →
      (∃ B β, α = B :: β ∧ g.item (g.rhs (r+2)) = (B : Int)) ∨ (α = [] ∧ g.item (g.rhs (r+2)) < 0) := by
    intro r A α hr
    cases α with
    | nil =>
      have := hp.term r A [] hr
      simp only [List.length_nil, Nat.add_zero] at this
      exact Or.inr ⟨rfl, by rw [this]; omega⟩
    | cons B β => exact Or.inl ⟨B, β, rfl, hp.sym r A _ 0 B hr (by simp)⟩
  have := foldl_SETBIT (derives g (g.start + v))
    (fun a => if g.isVar (g.item (g.rhs a)) then some ((g.item (g.rhs a)).toNat - g.start) else none)
    (zeroRow (wordsize g.nvars)) ?_
  · rw [← hfold] at this
    refine ⟨by simpa [zeroRow] using this.1, fun w => ?_⟩
    rw [this.2 w, BIT_zeroRow]
    simp only [Bool.false_eq_true, false_or]
    constructor
    · rintro ⟨a, ha, hw⟩
      rw [hnt, mem_derives hp hpos] at ha
      obtain ⟨r, α, rfl, hr⟩ := ha
      rcases hfirst r _ α hr with ⟨B, β, rfl, hB⟩ | ⟨rfl, hB⟩
      · simp only [hB, Gram.isVar, hnt] at hw
        split at hw
        · rename_i hv
          simp only [decide_eq_true_eq] at hv
          simp only [Option.some.injEq, Int.toNat_natCast] at hw
          have : B = G.ntok + w := by omega
          subst this
          exact ⟨β, mem_rules_iff.mpr ⟨r, hr⟩⟩
        · simp at hw
      · have hnv : g.isVar (g.item (g.rhs (r+2))) = false := by simp [Gram.isVar]; omega
        simp [hnv] at hw
    · rintro ⟨β, hm⟩
      obtain ⟨r, hr⟩ := mem_rules_iff.mp hm
      refine ⟨r+2, by rw [hnt, mem_derives hp hpos]; exact ⟨r, _, rfl, hr⟩, ?_⟩
      rcases hfirst r _ _ hr with ⟨B, β', e, hB⟩ | ⟨e, _⟩
      · simp only [List.cons.injEq] at e
        obtain ⟨rfl, rfl⟩ := e
        have hyv : g.isVar (g.item (g.rhs (r+2))) = true := by simp [Gram.isVar, hB, hnt]
        rw [if_pos hyv, hB, hnt]
        congr 1
        omega
      · simp at e
  · intro a ha n hn
    rw [hnt, mem_derives hp hpos] at ha
    obtain ⟨r, α, rfl, hr⟩ := ha
    simp only [zeroRow, List.length_replicate]
    rcases hfirst r _ α hr with ⟨B, β, rfl, hB⟩ | ⟨rfl, hB⟩
    · simp only [hB, Gram.isVar, hnt] at hn
      split at hn
      · simp only [Option.some.injEq, Int.toNat_natCast] at hn
        have hB' := (hwf.lhs hr).2.2 B (by simp)
        rename_i hv
        simp only [decide_eq_true_eq] at hv
        apply wordsize_lt
        have hs := hwf.size
        have := hp.ntok
        simp only [Gram.nvars]
        omega
      · simp at hn
    · have hnv : g.isVar (g.item (g.rhs (r+2))) = false := by simp [Gram.isVar]; omega
      simp [hnv] at hn

theorem LeftCorner.var {n : Nat} (hwf : WF G n) {A B : Nat} (h : LeftCorner G A B) :
    G.ntok ≤ A ∧ A < n ∧ B < n := by
  obtain ⟨β, hm⟩ := h
  have := hwf.mem hm
  exact ⟨this.1, this.2.1, this.2.2 B (by simp)⟩

theorem setEFF_spec (hp : Packs g G) (hwf : WF G g.nsyms) (v w : Nat) (hv : v < g.nvars) :
    BIT (row (setEFF g) v) w = true ↔
      w < g.nvars ∧ ReflTransGen (LeftCorner G) (G.ntok + v) (G.ntok + w) := by
  have hrow : ∀ i, i < g.nvars → row ((List.range g.nvars).map (effRow g)) i = effRow g i := by
    intro i hi
    simp [row, List.getElem?_range hi]
  have hmat : MatOK ((List.range g.nvars).map (effRow g)) g.nvars (wordsize g.nvars) := by
    refine ⟨by simp, fun i hi => ?_⟩
    rw [hrow i hi]; exact (effRow_spec hp hwf i).1
  have hnv : g.nvars = g.nsyms - G.ntok := by rw [Gram.nvars, hp.ntok]
  have hbits := (reflexiveTransitiveClosure_bits hmat).2 v hv w
  unfold setEFF
  rw [hbits, Bool.or_eq_true, decide_eq_true_eq, (transitiveClosure_W hmat).2 v hv w]
  have hR : ∀ a b, a < g.nvars → (BIT (row ((List.range g.nvars).map (effRow g)) a) b = true ↔
      LeftCorner G (G.ntok + a) (G.ntok + b)) := by
    intro a b ha
    rw [hrow a ha]; exact (effRow_spec hp hwf a).2 b
  rcases Nat.lt_or_ge w g.nvars with hw | hw
  · rw [W_iff hv hw, reflTransGen_iff_eq_or_transGen]
    simp only [hw, true_and]
    have htg : TransGen (fun a b => a < g.nvars ∧ b < g.nvars ∧
        BIT (row ((List.range g.nvars).map (effRow g)) a) b = true) v w ↔
        TransGen (LeftCorner G) (G.ntok + v) (G.ntok + w) := by
      constructor
      · intro h
        clear hw hbits
        induction h with
        | single h => exact .single ((hR _ _ h.1).mp h.2.2)
        | tail _ h ih => exact .tail ih ((hR _ _ h.1).mp h.2.2)
      · intro h
        have gen : ∀ X, TransGen (LeftCorner G) (G.ntok + v) X → G.ntok ≤ X → X < g.nsyms →
            TransGen (fun a b => a < g.nvars ∧ b < g.nvars ∧
              BIT (row ((List.range g.nvars).map (effRow g)) a) b = true) v (X - G.ntok) := by
          intro X hX
          induction hX with
          | @single b h =>
            intro h1 h2
            refine .single ⟨hv, by omega, (hR _ _ hv).mpr ?_⟩
            rwa [show G.ntok + (b - G.ntok) = b by omega]
          | @tail b c _ h ih =>
            intro h1 h2
            have hb := h.var hwf
            refine .tail (ih hb.1 hb.2.1) ⟨by omega, by omega, (hR _ _ (by omega)).mpr ?_⟩
            rwa [show G.ntok + (b - G.ntok) = b by omega, show G.ntok + (c - G.ntok) = c by omega]
        have := gen _ h (by omega) (by omega)
        rwa [show G.ntok + w - G.ntok = w by omega] at this
    rw [htg]
    constructor
    · rintro (h | rfl)
      · exact Or.inr h
      · exact Or.inl rfl
    · rintro (h | h)
      · exact Or.inr (by omega)
      · exact Or.inl h
  · have : W (fun i j => BIT (row ((List.range g.nvars).map (effRow g)) i) j) g.nvars v w = false := by
      apply W_bounded _ _ le_rfl hv hw
      intro i j hi hj
      by_contra hc
      have hc' : BIT (row ((List.range g.nvars).map (effRow g)) i) j = true := by simpa using hc
      have := ((hR i j hi).mp hc').var hwf
      omega
    rw [this]
    simp; omega

theorem firstDerives_row_len (g : Gram) (v : Nat) (eff : List (List Word)) :
    (firstDerivesRow g eff v).length = wordsize g.nrules := by
  unfold firstDerivesRow
  apply loop_inv (fun _ (r : List Word) => r.length = wordsize g.nrules)
  · simp [zeroRow]
  · intro k t _ ht
    split
    · have : ∀ (l : List Nat) (t : List Word), (l.foldl (fun r rule => SETBIT r rule) t).length = t.length := by
        intro l
        induction l with
        | nil => simp
        | cons a l ih => intro t; simp [ih, SETBIT_length]
      rw [this, ht]
    · exact ht

theorem firstDerivesRow_spec (hp : Packs g G) (hwf : WF G g.nsyms) (v : Nat) (hv : v < g.nvars) (i : Nat) :
    BIT (firstDerivesRow g (setEFF g) v) i = true ↔
      ∃ (B r : Nat) (α : List Nat), ReflTransGen (LeftCorner G) (G.ntok + v) B ∧ i = r + 2 ∧ G.rules[r]? = some (B, α) := by
  have hpos := hwf.ntok
  have key := loop_inv (n := g.nvars) (s := zeroRow (wordsize g.nrules))
    (f := fun rrow j => if BIT (row (setEFF g) v) j then
      (derives g (g.start + j)).foldl (fun r rule => SETBIT r rule) rrow else rrow)
    (fun k r => r.length = wordsize g.nrules ∧ ∀ m, BIT r m = true ↔
      ∃ j, j < k ∧ BIT (row (setEFF g) v) j = true ∧ m ∈ derives g (g.start + j))
    ⟨by simp [zeroRow], by simp [BIT_zeroRow]⟩ ?_
  · have := key.2 i
    unfold firstDerivesRow
    rw [this]
    constructor
    · rintro ⟨j, hj, hb, hm⟩
      have hm' := (mem_derives hp (by rw [show g.start = G.ntok from hp.ntok]; omega)).mp hm
      obtain ⟨r, α, rfl, hr⟩ := hm'
      rw [setEFF_spec hp hwf v j hv] at hb
      rw [show g.start = G.ntok from hp.ntok] at hr
      exact ⟨_, r, α, hb.2, rfl, hr⟩
    · rintro ⟨B, r, α, hB, rfl, hr⟩
      have hl := hwf.lhs hr
      have hnv : g.nvars = g.nsyms - G.ntok := by rw [Gram.nvars, hp.ntok]
      refine ⟨B - G.ntok, by omega, ?_, ?_⟩
      · rw [setEFF_spec hp hwf v _ hv, show G.ntok + (B - G.ntok) = B by omega]
        exact ⟨by omega, hB⟩
      · rw [show g.start = G.ntok from hp.ntok, show G.ntok + (B - G.ntok) = B by omega,
          mem_derives hp (by omega)]
        exact ⟨r, α, rfl, hr⟩
  · intro k t hk ⟨ht1, ht2⟩
    split
    · rename_i hb
      have hf := foldl_SETBIT (derives g (g.start + k)) (fun a => some a) t (by
        intro a ha n hn
        simp only [Option.some.injEq] at hn
        subst hn
        rw [ht1]
        apply wordsize_lt
        simp only [derives, List.mem_filter, List.mem_range] at ha
        exact ha.1)
      simp only at hf
      refine ⟨by rw [hf.1, ht1], fun m => ?_⟩
      rw [hf.2 m, ht2 m]
      simp only [Option.some.injEq, exists_eq_right]
      constructor
      · rintro (⟨j, h1, h2⟩ | h)
        · exact ⟨j, by omega, h2⟩
        · exact ⟨k, by omega, hb, h⟩
      · rintro ⟨j, h1, h2, h3⟩
        rcases Nat.lt_or_ge j k with h | h
        · exact Or.inl ⟨j, h, h2, h3⟩
        · have : j = k := by omega
          subst this; exact Or.inr h3
    · rename_i hb
      refine ⟨ht1, fun m => ?_⟩
      rw [ht2 m]
      constructor
      · rintro ⟨j, h1, h2⟩; exact ⟨j, by omega, h2⟩
      · rintro ⟨j, h1, h2, h3⟩
        refine ⟨j, ?_, h2, h3⟩
        by_contra hc
        have : j = k := by omega
        subst this; exact hb h2

/-! ### the rule set of a kernel -/

theorem row_setFirstDerives (g : Gram) (v : Nat) (hv : v < g.nvars) :
    row (setFirstDerives g) v = firstDerivesRow g (setEFF g) v := by
  simp [row, setFirstDerives, List.getElem?_range hv]

/-- the rule with number `i` is needed in the closure of the kernel -/
def Needed (g : Gram) (G : CFG) (K : List Nat) (i : Nat) : Prop :=
  ∃ k ∈ K, ∃ (A B r : Nat) (α : List Nat), g.item k = (A : Int) ∧ G.ntok ≤ A ∧
    ReflTransGen (LeftCorner G) A B ∧ i = r + 2 ∧ G.rules[r]? = some (B, α)

theorem ruleset_spec (hp : Packs g G) (hwf : WF G g.nsyms) (K : List Nat)
    (hK : ∀ k ∈ K, g.item k < (g.nsyms : Int)) :
    (rulesetOf g (setFirstDerives g) K).length = wordsize g.nrules ∧
    ∀ i, BIT (rulesetOf g (setFirstDerives g) K) i = true ↔ Needed g G K i := by
  have gen : ∀ (K : List Nat) (rs : List Word), (∀ k ∈ K, g.item k < (g.nsyms : Int)) →
      rs.length = wordsize g.nrules →
      let out := K.foldl (fun rs csp =>
        let symbol := g.item csp
        if g.isVar symbol then orRow rs (row (setFirstDerives g) (symbol.toNat - g.ntokens)) else rs) rs
      out.length = wordsize g.nrules ∧
      ∀ i, BIT out i = true ↔ (BIT rs i = true ∨ Needed g G K i) := by
    intro K
    induction K with
    | nil => intro rs _ h; simp [h, Needed]
    | cons k K ih =>
      intro rs hK hrs
      simp only [List.foldl_cons]
      have hK' : ∀ k ∈ K, g.item k < (g.nsyms : Int) := fun k hk => hK k (by simp [hk])
      have hsplit : ∀ i, Needed g G (k :: K) i ↔ ((∃ (A B r : Nat) (α : List Nat), g.item k = (A : Int) ∧ G.ntok ≤ A ∧
          ReflTransGen (LeftCorner G) A B ∧ i = r + 2 ∧ G.rules[r]? = some (B, α)) ∨ Needed g G K i) := by
        intro i; simp [Needed]
      have hnt := hp.ntok
      by_cases hv : g.isVar (g.item k) = true
      · rw [if_pos hv]
        have hv := of_decide_eq_true hv
        simp only [Gram.start] at hv
        have hklt := hK k (by simp)
        have hvlt : (g.item k).toNat - g.ntokens < g.nvars := by simp only [Gram.nvars]; omega
        have hrow := row_setFirstDerives g _ hvlt
        have hlen : rs.length = (row (setFirstDerives g) ((g.item k).toNat - g.ntokens)).length := by
          rw [hrow, firstDerives_row_len g, hrs]
        obtain ⟨h1, h2⟩ := ih (orRow rs (row (setFirstDerives g) ((g.item k).toNat - g.ntokens))) hK'
          (by rw [orRow_length _ _ hlen, hrs])
        refine ⟨h1, fun i => ?_⟩
        rw [h2 i, BIT_orRow _ _ hlen, Bool.or_eq_true, hrow, firstDerivesRow_spec hp hwf _ hvlt, hsplit,
          or_assoc]
        refine or_congr Iff.rfl (or_congr ?_ Iff.rfl)
        have hA : G.ntok + ((g.item k).toNat - g.ntokens) = (g.item k).toNat := by omega
        rw [hA]
        constructor
        · rintro ⟨B, r, α, h1, h2, h3⟩
          exact ⟨(g.item k).toNat, B, r, α, by omega, by omega, h1, h2, h3⟩
        · rintro ⟨A, B, r, α, h0, h1, h2, h3, h4⟩
          rw [h0]
          exact ⟨B, r, α, by simpa using h2, h3, h4⟩
      · rw [if_neg hv]
        obtain ⟨h1, h2⟩ := ih rs hK' hrs
        refine ⟨h1, fun i => ?_⟩
        rw [h2 i, hsplit]
        have : ¬ ∃ (A B r : Nat) (α : List Nat), g.item k = (A : Int) ∧ G.ntok ≤ A ∧
          ReflTransGen (LeftCorner G) A B ∧ i = r + 2 ∧ G.rules[r]? = some (B, α) := by
          rintro ⟨A, B, r, α, h0, h1, -⟩
          apply hv
          apply decide_eq_true
          simp only [Gram.start]
          omega
        rw [or_iff_right this]
  have := gen K (zeroRow (wordsize g.nrules)) hK (by simp [zeroRow])
  refine ⟨this.1, fun i => ?_⟩
  have h2 := this.2 i
  rw [BIT_zeroRow] at h2
  simpa [rulesetOf] using h2

/-! ### the merge -/

theorem List.mem_takeWhile_imp' {α} (p : α → Bool) (l : List α) {a : α} (h : a ∈ l.takeWhile p) :
    p a = true := by
  induction l with
  | nil => simp at h
  | cons b l ih =>
    by_cases hb : p b = true
    · rw [List.takeWhile_cons_of_pos hb] at h
      rcases List.mem_cons.mp h with rfl | h
      · exact hb
      · exact ih h
    · rw [List.takeWhile_cons_of_neg hb] at h
      simp at h

theorem emitItem_spec (x : Nat) (out csp : List Nat) (hs : (out ++ csp).Pairwise (· < ·))
    (hout : ∀ y ∈ out, y < x) :
    ((emitItem x (out, csp)).1 ++ (emitItem x (out, csp)).2).Pairwise (· < ·) ∧
    (∀ y ∈ (emitItem x (out, csp)).1, y ≤ x) ∧
    ∀ y, y ∈ (emitItem x (out, csp)).1 ++ (emitItem x (out, csp)).2 ↔ (y ∈ out ++ csp ∨ y = x) := by
  simp only [emitItem]
  have hcsp : csp.Pairwise (· < ·) := (List.pairwise_append.mp hs).2.1
  have hcross := (List.pairwise_append.mp hs).2.2
  have hout' := (List.pairwise_append.mp hs).1
  have hsplit := List.takeWhile_append_dropWhile (p := (· < x)) (l := csp)
  generalize htw : csp.takeWhile (· < x) = tw at *
  generalize hdw : csp.dropWhile (· < x) = dw at *
  have htwlt : ∀ y ∈ tw, y < x := by
    intro y hy
    rw [← htw] at hy
    have := List.mem_takeWhile_imp' _ _ hy; simpa using this
  have hdwhead : ∀ y, dw.head? = some y → x ≤ y := by
    intro y hy
    have := List.head?_dropWhile_not (fun a => decide (a < x)) csp
    rw [hdw, hy] at this
    simp at this; omega
  subst hsplit
  have hpdw : dw.Pairwise (· < ·) := (List.pairwise_append.mp hcsp).2.1
  have hptw : tw.Pairwise (· < ·) := (List.pairwise_append.mp hcsp).1
  -- structure of dw
  have hdw2 : ∃ dw2, dw.dropWhile (· == x) = dw2 ∧ (∀ y ∈ dw2, x < y) ∧ dw2.Pairwise (· < ·) ∧
      (∀ y, y ∈ dw ∨ y = x ↔ y ∈ dw2 ∨ y = x) := by
    cases dw with
    | nil => exact ⟨[], rfl, by simp, by simp, by simp⟩
    | cons a dw =>
      have ha := hdwhead a rfl
      have hp' := List.pairwise_cons.mp hpdw
      by_cases hax : a = x
      · subst hax
        have hd2 : dw.dropWhile (· == a) = dw := by
          cases dw with
          | nil => rfl
          | cons b dw =>
            have := hp'.1 b (by simp)
            rw [List.dropWhile_cons_of_neg]; simp; omega
        refine ⟨dw, by simp [List.dropWhile_cons, hd2], hp'.1, hp'.2, ?_⟩
        intro y; simp; tauto
      · refine ⟨a :: dw, ?_, ?_, hpdw, by simp⟩
        · rw [List.dropWhile_cons_of_neg]; simpa using hax
        · intro y hy
          rcases List.mem_cons.mp hy with rfl | hy
          · omega
          · have := hp'.1 y hy; omega
  obtain ⟨dw2, h1, h2, h3, h4⟩ := hdw2
  rw [h1]
  refine ⟨?_, ?_, ?_⟩
  · rw [List.pairwise_append, List.pairwise_append, List.pairwise_append]
    refine ⟨⟨⟨hout', hptw, fun a ha b hb => hcross a ha b (by simp [hb])⟩, by simp, ?_⟩, h3, ?_⟩
    · intro a ha b hb
      simp only [List.mem_singleton] at hb
      subst hb
      rcases List.mem_append.mp ha with ha | ha
      · exact hout a ha
      · exact htwlt a ha
    · intro a ha b hb
      have hb' := h2 b hb
      simp only [List.mem_append, List.mem_singleton] at ha
      rcases ha with (ha | ha) | rfl
      · have := hout a ha; omega
      · have := htwlt a ha; omega
      · exact hb'
  · intro y hy
    simp only [List.mem_append, List.mem_singleton] at hy
    rcases hy with (hy | hy) | rfl
    · exact Nat.le_of_lt (hout y hy)
    · exact Nat.le_of_lt (htwlt y hy)
    · exact le_rfl
  · intro y
    have := h4 y
    simp only [List.mem_append, List.mem_singleton]
    tauto

theorem closure_merge (g : Gram) (ruleset : List Word) (nucleus : List Nat)
    (hn : nucleus.Pairwise (· < ·))
    (hmono : ∀ a b, a < b → BIT ruleset a = true → BIT ruleset b = true → g.rhs a < g.rhs b)
    (N : Nat) :
    let st := loop N (fun st i => if BIT ruleset i then emitItem (g.rhs i) st else st) ([], nucleus)
    (st.1 ++ st.2).Pairwise (· < ·) ∧
    ∀ y, y ∈ st.1 ++ st.2 ↔ (y ∈ nucleus ∨ ∃ i, i < N ∧ BIT ruleset i = true ∧ y = g.rhs i) := by
  have key := loop_inv (n := N) (s := (([], nucleus) : List Nat × List Nat))
    (f := fun st i => if BIT ruleset i then emitItem (g.rhs i) st else st)
    (fun k st => (st.1 ++ st.2).Pairwise (· < ·) ∧
      (∀ y ∈ st.1, ∀ i, k ≤ i → BIT ruleset i = true → y < g.rhs i) ∧
      ∀ y, y ∈ st.1 ++ st.2 ↔ (y ∈ nucleus ∨ ∃ i, i < k ∧ BIT ruleset i = true ∧ y = g.rhs i))
    ⟨by simpa using hn, by simp, by simp⟩ ?_
  · exact ⟨key.1, key.2.2⟩
  · rintro k ⟨out, csp⟩ hk ⟨h1, h2, h3⟩
    simp only at h1 h2 h3 ⊢
    split
    · rename_i hb
      obtain ⟨e1, e2, e3⟩ := emitItem_spec (g.rhs k) out csp h1 (fun y hy => h2 y hy k le_rfl hb)
      refine ⟨e1, ?_, ?_⟩
      · intro y hy i hi hbi
        have := e2 y hy
        have := hmono k i (by omega) hb hbi
        omega
      · intro y
        rw [e3 y, h3 y]
        constructor
        · rintro ((h | ⟨i, h⟩) | rfl)
          · exact Or.inl h
          · exact Or.inr ⟨i, by omega, h.2⟩
          · exact Or.inr ⟨k, by omega, hb, rfl⟩
        · rintro (h | ⟨i, hi, hbi, rfl⟩)
          · exact Or.inl (Or.inl h)
          · rcases Nat.lt_or_ge i k with h | h
            · exact Or.inl (Or.inr ⟨i, h, hbi, rfl⟩)
            · have : i = k := by omega
              subst this; exact Or.inr rfl
    · rename_i hb
      refine ⟨h1, fun y hy i hi => h2 y hy i (by omega), fun y => ?_⟩
      rw [h3 y]
      constructor
      · rintro (h | ⟨i, h⟩)
        · exact Or.inl h
        · exact Or.inr ⟨i, by omega, h.2⟩
      · rintro (h | ⟨i, hi, hbi, rfl⟩)
        · exact Or.inl h
        · refine Or.inr ⟨i, ?_, hbi, rfl⟩
          by_contra hc
          have : i = k := by omega
          subst this; exact hb hbi

theorem closure_eq_loop (g : Gram) (fd : List (List Word)) (K : List Nat) :
    closure g fd K =
      (let st := loop (64 * wordsize g.nrules) (fun st i =>
        if BIT (rulesetOf g fd K) i then emitItem (g.rhs i) st else st) ([], K)
       st.1 ++ st.2) := by
  unfold closure
  simp only
  rw [← loop_nest]
  have : ∀ w (st : List Nat × List Nat),
      (if (rdw (rulesetOf g fd K) w != 0#64) = true then
        loop 64 (fun st i =>
          if (rdw (rulesetOf g fd K) w &&& (1#64 <<< i) != 0#64) = true then emitItem (g.rhs (64 * w + i)) st
          else st) st
      else st) =
      loop 64 (fun st i => if BIT (rulesetOf g fd K) (64 * w + i) = true then
        emitItem (g.rhs (64 * w + i)) st else st) st := by
    intro w st
    have hb : ∀ i, i < 64 → BIT (rulesetOf g fd K) (64 * w + i) =
        (rdw (rulesetOf g fd K) w).getLsbD i := by
      intro i hi
      rw [BIT_eq, show (64 * w + i) / 64 = w by omega, show (64 * w + i) % 64 = i by omega]
    split
    · apply loop_congr
      intro i t hi
      rw [and_shift_ne_zero _ _ hi, hb i hi]
    · rename_i h
      have hz : rdw (rulesetOf g fd K) w = 0#64 := by simpa using h
      symm
      apply loop_id
      intro i hi
      rw [hb i hi, hz]
      simp
  simp only [this]

theorem closure_spec (hp : Packs g G) (hwf : WF G g.nsyms) (K : List Nat) (hK : K.Pairwise (· < ·))
    (hlt : ∀ k ∈ K, g.item k < (g.nsyms : Int)) :
    (closure g (setFirstDerives g) K).Pairwise (· < ·) ∧
    ∀ p, p ∈ closure g (setFirstDerives g) K ↔
      (p ∈ K ∨ ∃ i, Needed g G K i ∧ p = g.rhs i) := by
  obtain ⟨hl, hr⟩ := ruleset_spec hp hwf K hlt
  have hneed : ∀ i, Needed g G K i → ∃ r, i = r + 2 ∧ r < G.rules.length := by
    rintro i ⟨k, hk, A, B, r, α, -, -, -, rfl, h⟩
    exact ⟨r, rfl, (List.getElem?_eq_some_iff.mp h).1⟩
  have := closure_merge g (rulesetOf g (setFirstDerives g) K) K hK (by
    intro a b hab ha hb
    rw [hr] at ha hb
    obtain ⟨r, rfl, h1⟩ := hneed a ha
    obtain ⟨r', rfl, h2⟩ := hneed b hb
    exact rhs_lt hp (by omega) (by omega)) (64 * wordsize g.nrules)
  rw [closure_eq_loop]
  refine ⟨this.1, fun p => ?_⟩
  rw [this.2 p]
  refine or_congr Iff.rfl ?_
  constructor
  · rintro ⟨i, -, h, rfl⟩
    exact ⟨i, (hr i).mp h, rfl⟩
  · rintro ⟨i, h, rfl⟩
    refine ⟨i, ?_, (hr i).mpr h, rfl⟩
    obtain ⟨r, rfl, h1⟩ := hneed i h
    have := hp.nrules
    unfold wordsize
    omega

end Verif.Byacc
