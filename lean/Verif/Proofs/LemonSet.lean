import Verif.Lemon.Set
import Verif.Proofs.Loop
import Mathlib.Data.List.Basic
/-
Facts about sets, families of sets, and loops that run until nothing changes.
-/
set_option autoImplicit false
namespace Verif.Lemon

theorem setAdd_length (s : TSet) (e : Nat) : (setAdd s e).1.length = s.length := by simp [setAdd]

theorem setFind_add {s : TSet} {e : Nat} (he : e < s.length) (x : Nat) :
    setFind (setAdd s e).1 x = true ↔ setFind s x = true ∨ x = e := by
  unfold setFind setAdd
  simp only [List.getD_eq_getElem?_getD, List.getElem?_set]
  by_cases h : e = x
  · subst h; simp [he]
  · simp [h]; intro h'; exact absurd h'.symm h

theorem setUnion_length : ∀ a b : TSet, (setUnion a b).1.length = a.length := by
  intro a
  induction a with
  | nil => intro b; simp [setUnion]
  | cons x a ih =>
    intro b
    cases b with
    | nil => simp [setUnion]
    | cons y b =>
      simp only [setUnion]
      split
      · simp [ih]
      · split <;> simp [ih]

theorem setFind_union : ∀ {a b : TSet}, a.length = b.length → ∀ x : Nat,
    setFind (setUnion a b).1 x = true ↔ setFind a x = true ∨ setFind b x = true := by
  intro a
  induction a with
  | nil => intro b h x; cases b <;> simp_all [setUnion, setFind]
  | cons y a ih =>
    intro b h x
    cases b with
    | nil => simp at h
    | cons z b =>
      have hx := ih (by simpa using h) (x - 1)
      unfold setFind at *
      cases x with
      | zero => cases y <;> cases z <;> simp [setUnion]
      | succ x =>
        simp at hx
        cases y <;> cases z <;> simp [setUnion] <;> exact hx

/-- the number of elements -/
def card (s : TSet) : Nat := s.count true

theorem card_le (s : TSet) : card s ≤ s.length := List.count_le_length

theorem setAdd_cases {s : TSet} {e : Nat} (he : e < s.length) :
    setAdd s e = (s, false) ∨ ((setAdd s e).2 = true ∧ card s < card (setAdd s e).1) := by
  induction s generalizing e with
  | nil => simp at he
  | cons x s ih =>
    cases e with
    | zero => cases x <;> simp [setAdd, setFind, card]
    | succ e =>
      rcases ih (e := e) (by simpa using he) with h | h
      · left; simp [setAdd, setFind] at h ⊢; exact h
      · right
        simp [setAdd, setFind, card, List.count_cons] at h ⊢; exact h

theorem setUnion_cases : ∀ {a b : TSet}, 
    (setUnion a b) = (a, false) ∨ ((setUnion a b).2 = true ∧ card a < card (setUnion a b).1) := by
  intro a
  induction a with
  | nil => intro b; simp [setUnion]
  | cons y a ih =>
    intro b
    cases b with
    | nil => simp [setUnion]
    | cons z b =>
      have hmono : card a ≤ card (setUnion a b).1 := by
        rcases ih (b := b) with h | h
        · rw [h]; exact Nat.le_refl _
        · omega
      cases y <;> cases z <;> simp only [setUnion] <;> simp
      · rcases ih (b := b) with h | h
        · left; rw [h]; simp
        · right; simpa [card, List.count_cons] using h
      · simp [card, List.count_cons] at hmono ⊢; omega
      · rcases ih (b := b) with h | h
        · left; rw [h]; simp
        · right; simpa [card, List.count_cons] using h
      · rcases ih (b := b) with h | h
        · left; rw [h]; simp
        · right; simpa [card, List.count_cons] using h

/-- a family of `n` sets of size `k` -/
def Fam (n k : Nat) (F : List TSet) : Prop := F.length = n ∧ ∀ s ∈ F, s.length = k

theorem Fam.get {n k : Nat} {F : List TSet} (h : Fam n k F) {i : Nat} (hi : i < n) : (F.getD i []).length = k := by
  have hi' : i < F.length := h.1 ▸ hi
  rw [List.getD_eq_getElem?_getD, List.getElem?_eq_getElem hi']
  exact h.2 _ (List.getElem_mem hi')

theorem Fam.set {n k : Nat} {F : List TSet} (h : Fam n k F) (i : Nat) {s : TSet} (hs : s.length = k) :
    Fam n k (F.set i s) := by
  refine ⟨by simp [h.1], ?_⟩
  intro x hx
  rcases List.mem_or_eq_of_mem_set hx with h' | h'
  · exact h.2 x h'
  · rw [h', hs]

/-- number of elements in all sets -/
def bits (F : List TSet) : Nat := (F.map card).sum

theorem bits_le {n k : Nat} {F : List TSet} (h : Fam n k F) : bits F ≤ n * k := by
  obtain ⟨h1, h2⟩ := h
  subst h1
  unfold bits
  induction F with
  | nil => simp
  | cons s F ih =>
    have := ih fun x hx => h2 x (by simp [hx])
    have h3 := card_le s
    rw [h2 s (by simp)] at h3
    simp [Nat.add_mul] at this ⊢; omega

theorem bits_set {F : List TSet} {i : Nat} (hi : i < F.length) {s : TSet} (h : card (F.getD i []) < card s) :
    bits F < bits (F.set i s) := by
  unfold bits
  induction F generalizing i with
  | nil => simp at hi
  | cons x F ih =>
    cases i with
    | zero => simp at h ⊢; exact h
    | succ i => 
      have := ih (i := i) (by simpa using hi) (by simpa using h)
      simpa using this

theorem set_getD_self {F : List TSet} {i : Nat} : F.set i (F.getD i []) = F := by
  induction F generalizing i with
  | nil => rfl
  | cons x F ih => cases i with
    | zero => simp
    | succ i => simpa using ih

theorem getD_set {F : List TSet} {i j : Nat} {s : TSet} (hi : i < F.length) :
    (F.set i s).getD j [] = if i = j then s else F.getD j [] := by
  simp only [List.getD_eq_getElem?_getD, List.getElem?_set]
  split
  · next h => subst h; simp [hi]
  · rfl

/-- Every application of `step` keeps `Inv`, and either changes nothing or sets the flag and
increases the measure. -/
def Grows {σ : Type} (Inv : σ → Prop) (μ : σ → Nat) (step : σ × Bool → σ × Bool) : Prop :=
  ∀ s p, Inv s → Inv (step (s, p)).1 ∧
    (step (s, p) = (s, p) ∨ ((step (s, p)).2 = true ∧ μ s < μ (step (s, p)).1))

section
variable {σ : Type} {Inv : σ → Prop} {μ : σ → Nat}

theorem Grows.id : Grows Inv μ (fun x => x) := fun _ _ h => ⟨h, Or.inl rfl⟩

theorem Grows.mono {step : σ × Bool → σ × Bool} (h : Grows Inv μ step) {s : σ} {p : Bool} (hs : Inv s) :
    μ s ≤ μ (step (s, p)).1 := by
  rcases (h s p hs).2 with h' | h'
  · rw [h']; exact Nat.le_refl _
  · omega

theorem Grows.flag {step : σ × Bool → σ × Bool} (h : Grows Inv μ step) {s : σ} {p : Bool} (hs : Inv s)
    (hf : (step (s, p)).2 = false) : step (s, p) = (s, p) ∧ p = false := by
  rcases (h s p hs).2 with h' | h'
  · refine ⟨h', ?_⟩; rw [h'] at hf; exact hf
  · rw [h'.1] at hf; cases hf

theorem Grows.comp {f f' : σ × Bool → σ × Bool} (h : Grows Inv μ f) (h' : Grows Inv μ f') :
    Grows Inv μ (fun x => f' (f x)) := by
  intro s p hs
  obtain ⟨a1, a2⟩ := h s p hs
  have a3 := h' (f (s, p)).1 (f (s, p)).2 a1
  refine ⟨a3.1, ?_⟩
  rcases a3.2 with e | ⟨e1, e2⟩
  · have e' : f' (f (s, p)) = f (s, p) := e
    simp only [e']; exact a2
  · right
    refine ⟨e1, ?_⟩
    have : μ s ≤ μ (f (s, p)).1 := h.mono hs
    exact Nat.lt_of_le_of_lt this e2

theorem Grows.comp_fix {f f' : σ × Bool → σ × Bool} (h : Grows Inv μ f) (h' : Grows Inv μ f') {s : σ} {p : Bool}
    (hs : Inv s) (hf : (f' (f (s, p))).2 = false) : p = false ∧ f (s, p) = (s, false) ∧ f' (s, p) = (s, false) := by
  obtain ⟨a1, _⟩ := h s p hs
  have e := h'.flag (s := (f (s, p)).1) (p := (f (s, p)).2) a1 (by simpa using hf)
  obtain ⟨e1, e2⟩ := h.flag hs e.2
  subst e2
  refine ⟨rfl, e1, ?_⟩
  have := e.1
  rw [e1] at this
  exact this

theorem Grows.fold {α : Type} {st : σ × Bool → α → σ × Bool} (l : List α)
    (h : ∀ a ∈ l, Grows Inv μ (fun x => st x a)) : Grows Inv μ (fun x => l.foldl st x) := by
  induction l with
  | nil => exact Grows.id
  | cons a l ih =>
    exact Grows.comp (f := fun x => st x a) (f' := fun x => l.foldl st x) (h a (by simp))
      (ih fun b hb => h b (by simp [hb]))

theorem Grows.fold_fix {α : Type} {st : σ × Bool → α → σ × Bool} {l : List α}
    (h : ∀ a ∈ l, Grows Inv μ (fun x => st x a)) {s : σ} {p : Bool} (hs : Inv s)
    (hf : (l.foldl st (s, p)).2 = false) :
    p = false ∧ l.foldl st (s, p) = (s, false) ∧ ∀ a ∈ l, st (s, false) a = (s, false) := by
  induction l with
  | nil => simp at hf ⊢; exact hf
  | cons a l ih =>
    have hg : Grows Inv μ (fun x => l.foldl st x) := Grows.fold l fun b hb => h b (by simp [hb])
    obtain ⟨h1, h2, h3⟩ := Grows.comp_fix (f := fun x => st x a) (f' := fun x => l.foldl st x) (h a (by simp)) hg hs hf
    subst h1
    obtain ⟨_, h5, h6⟩ := ih (fun b hb => h b (by simp [hb])) (by rw [h3])
    refine ⟨rfl, ?_, ?_⟩
    · rw [List.foldl_cons, h2]; exact h3
    · intro b hb
      rcases List.mem_cons.mp hb with rfl | hb
      · exact h2
      · exact h6 b hb

/-- A loop whose passes grow a bounded measure ends, in a state that a pass leaves alone. -/
theorem doWhile_spec {step : σ × Bool → σ × Bool} (h : Grows Inv μ step) {N : Nat} (hN : ∀ s, Inv s → μ s ≤ N) :
    ∀ (fuel : Nat) (s : σ), Inv s → N < fuel + μ s →
    ∃ s', doWhile (fun s => step (s, false)) fuel s = some s' ∧ Inv s' ∧ step (s', false) = (s', false) := by
  intro fuel
  induction fuel with
  | zero => intro s hs h'; have := hN s hs; omega
  | succ n ih =>
    intro s hs h'
    unfold doWhile
    simp only
    rcases (h s false hs).2 with e | ⟨e1, e2⟩
    · refine ⟨s, ?_, hs, e⟩; rw [e]; simp
    · rw [if_pos e1]
      exact ih _ (h s false hs).1 (by omega)

end

theorem addAt_fst (F : List TSet) (p : Bool) (i e : Nat) :
    (addAt (F, p) i e).1 = F.set i (setAdd (F.getD i []) e).1 := rfl

theorem unionAt_fst (F : List TSet) (p : Bool) (i : Nat) (s : TSet) :
    (unionAt (F, p) i s).1 = F.set i (setUnion (F.getD i []) s).1 := rfl

theorem addAt_fam {n k : Nat} {F : List TSet} (h : Fam n k F) {i : Nat} (hi : i < n) (p : Bool) (e : Nat) :
    Fam n k (addAt (F, p) i e).1 := by
  rw [addAt_fst]; exact h.set i (by rw [setAdd_length]; exact h.get hi)

theorem unionAt_fam {n k : Nat} {F : List TSet} (h : Fam n k F) {i : Nat} (hi : i < n) (p : Bool) (s : TSet) :
    Fam n k (unionAt (F, p) i s).1 := by
  rw [unionAt_fst]; exact h.set i (by rw [setUnion_length]; exact h.get hi)

theorem addAt_cases {n k : Nat} {F : List TSet} (h : Fam n k F) {i : Nat} (hi : i < n) (p : Bool) {e : Nat} (he : e < k) :
    addAt (F, p) i e = (F, p) ∨ ((addAt (F, p) i e).2 = true ∧ bits F < bits (addAt (F, p) i e).1) := by
  have hl := h.get hi
  rcases setAdd_cases (s := F.getD i []) (e := e) (by omega) with h' | ⟨h1, h2⟩
  · left; simp only [addAt, h', set_getD_self, Bool.or_false]
  · right
    refine ⟨by simp only [addAt, h1, Bool.or_true], ?_⟩
    rw [addAt_fst]; exact bits_set (by rw [h.1]; exact hi) h2

theorem unionAt_cases {n k : Nat} {F : List TSet} (h : Fam n k F) {i : Nat} (hi : i < n) (p : Bool) (s : TSet) :
    unionAt (F, p) i s = (F, p) ∨ ((unionAt (F, p) i s).2 = true ∧ bits F < bits (unionAt (F, p) i s).1) := by
  rcases setUnion_cases (a := F.getD i []) (b := s) with h' | ⟨h1, h2⟩
  · left; simp only [unionAt, h', set_getD_self, Bool.or_false]
  · right
    refine ⟨by simp only [unionAt, h1, Bool.or_true], ?_⟩
    rw [unionAt_fst]; exact bits_set (by rw [h.1]; exact hi) h2

theorem find_addAt {n k : Nat} {F : List TSet} (h : Fam n k F) {i : Nat} (hi : i < n) (p : Bool) {e : Nat} (he : e < k)
    (j x : Nat) : setFind ((addAt (F, p) i e).1.getD j []) x = true ↔
      setFind (F.getD j []) x = true ∨ (j = i ∧ x = e) := by
  rw [addAt_fst, getD_set (by rw [h.1]; exact hi)]
  by_cases hij : i = j
  · subst hij
    simp only [if_true, true_and]
    exact setFind_add (by rw [h.get hi]; exact he) x
  · simp [hij]; exact fun h _ => absurd h.symm hij

theorem find_unionAt {n k : Nat} {F : List TSet} (h : Fam n k F) {i : Nat} (hi : i < n) (p : Bool) {s : TSet}
    (hs : s.length = k) (j x : Nat) : setFind ((unionAt (F, p) i s).1.getD j []) x = true ↔
      setFind (F.getD j []) x = true ∨ (j = i ∧ setFind s x = true) := by
  rw [unionAt_fst, getD_set (by rw [h.1]; exact hi)]
  by_cases hij : i = j
  · subst hij
    simp only [if_true, true_and]
    exact setFind_union (by rw [h.get hi, hs]) x
  · simp [hij]; exact fun h _ => absurd h.symm hij

theorem fam_new (n k : Nat) : Fam n k (List.replicate n (setNew k)) := by
  refine ⟨by simp, ?_⟩
  intro s hs
  rw [List.eq_of_mem_replicate hs]; simp [setNew]

theorem find_new (n k i x : Nat) : setFind ((List.replicate n (setNew k)).getD i []) x = false := by
  unfold setFind setNew
  simp only [List.getD_eq_getElem?_getD, List.getElem?_replicate]
  split
  · simp only [Option.getD_some, List.getElem?_replicate]; split <;> rfl
  · rfl

end Verif.Lemon
