import Verif.Lemon.States
import Verif.Spec.LR0
import Verif.Proofs.LemonFirst
/-
`Configlist_closure` computes the closure, spontaneous lookaheads and propagation links.
-/
set_option autoImplicit false
namespace Verif.Lemon
open Verif.Spec

variable {g : Gram} {fs : FirstSets}

/-- the first sets are right -/
structure FsOK (g : Gram) (fs : FirstSets) : Prop where
  lam : ∀ X, fs.lambda.getD X false = true ↔ Null g.cfg X
  fam : Fam g.nsym g.setSize fs.first
  beg : ∀ β t, Begins g fs.lambda fs.first β t ↔ Fst g.cfg β t

theorem fsOK_of_firstWith (wf : g.WF) (hn : g.rules.length < 2 ^ 32) {n : Nat} (h : g.nsym * g.setSize < n) :
    ∃ fs, firstWith g n = some fs ∧ FsOK g fs := by
  have hk : 1 ≤ g.setSize := by unfold Gram.setSize; omega
  obtain ⟨lam, h1, _, h3⟩ := findLambda_spec wf hn (fuel := n)
    (Nat.lt_of_le_of_lt (Nat.le_mul_of_pos_right _ hk) h)
  obtain ⟨F, h4, h5, _, h6⟩ := findFirst_spec wf hn h3 (fuel := n) h
  exact ⟨⟨lam, F⟩, by simp [firstWith, h1, h4], ⟨h3, h5, h6⟩⟩

theorem doWhile_mono {σ : Type} {pass : σ → σ × Bool} : ∀ {n m : Nat} {s s' : σ}, n ≤ m →
    doWhile pass n s = some s' → doWhile pass m s = some s' := by
  intro n
  induction n with
  | zero => intro m s s' _ h; simp [doWhile] at h
  | succ n ih =>
    intro m s s' hm h
    obtain ⟨m', rfl⟩ : ∃ k, m = k + 1 := ⟨m - 1, by omega⟩
    unfold doWhile at h ⊢
    simp only at h ⊢
    split at h
    · next hp => rw [if_pos hp]; exact ih (by omega) h
    · next hp => rw [if_neg hp]; exact h

/-- more fuel does not change the result of `firstWith` -/
theorem firstWith_mono {n m : Nat} (h : n ≤ m) {fs : FirstSets} (hf : firstWith g n = some fs) :
    firstWith g m = some fs := by
  unfold firstWith at hf ⊢
  rcases h1 : findLambda g n with _ | lam
  · rw [h1] at hf; simp at hf
  · rw [h1] at hf
    have h1' : findLambda g m = some lam := doWhile_mono h h1
    rw [h1']
    simp only [Option.bind_some] at hf ⊢
    rcases h2 : findFirst g lam n with _ | F
    · rw [h2] at hf; simp at hf
    · rw [h2] at hf
      have h2' : findFirst g lam m = some F := doWhile_mono h h2
      rw [h2']; exact hf

theorem fsOK_of_some (wf : g.WF) (hn : g.rules.length < 2 ^ 32) {n : Nat} {fs : FirstSets}
    (h : firstWith g n = some fs) : FsOK g fs := by
  obtain ⟨fs', h1, h2⟩ := fsOK_of_firstWith wf hn (n := max n (g.nsym * g.setSize + 1)) (by omega)
  have := firstWith_mono (Nat.le_max_left n (g.nsym * g.setSize + 1)) h
  rw [h1] at this
  simp only [Option.some.injEq] at this
  rw [← this]; exact h2

theorem followScan_spec (wf : g.WF) (ok : FsOK g fs) : ∀ (β : List Nat), (∀ X ∈ β, X < g.nsym) →
    ∀ s : TSet, s.length = g.setSize →
    (followScan g fs β s).1.length = g.setSize ∧
    (∀ t, setFind (followScan g fs β s).1 t = true ↔ setFind s t = true ∨ Fst g.cfg β t) := by
  intro β
  induction β with
  | nil =>
    intro _ s hs
    refine ⟨hs, fun t => ?_⟩
    simp only [followScan]
    constructor
    · exact Or.inl
    · rintro (h | h)
      · exact h
      · cases h
  | cons X β ih =>
    intro hlt s hs
    have hrest := ih fun Y hY => hlt Y (by simp [hY])
    unfold followScan
    by_cases hT : g.isTerm X = true
    · have hX : X < g.nterm := by simpa [Gram.isTerm] using hT
      simp only [hT, if_true]
      refine ⟨by rw [setAdd_length, hs], fun t => ?_⟩
      rw [setFind_add (by rw [hs]; unfold Gram.setSize; omega), ← ok.beg]
      constructor
      · rintro (h | rfl)
        · exact Or.inl h
        · exact Or.inr (Or.inl (Or.inl ⟨hT, rfl⟩))
      · rintro (h | (⟨_, rfl⟩ | ⟨h, _⟩ | ⟨h, _⟩) | ⟨h, _⟩)
        · exact Or.inl h
        · exact Or.inr rfl
        · simp [Gram.isMT] at h; omega
        · have : g.nlow ≤ X := by simpa [Gram.isNT] using h
          unfold Gram.nlow at this; omega
        · have := null_nlow wf ((ok.lam X).mp h)
          unfold Gram.nlow at this; omega
    · simp only [hT, if_false, Bool.false_eq_true]
      by_cases hM : g.isMT X = true
      · simp only [hM, if_true]
        have hMX : g.nterm ≤ X ∧ X < g.nlow := by simpa [Gram.isMT] using hM
        have key : ∀ (l : List Nat), (∀ t ∈ l, t < g.nterm) → ∀ s : TSet, s.length = g.setSize →
            (l.foldl (fun s t => (setAdd s t).1) s).length = g.setSize ∧
            ∀ t, setFind (l.foldl (fun s t => (setAdd s t).1) s) t = true ↔ setFind s t = true ∨ t ∈ l := by
          intro l
          induction l with
          | nil => intro _ s hs; simp [hs]
          | cons a l ihl =>
            intro hl s hs
            have ha := hl a (by simp)
            obtain ⟨k1, k2⟩ := ihl (fun t ht => hl t (by simp [ht])) (setAdd s a).1 (by rw [setAdd_length, hs])
            refine ⟨k1, fun t => ?_⟩
            rw [List.foldl_cons, k2 t, setFind_add (by rw [hs]; unfold Gram.setSize; omega), List.mem_cons, or_assoc]
        obtain ⟨k1, k2⟩ := key (g.subsym X) (fun t ht => subsym_lt wf ht) s hs
        refine ⟨k1, fun t => ?_⟩
        rw [k2 t, ← ok.beg]
        constructor
        · rintro (h | h)
          · exact Or.inl h
          · exact Or.inr (Or.inl (Or.inr (Or.inl ⟨hM, h⟩)))
        · rintro (h | (⟨h, _⟩ | ⟨_, h⟩ | ⟨h, _⟩) | ⟨h, _⟩)
          · exact Or.inl h
          · exact absurd h hT
          · exact Or.inr h
          · have : g.nlow ≤ X := by simpa [Gram.isNT] using h
            omega
          · have := null_nlow wf ((ok.lam X).mp h)
            omega
      · simp only [hM, if_false, Bool.false_eq_true]
        have hlen : (setUnion s (fs.first.getD X [])).1.length = g.setSize := by rw [setUnion_length, hs]
        have hX := hlt X (by simp)
        have hu : ∀ t, setFind (setUnion s (fs.first.getD X [])).1 t = true ↔
            setFind s t = true ∨ setFind (fs.first.getD X []) t = true :=
          setFind_union (by rw [hs, ok.fam.get hX])
        have hNT : g.isNT X = true := by
          unfold Gram.isNT; simp [Gram.isMT, Gram.isTerm] at hM hT ⊢; omega
        have hb : ∀ t, Begins g fs.lambda fs.first (X :: β) t ↔ setFind (fs.first.getD X []) t = true ∨
            (fs.lambda.getD X false = true ∧ Begins g fs.lambda fs.first β t) := by
          intro t
          constructor
          · rintro ((⟨h, _⟩ | ⟨h, _⟩ | ⟨_, h⟩) | h)
            · exact absurd h hT
            · exact absurd h hM
            · exact Or.inl h
            · exact Or.inr h
          · rintro (h | h)
            · exact Or.inl (Or.inr (Or.inr ⟨hNT, h⟩))
            · exact Or.inr h
        by_cases hl : fs.lambda.getD X false = true
        · simp only [hl, Bool.true_eq_false, beq_iff_eq, if_false]
          obtain ⟨r1, r2⟩ := hrest _ hlen
          refine ⟨r1, fun t => ?_⟩
          rw [r2 t, hu t, ← ok.beg, ← ok.beg, hb t]
          simp only [hl, true_and, or_assoc]
        · simp only [Bool.eq_false_iff.mpr hl, beq_self_eq_true, if_true]
          refine ⟨hlen, fun t => ?_⟩
          rw [hu t, ← ok.beg, hb t]
          simp only [hl, false_and, or_false, Bool.false_eq_true]

theorem followScan_end (wf : g.WF) (ok : FsOK g fs) : ∀ (β : List Nat), ∀ s : TSet,
    ((followScan g fs β s).2 = true ↔ ∀ X ∈ β, Null g.cfg X) := by
  intro β
  induction β with
  | nil => intro s; simp [followScan]
  | cons X β ih =>
    intro s
    have hn : ∀ h : Null g.cfg X, g.nlow ≤ X := fun h => (null_nlow wf h).1
    unfold followScan
    by_cases hT : g.isTerm X = true
    · simp only [hT, if_true, Bool.false_eq_true, false_iff]
      intro h
      have h1 := hn (h X (by simp))
      have hX : X < g.nterm := by simpa [Gram.isTerm] using hT
      unfold Gram.nlow at h1; omega
    · simp only [hT, if_false, Bool.false_eq_true]
      by_cases hM : g.isMT X = true
      · simp only [hM, if_true, Bool.false_eq_true, false_iff]
        intro h
        have h1 := hn (h X (by simp))
        have hMX : g.nterm ≤ X ∧ X < g.nlow := by simpa [Gram.isMT] using hM
        omega
      · simp only [hM, if_false, Bool.false_eq_true]
        by_cases hl : fs.lambda.getD X false = true
        · simp only [hl, Bool.true_eq_false, beq_iff_eq, if_false]
          rw [ih]
          simp [(ok.lam X).mp hl]
        · simp only [Bool.eq_false_iff.mpr hl, beq_self_eq_true, if_true, Bool.false_eq_true, false_iff]
          intro h
          exact hl ((ok.lam X).mpr (h X (by simp)))

/-! ### the grammar seen through items -/

theorem ext_rule {r A : Nat} {α : List Nat} : g.ext.rules[r]? = some (A, α) ↔
    r < g.rules.length ∧ (g.rule r).lhs = A ∧ (g.rule r).rhs = α := by
  unfold Gram.ext Gram.rule
  simp only [List.getElem?_map, Option.map_eq_some_iff, Prod.mk.injEq, List.getD_eq_getElem?_getD]
  constructor
  · rintro ⟨x, hx, h1, h2⟩
    refine ⟨(List.getElem?_eq_some_iff.mp hx).1, ?_⟩
    rw [hx]; exact ⟨h1, h2⟩
  · rintro ⟨hr, h1, h2⟩
    refine ⟨g.rules[r], List.getElem?_eq_getElem hr, ?_⟩
    rw [List.getElem?_eq_getElem hr] at h1 h2
    exact ⟨h1, h2⟩

theorem rule_lt {r : Nat} {d X : Nat} (h : (g.rule r).rhs[d]? = some X) : r < g.rules.length := by
  by_contra hc
  have hr : g.rule r = ⟨0, [], none, false⟩ := by
    unfold Gram.rule
    rw [List.getD_eq_getElem?_getD, List.getElem?_eq_none (by omega)]; rfl
  rw [hr] at h; simp at h

theorem rule_mem {r : Nat} (h : r < g.rules.length) : g.rule r ∈ g.rules := by
  unfold Gram.rule
  rw [List.getD_eq_getElem?_getD, List.getElem?_eq_getElem h]
  exact List.getElem_mem h

theorem dotBefore_iff {r d X : Nat} : DotBefore g.ext r d X ↔ g.next (r, d) = some X := by
  unfold DotBefore Gram.next
  constructor
  · rintro ⟨A, α, hr, hX⟩
    obtain ⟨_, _, h3⟩ := ext_rule.mp hr
    rw [h3]; exact hX
  · intro h
    exact ⟨_, _, ext_rule.mpr ⟨rule_lt h, rfl, rfl⟩, h⟩

theorem mem_rulesOf {A r : Nat} : r ∈ g.rulesOf A ↔ r < g.rules.length ∧ (g.rule r).lhs = A := by
  simp [Gram.rulesOf]

theorem rest_lt (wf : g.WF) (it : Item) : ∀ X ∈ g.rest it, X < g.nsym := by
  intro X hX
  unfold Gram.rest at hX
  have h' := List.mem_of_mem_drop hX
  obtain ⟨i, hi, rfl⟩ := List.getElem_of_mem h'
  have hr := rule_lt (List.getElem?_eq_getElem hi)
  exact wf.rhs _ (rule_mem hr) _ h'

/-- the closure adds rule `r` because of configuration `p` -/
def Edge (g : Gram) (p : Item) (r : Nat) : Prop := r < g.rules.length ∧ g.next p = some (g.rule r).lhs

/-! ### the invariant of the closure loop -/

/-- what is true after the additions `E` -/
structure ClosInv (g : Gram) (b : List Config) (E : List (Item × Nat)) (cs : List Config) : Prop where
  nodup : (cs.map Config.item).Nodup
  mem : ∀ it, it ∈ cs.map Config.item ↔ it ∈ b.map Config.item ∨ ∃ p r, (p, r) ∈ E ∧ it = (r, 0)
  len : ∀ c ∈ cs, c.fws.length = g.setSize
  fws : ∀ c ∈ cs, ∀ t, setFind c.fws t = true ↔ (∃ c0 ∈ b, c0.item = c.item ∧ setFind c0.fws t = true) ∨
    ∃ p r, (p, r) ∈ E ∧ c.item = (r, 0) ∧ Fst g.cfg (g.rest p) t
  fplp : ∀ c ∈ cs, ∀ it, it ∈ c.fplp ↔ ∃ r, (c.item, r) ∈ E ∧ it = (r, 0) ∧ ∀ X ∈ g.rest c.item, Null g.cfg X
  src : ∀ p r, (p, r) ∈ E → p ∈ cs.map Config.item

theorem configAdd_items (cs : List Config) (it : Item) :
    (configAdd g cs it).map Config.item = if it ∈ cs.map Config.item then cs.map Config.item
      else cs.map Config.item ++ [it] := by
  unfold configAdd
  by_cases h : it ∈ cs.map Config.item
  · rw [if_pos h, if_pos]
    obtain ⟨c, hc, rfl⟩ := List.mem_map.mp h
    exact List.any_eq_true.mpr ⟨c, hc, by simp⟩
  · rw [if_neg h, if_neg]
    · simp [newConfig]
    · intro h'
      obtain ⟨c, hc, hc'⟩ := List.any_eq_true.mp h'
      exact h (List.mem_map.mpr ⟨c, hc, by simpa using hc'⟩)

theorem mem_configAdd {cs : List Config} {it : Item} {c : Config} : c ∈ configAdd g cs it ↔
    c ∈ cs ∨ (it ∉ cs.map Config.item ∧ c = newConfig g it) := by
  unfold configAdd
  by_cases h : it ∈ cs.map Config.item
  · rw [if_pos]
    · simp [h]
    · obtain ⟨c, hc, rfl⟩ := List.mem_map.mp h
      exact List.any_eq_true.mpr ⟨c, hc, by simp⟩
  · rw [if_neg]
    · simp [h]
    · intro h'
      obtain ⟨c, hc, hc'⟩ := List.any_eq_true.mp h'
      exact h (List.mem_map.mpr ⟨c, hc, by simpa using hc'⟩)

/-- the items after `closAdd` -/
theorem closAdd_items (it : Item) (cs : List Config) (r : Nat) :
    (closAdd g fs it cs r).map Config.item = (configAdd g cs (r, 0)).map Config.item := by
  unfold closAdd
  simp only
  split
  · rw [List.map_map, List.map_map]
    apply List.map_congr_left
    intro c _
    simp only [Function.comp]
    split <;> split <;> rfl
  · rw [List.map_map]
    apply List.map_congr_left
    intro c _
    simp only [Function.comp]
    split <;> rfl

theorem mem_closAdd {it : Item} {cs : List Config} {r : Nat} {c : Config} (h : c ∈ closAdd g fs it cs r) :
    ∃ c1 ∈ configAdd g cs (r, 0), c.item = c1.item ∧
      c.fws = (if c1.item = (r, 0) then (followScan g fs (g.rest it) c1.fws).1 else c1.fws) ∧
      c.fplp = (if (followScan g fs (g.rest it) []).2 = true ∧ c1.item = it then (r, 0) :: c1.fplp else c1.fplp) := by
  unfold closAdd at h
  simp only at h
  split at h
  · next hl =>
    obtain ⟨c2, h2, rfl⟩ := List.mem_map.mp h
    obtain ⟨c1, h1, rfl⟩ := List.mem_map.mp h2
    refine ⟨c1, h1, ?_⟩
    by_cases h3 : c1.item = (r, 0)
    · by_cases h4 : (r, 0) = it
      · simp [h3, h4, hl]
      · simp [h3, h4]
    · by_cases h4 : c1.item = it
      · subst h4; simp [h3, hl]
      · simp [h3, h4]
  · next hl =>
    obtain ⟨c1, h1, rfl⟩ := List.mem_map.mp h
    refine ⟨c1, h1, ?_⟩
    by_cases h3 : c1.item = (r, 0)
    · simp [h3, hl]
    · simp [h3, hl]

theorem setFind_setNew (k t : Nat) : setFind (setNew k) t = false := by
  unfold setFind setNew
  rw [List.getD_eq_getElem?_getD, List.getElem?_replicate]
  split <;> rfl

theorem closAdd_inv (wf : g.WF) (ok : FsOK g fs) {b cs : List Config} {E : List (Item × Nat)}
    (h : ClosInv g b E cs) {it : Item} (hit : it ∈ cs.map Config.item) (r : Nat) :
    ClosInv g b (E ++ [(it, r)]) (closAdd g fs it cs r) := by
  have hrest := rest_lt wf it
  have hend := followScan_end wf ok (g.rest it) []
  have hitems := (closAdd_items (g := g) (fs := fs) it cs r).trans (configAdd_items cs (r, 0))
  have hmem : ∀ x, x ∈ (closAdd g fs it cs r).map Config.item ↔ x ∈ cs.map Config.item ∨ x = (r, 0) := by
    intro x
    rw [hitems]
    split
    · next h' => constructor
                 · exact Or.inl
                 · rintro (h | rfl)
                   · exact h
                   · exact h'
    · simp
  refine ⟨?_, ?_, ?_, ?_, ?_, ?_⟩
  · rw [hitems]
    split
    · exact h.nodup
    · next hr =>
      exact List.nodup_append.mpr ⟨h.nodup, by simp, by
        intro a ha c hc
        simp only [List.mem_singleton] at hc
        rintro rfl; subst hc; exact hr ha⟩
  · intro x
    rw [hmem, h.mem x]
    simp only [List.mem_append, List.mem_singleton, Prod.mk.injEq]
    constructor
    · rintro ((h | ⟨p, r', h, rfl⟩) | rfl)
      · exact Or.inl h
      · exact Or.inr ⟨p, r', Or.inl h, rfl⟩
      · exact Or.inr ⟨it, r, Or.inr ⟨rfl, rfl⟩, rfl⟩
    · rintro (h | ⟨p, r', h | ⟨rfl, rfl⟩, rfl⟩)
      · exact Or.inl (Or.inl h)
      · exact Or.inl (Or.inr ⟨p, r', h, rfl⟩)
      · exact Or.inr rfl
  · intro c hc
    obtain ⟨c1, h1, _, h3, _⟩ := mem_closAdd hc
    have hl : c1.fws.length = g.setSize := by
      rcases mem_configAdd.mp h1 with h1 | ⟨_, rfl⟩
      · exact h.len c1 h1
      · simp [newConfig, setNew]
    rw [h3]
    split
    · exact (followScan_spec wf ok _ hrest _ hl).1
    · exact hl
  · intro c hc t
    obtain ⟨c1, h1, h2, h3, _⟩ := mem_closAdd hc
    have hl : c1.fws.length = g.setSize := by
      rcases mem_configAdd.mp h1 with h1 | ⟨_, rfl⟩
      · exact h.len c1 h1
      · simp [newConfig, setNew]
    have hold : setFind c1.fws t = true ↔ (∃ c0 ∈ b, c0.item = c1.item ∧ setFind c0.fws t = true) ∨
        ∃ p r, (p, r) ∈ E ∧ c1.item = (r, 0) ∧ Fst g.cfg (g.rest p) t := by
      rcases mem_configAdd.mp h1 with h1 | ⟨hnot, rfl⟩
      · exact h.fws c1 h1 t
      · constructor
        · intro h; simp [newConfig, setFind_setNew] at h
        · rintro (⟨c0, hc0, he, _⟩ | ⟨p, r', hE, he, _⟩)
          · exact absurd ((h.mem (r, 0)).mpr (Or.inl (List.mem_map.mpr ⟨c0, hc0, he⟩))) hnot
          · exact absurd ((h.mem (r, 0)).mpr (Or.inr ⟨p, r', hE, he⟩)) hnot
    have hE : (∃ p r', (p, r') ∈ E ++ [(it, r)] ∧ c1.item = (r', 0) ∧ Fst g.cfg (g.rest p) t) ↔
        (∃ p r', (p, r') ∈ E ∧ c1.item = (r', 0) ∧ Fst g.cfg (g.rest p) t) ∨
          (c1.item = (r, 0) ∧ Fst g.cfg (g.rest it) t) := by
      simp only [List.mem_append, List.mem_singleton, Prod.mk.injEq]
      constructor
      · rintro ⟨p, r', h | ⟨rfl, rfl⟩, h1, h2⟩
        · exact Or.inl ⟨p, r', h, h1, h2⟩
        · exact Or.inr ⟨h1, h2⟩
      · rintro (⟨p, r', h, h1, h2⟩ | ⟨h1, h2⟩)
        · exact ⟨p, r', Or.inl h, h1, h2⟩
        · exact ⟨it, r, Or.inr ⟨rfl, rfl⟩, h1, h2⟩
    rw [h2, hE, ← or_assoc, ← hold, h3]
    split
    · next he => rw [(followScan_spec wf ok _ hrest _ hl).2 t]; simp [he]
    · next he => simp [he]
  · intro c hc x
    obtain ⟨c1, h1, h2, _, h4⟩ := mem_closAdd hc
    have hold : x ∈ c1.fplp ↔ ∃ r, (c1.item, r) ∈ E ∧ x = (r, 0) ∧ ∀ X ∈ g.rest c1.item, Null g.cfg X := by
      rcases mem_configAdd.mp h1 with h1 | ⟨hnot, rfl⟩
      · exact h.fplp c1 h1 x
      · constructor
        · intro h; simp [newConfig] at h
        · rintro ⟨r', hE, _⟩
          exact absurd (h.src _ _ hE) hnot
    rw [h4, h2]
    simp only [List.mem_append, List.mem_singleton, Prod.mk.injEq]
    split
    · next hc =>
      obtain ⟨hc1, rfl⟩ := hc
      simp only [List.mem_cons, hold]
      constructor
      · rintro (rfl | ⟨r', h1, rfl, h3⟩)
        · exact ⟨r, Or.inr ⟨trivial, rfl⟩, rfl, hend.mp hc1⟩
        · exact ⟨r', Or.inl h1, rfl, h3⟩
      · rintro ⟨r', h1 | ⟨_, rfl⟩, rfl, h3⟩
        · exact Or.inr ⟨r', h1, rfl, h3⟩
        · exact Or.inl rfl
    · next hno =>
      rw [hold]
      constructor
      · rintro ⟨r', h1, rfl, h3⟩
        exact ⟨r', Or.inl h1, rfl, h3⟩
      · rintro ⟨r', h1 | ⟨he, rfl⟩, rfl, h3⟩
        · exact ⟨r', h1, rfl, h3⟩
        · exfalso
          apply hno
          refine ⟨hend.mpr ?_, he⟩
          rw [← he]; exact h3
  · intro p r' hp
    rw [hmem]
    simp only [List.mem_append, List.mem_singleton, Prod.mk.injEq] at hp
    rcases hp with hp | ⟨rfl, rfl⟩
    · exact Or.inl (h.src p r' hp)
    · exact Or.inl hit

theorem closAdd_prefix (it : Item) (cs : List Config) (r : Nat) :
    cs.map Config.item <+: (closAdd g fs it cs r).map Config.item := by
  rw [closAdd_items, configAdd_items]
  split
  · exact List.prefix_rfl
  · exact List.prefix_append _ _

theorem closAdds_inv (wf : g.WF) (ok : FsOK g fs) {b : List Config} {it : Item} : ∀ (rs : List Nat) (cs : List Config)
    (E : List (Item × Nat)), ClosInv g b E cs → it ∈ cs.map Config.item →
    ClosInv g b (E ++ rs.map fun r => (it, r)) (rs.foldl (closAdd g fs it) cs) ∧
    cs.map Config.item <+: (rs.foldl (closAdd g fs it) cs).map Config.item := by
  intro rs
  induction rs with
  | nil => intro cs E h _; simpa using h
  | cons r rs ih =>
    intro cs E h hit
    have h1 := closAdd_inv wf ok h hit r
    have hp := closAdd_prefix (g := g) (fs := fs) it cs r
    obtain ⟨h2, h3⟩ := ih _ _ h1 (hp.subset hit)
    refine ⟨?_, hp.trans h3⟩
    simpa using h2

theorem closStep_inv (wf : g.WF) (ok : FsOK g fs) {b cs : List Config} {E : List (Item × Nat)}
    (h : ClosInv g b E cs) {it : Item} (hit : it ∈ cs.map Config.item) :
    ∃ E', ClosInv g b E' (closStep g fs cs it) ∧ (∀ p r, (p, r) ∈ E' ↔ (p, r) ∈ E ∨ (p = it ∧ Edge g it r)) ∧
      cs.map Config.item <+: (closStep g fs cs it).map Config.item := by
  unfold closStep
  cases hnx : g.next it with
  | none =>
    refine ⟨E, h, ?_, List.prefix_rfl⟩
    intro p r
    simp [Edge, hnx]
  | some sp =>
    simp only
    split
    · next hNT =>
      obtain ⟨h1, h2⟩ := closAdds_inv wf ok (g.rulesOf sp) cs E h hit
      refine ⟨_, h1, ?_, h2⟩
      intro p r
      simp only [List.mem_append, List.mem_map, Prod.mk.injEq, mem_rulesOf, Edge, hnx, Option.some.injEq]
      constructor
      · rintro (h | ⟨r', ⟨h1, h2⟩, rfl, rfl⟩)
        · exact Or.inl h
        · exact Or.inr ⟨rfl, h1, h2.symm⟩
      · rintro (h | ⟨rfl, h1, h2⟩)
        · exact Or.inl h
        · exact Or.inr ⟨r, ⟨h1, h2.symm⟩, rfl, rfl⟩
    · next hNT =>
      refine ⟨E, h, ?_, List.prefix_rfl⟩
      intro p r
      constructor
      · exact Or.inl
      · rintro (h | ⟨rfl, h1, h2⟩)
        · exact h
        · exfalso
          rw [hnx] at h2
          simp only [Option.some.injEq] at h2
          apply hNT
          rw [h2]
          simpa [Gram.isNT] using (wf.lhs _ (rule_mem h1)).1

theorem closInv_length {b cs : List Config} {E : List (Item × Nat)} (h : ClosInv g b E cs)
    (hE : ∀ p r, (p, r) ∈ E → r < g.rules.length) : cs.length ≤ b.length + g.rules.length := by
  have : cs.map Config.item ⊆ b.map Config.item ++ (List.range g.rules.length).map fun r => (r, 0) := by
    intro it hit
    rcases (h.mem it).mp hit with h1 | ⟨p, r, h1, rfl⟩
    · exact List.mem_append_left _ h1
    · exact List.mem_append_right _ (List.mem_map.mpr ⟨r, List.mem_range.mpr (hE p r h1), rfl⟩)
  have := (List.subperm_of_subset h.nodup this).length_le
  simpa using this

/-- what the loop has done when it is at position `i` -/
def LoopInv (g : Gram) (b : List Config) (i : Nat) (cs : List Config) : Prop :=
  (∃ E, ClosInv g b E cs ∧ ∀ p r, (p, r) ∈ E ↔ p ∈ (cs.map Config.item).take i ∧ Edge g p r) ∧
  ∀ it ∈ cs.map Config.item, Closed g.ext (fun r d => (r, d) ∈ b.map Config.item) it.1 it.2

theorem closLoop_spec (wf : g.WF) (ok : FsOK g fs) {b : List Config} : ∀ (fuel i : Nat) (cs : List Config),
    LoopInv g b i cs → i ≤ cs.length → b.length + g.rules.length < fuel + i →
    ∃ cs', closLoop g fs fuel i cs = some cs' ∧ LoopInv g b cs'.length cs' := by
  intro fuel
  induction fuel with
  | zero =>
    intro i cs ⟨⟨E, h, hE⟩, hC⟩ hi hf
    have := closInv_length h (fun p r hp => ((hE p r).mp hp).2.1)
    omega
  | succ n ih =>
    intro i cs ⟨⟨E, h, hE⟩, hC⟩ hi hf
    unfold closLoop
    rcases Nat.lt_or_ge i cs.length with hlt | hge
    · rw [List.getElem?_eq_getElem hlt]
      simp only
      have hit : cs[i].item ∈ cs.map Config.item := List.mem_map.mpr ⟨_, List.getElem_mem hlt, rfl⟩
      obtain ⟨E', h1, h2, h3⟩ := closStep_inv wf ok h hit
      have hlen := h3.length_le
      simp only [List.length_map] at hlen
      refine ih (i+1) _ ⟨⟨E', h1, ?_⟩, ?_⟩ (by omega) (by omega)
      rotate_left
      · intro x hx
        rcases (h1.mem x).mp hx with hx | ⟨p, r, hp, rfl⟩
        · exact .kern hx
        · have hpr : p ∈ cs.map Config.item ∧ Edge g p r := by
            rcases (h2 p r).mp hp with hp | ⟨rfl, he⟩
            · exact ⟨h.src p r hp, ((hE p r).mp hp).2⟩
            · exact ⟨hit, he⟩
          refine .step (hC p hpr.1) (dotBefore_iff.mpr hpr.2.2) (ext_rule.mpr ⟨hpr.2.1, rfl, rfl⟩)
      intro p r
      obtain ⟨tl, htl⟩ := h3
      have ht : ((closStep g fs cs cs[i].item).map Config.item).take (i+1) =
          (cs.map Config.item).take i ++ [cs[i].item] := by
        rw [← htl, List.take_append_of_le_length (by simp; omega), List.take_succ_eq_append_getElem (by simpa using hlt)]
        simp
      rw [h2, hE, ht]
      simp only [List.mem_append, List.mem_singleton]
      constructor
      · rintro (⟨a, b⟩ | ⟨rfl, b⟩)
        · exact ⟨Or.inl a, b⟩
        · exact ⟨Or.inr rfl, b⟩
      · rintro ⟨a | rfl, b⟩
        · exact Or.inl ⟨a, b⟩
        · exact Or.inr ⟨rfl, b⟩
    · rw [List.getElem?_eq_none hge]
      have : i = cs.length := by omega
      exact ⟨cs, rfl, ⟨E, h, this ▸ hE⟩, hC⟩

/-- what the closure of a list of configurations is -/
structure IsClosure (g : Gram) (b cs : List Config) : Prop where
  nodup : (cs.map Config.item).Nodup
  mem : ∀ r d, (r, d) ∈ cs.map Config.item ↔ Closed g.ext (fun r d => (r, d) ∈ b.map Config.item) r d
  len : ∀ c ∈ cs, c.fws.length = g.setSize
  fws : ∀ c ∈ cs, ∀ t, setFind c.fws t = true ↔ (∃ c0 ∈ b, c0.item = c.item ∧ setFind c0.fws t = true) ∨
    ∃ p r, p ∈ cs.map Config.item ∧ Edge g p r ∧ c.item = (r, 0) ∧ Fst g.cfg (g.rest p) t
  fplp : ∀ c ∈ cs, ∀ it, it ∈ c.fplp ↔ ∃ r, Edge g c.item r ∧ it = (r, 0) ∧ ∀ X ∈ g.rest c.item, Null g.cfg X

theorem closure_spec (wf : g.WF) (ok : FsOK g fs) {b : List Config} (hnd : (b.map Config.item).Nodup)
    (hlen : ∀ c ∈ b, c.fws.length = g.setSize) (hfp : ∀ c ∈ b, c.fplp = []) :
    ∃ cs, closure g fs b = some cs ∧ IsClosure g b cs ∧ cs.length ≤ b.length + g.rules.length := by
  have h0 : LoopInv g b 0 b := by
    refine ⟨⟨[], ⟨hnd, by simp, hlen, ?_, ?_, by simp⟩, by simp⟩, fun it hit => .kern hit⟩
    · intro c hc t
      constructor
      · intro h; exact Or.inl ⟨c, hc, rfl, h⟩
      · rintro (⟨c0, hc0, he, h⟩ | ⟨p, r, h, _⟩)
        · have := List.inj_on_of_nodup_map hnd hc0 hc he
          rw [← this]; exact h
        · simp at h
    · intro c hc it
      rw [hfp c hc]; simp
  obtain ⟨cs, h1, ⟨E, h2, hE⟩, hC⟩ := closLoop_spec wf ok (b.length + g.rules.length + 1) 0 b h0 (by omega) (by omega)
  have hE' : ∀ p r, (p, r) ∈ E ↔ p ∈ cs.map Config.item ∧ Edge g p r := by
    intro p r
    rw [hE, List.take_of_length_le (by simp)]
  refine ⟨cs, h1, ⟨h2.nodup, ?_, h2.len, ?_, ?_⟩, closInv_length h2 (fun p r hp => ((hE' p r).mp hp).2.1)⟩
  · intro r d
    constructor
    · intro h; exact hC (r, d) h
    · intro h
      induction h with
      | kern h => exact (h2.mem _).mpr (Or.inl h)
      | @step r d r' B η _ hB hr' ih =>
        obtain ⟨e1, e2, _⟩ := ext_rule.mp hr'
        exact (h2.mem _).mpr (Or.inr ⟨(r, d), r', (hE' _ _).mpr ⟨ih, e1, by rw [dotBefore_iff.mp hB, e2]⟩, rfl⟩)
  · intro c hc t
    rw [h2.fws c hc t]
    constructor
    · rintro (h | ⟨p, r, h, h'⟩)
      · exact Or.inl h
      · exact Or.inr ⟨p, r, ((hE' p r).mp h).1, ((hE' p r).mp h).2, h'⟩
    · rintro (h | ⟨p, r, h, h', h''⟩)
      · exact Or.inl h
      · exact Or.inr ⟨p, r, (hE' p r).mpr ⟨h, h'⟩, h''⟩
  · intro c hc it
    rw [h2.fplp c hc it]
    have hci : c.item ∈ cs.map Config.item := List.mem_map.mpr ⟨c, hc, rfl⟩
    constructor
    · rintro ⟨r, h, h'⟩; exact ⟨r, ((hE' _ r).mp h).2, h'⟩
    · rintro ⟨r, h, h'⟩; exact ⟨r, (hE' _ r).mpr ⟨hci, h⟩, h'⟩

end Verif.Lemon
