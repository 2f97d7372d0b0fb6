import Verif.Proofs.LemonPreproc
/-
Helper lemmas: `preprocess_input` works line by line.
-/
set_option autoImplicit false
namespace Verif.Lemon

/-! ### every text keeps its length and its line breaks -/

/-- a byte is kept, or is no line break and becomes a space -/
def KeptByte (c d : Nat) : Prop := d = c ∨ (c ≠ 10 ∧ d = 32)

theorem kept_refl (z : List Nat) : List.Forall₂ KeptByte z z := by
  induction z with
  | nil => exact .nil
  | cons c z ih => exact .cons (Or.inl rfl) ih

theorem kept_trans {x y z : List Nat} (h : List.Forall₂ KeptByte x y) : List.Forall₂ KeptByte y z →
    List.Forall₂ KeptByte x z := by
  induction h generalizing z with
  | nil => intro h; exact h
  | cons h1 _ ih =>
    intro h
    cases h with
    | cons h2 h3 =>
      refine .cons ?_ (ih h3)
      rcases h1 with rfl | ⟨a, rfl⟩
      · exact h2
      · rcases h2 with rfl | ⟨b, rfl⟩
        · exact Or.inr ⟨a, rfl⟩
        · exact Or.inr ⟨a, rfl⟩

theorem kept_append {a b c d : List Nat} (h : List.Forall₂ KeptByte a b) (h' : List.Forall₂ KeptByte c d) :
    List.Forall₂ KeptByte (a ++ c) (b ++ d) := by
  induction h with
  | nil => exact h'
  | cons h1 _ ih => exact .cons h1 ih

theorem kept_map (z : List Nat) : List.Forall₂ KeptByte z (z.map blankByte) := by
  induction z with
  | nil => exact .nil
  | cons c z ih =>
    refine .cons ?_ ih
    unfold blankByte
    split
    · rename_i h; exact Or.inl h.symm
    · rename_i h; exact Or.inr ⟨h, rfl⟩

theorem kept_blankHead (z : List Nat) : List.Forall₂ KeptByte z (blankHead z) := by
  induction z with
  | nil => exact .nil
  | cons c z ih =>
    rw [blankHead]
    split
    · exact kept_refl _
    · rename_i h; exact .cons (Or.inr ⟨h, rfl⟩) ih

theorem kept_blankLine (z : List Nat) (i : Nat) : List.Forall₂ KeptByte z (blankLine z i) := by
  have := kept_append (kept_refl (z.take i)) (kept_blankHead (z.drop i))
  rwa [List.take_append_drop] at this

theorem kept_blankRange (z : List Nat) (a b : Nat) (h : a ≤ b) : List.Forall₂ KeptByte z (blankRange z a b) := by
  have := kept_append (kept_append (kept_refl (z.take a)) (kept_map ((z.take b).drop a))) (kept_refl (z.drop b))
  have e : z.take a ++ (z.take b).drop a ++ z.drop b = z := by
    have e1 : z.take a = (z.take b).take a := by rw [List.take_take, Nat.min_eq_left h]
    rw [e1, List.take_append_drop, List.take_append_drop]
  rwa [e] at this

theorem ppStep_kept {p p' : PP} {i : Nat} (h : ppStep p i = .ok p') (hs : 0 < p.exclude → p.start ≤ i) :
    List.Forall₂ KeptByte p.z p'.z ∧ (0 < p'.exclude → p'.start ≤ i) := by
  unfold ppStep at h
  generalize hq : (if p.z.getD i 0 = 10 then { p with lineno := p.lineno + 1 } else p) = q at h
  have hz : p.z = q.z ∧ p.exclude = q.exclude ∧ p.start = q.start := by
    subst hq
    split <;> exact ⟨rfl, rfl, rfl⟩
  rw [hz.1]
  rw [hz.2.1, hz.2.2] at hs
  clear hq hz
  unfold ppDirective at h
  split at h
  · cases h
    exact ⟨kept_refl _, hs⟩
  · simp only at h
    split at h
    · cases h
      unfold ppEndif
      by_cases h0 : q.exclude = 0
      · simp only [h0, if_true]
        exact ⟨kept_blankLine _ _, by omega⟩
      · by_cases h1 : q.exclude = 1
        · simp only [h1]
          refine ⟨kept_trans (kept_blankRange _ _ _ (hs (by omega))) (kept_blankLine _ _), fun h => ?_⟩
          simp at h
        · simp only [h0, h1, if_false]
          exact ⟨kept_blankLine _ _, fun _ => hs (by omega)⟩
    · split at h
      · cases h
        unfold ppElse
        by_cases h0 : q.exclude = 0
        · simp only [h0]
          exact ⟨kept_blankLine _ _, fun _ => Nat.le_refl _⟩
        · by_cases h1 : q.exclude = 1
          · simp only [h1]
            refine ⟨kept_trans (kept_blankRange _ _ _ (hs (by omega))) (kept_blankLine _ _), fun h => ?_⟩
            simp at h
          · simp only [h0, h1, if_false]
            exact ⟨kept_blankLine _ _, fun _ => hs (by omega)⟩
      · split at h
        · unfold ppIf at h
          split at h
          · simp only at h
            split at h
            · cases h
            · rename_i r m hv
              cases h
              generalize (if ((q.z.drop i).takeWhile (fun c => !isSpace c)).length = 7 then r else !r) = x
              cases x with
              | true => exact ⟨kept_blankLine _ _, fun _ => Nat.le_refl _⟩
              | false => exact ⟨kept_blankLine _ _, fun h => by simp at h⟩
          · rename_i h0
            cases h
            exact ⟨kept_blankLine _ _, fun _ => hs (by omega)⟩
        · cases h
          exact ⟨kept_refl _, hs⟩

theorem ppLoop_kept : ∀ (n a : Nat) (p p' : PP), (List.range' a n).foldlM ppStep p = .ok p' →
    (0 < p.exclude → p.start ≤ a) → List.Forall₂ KeptByte p.z p'.z := by
  intro n
  induction n with
  | zero => intro a p p' h _; cases h; exact kept_refl _
  | succ n ih =>
    intro a p p' h hs
    rw [List.range'_succ, List.foldlM_cons] at h
    cases hq : ppStep p a with
    | error e => rw [hq] at h; cases h
    | ok q =>
      rw [hq] at h
      obtain ⟨h1, h2⟩ := ppStep_kept hq hs
      exact kept_trans h1 (ih (a + 1) q p' h fun h => Nat.le_succ_of_le (h2 h))

/-! ### one line -/

/-- `l` is a line in front of `R` -/
def Closed (l R : List Nat) : Prop := (∃ b, l = b ++ [10] ∧ 10 ∉ b) ∨ (10 ∉ l ∧ R = [])

theorem Closed.takeWhile {l R : List Nat} (h : Closed l R) (p : Nat → Bool) (hp : p 10 = false) :
    (l ++ R).takeWhile p = l.takeWhile p := by
  rcases h with ⟨b, rfl, _⟩ | ⟨_, rfl⟩
  · induction b with
    | nil => simp [hp]
    | cons c b ih => simp only [List.cons_append, List.takeWhile_cons] at ih ⊢; simp_all
  · rw [List.append_nil]

theorem Closed.prefix {l R kw : List Nat} (h : Closed l R) (hk : 10 ∉ kw) :
    kw.isPrefixOf (l ++ R) = kw.isPrefixOf l := by
  rcases h with ⟨b, rfl, _⟩ | ⟨_, rfl⟩
  · induction kw generalizing b with
    | nil => simp
    | cons k kw ih =>
      cases b with
      | nil =>
        have : k ≠ 10 := fun h => hk (by simp [h])
        have hb : (k == 10) = false := by simpa using this
        simp [List.isPrefixOf, hb]
      | cons c b =>
        simp only [List.cons_append, List.isPrefixOf]
        rw [ih (fun h => hk (by simp [h])) b (by simp_all)]
  · rw [List.append_nil]

theorem isPrefixOf_split {kw l : List Nat} (h : kw.isPrefixOf l = true) : ∃ t, l = kw ++ t := by
  obtain ⟨t, ht⟩ := List.isPrefixOf_iff_prefix.1 h
  exact ⟨t, ht.symm⟩

/-- the byte behind a keyword is on the same line -/
theorem Closed.next {l R kw : List Nat} (h : Closed l R) (hk : 10 ∉ kw) (hp : kw.isPrefixOf l = true) :
    (l ++ R).getD kw.length 0 = l.getD kw.length 0 := by
  rcases h with ⟨b, hb, _⟩ | ⟨_, rfl⟩
  · obtain ⟨t, rfl⟩ := isPrefixOf_split hp
    cases t with
    | nil =>
      exfalso
      rw [List.append_nil] at hb
      exact hk (by rw [hb]; simp)
    | cons c t => simp [List.getD]
  · rw [List.append_nil]

theorem Closed.blankHead {l R : List Nat} (h : Closed l R) : blankHead (l ++ R) = blanked l ++ R := by
  rcases h with ⟨b, rfl, hb⟩ | ⟨hl, rfl⟩
  · induction b with
    | nil => simp [Verif.Lemon.blankHead, blanked]
    | cons c b ih =>
      have hc : c ≠ 10 := fun h => hb (by simp [h])
      have := ih fun h => hb (by simp [h])
      simp only [List.cons_append, Verif.Lemon.blankHead, if_neg hc, blanked, List.map_cons] at this ⊢
      rw [this]
  · rw [List.append_nil, List.append_nil]
    induction l with
    | nil => rfl
    | cons c l ih =>
      have hc : c ≠ 10 := fun h => hl (by simp [h])
      have := ih fun h => hl (by simp [h])
      simp only [Verif.Lemon.blankHead, if_neg hc, blanked, List.map_cons] at this ⊢
      rw [this]

theorem blanked_byte (s : List Nat) : s.map blankByte = blanked s := rfl

theorem blanked_append (s t : List Nat) : blanked (s ++ t) = blanked s ++ blanked t := List.map_append ..

theorem blanked_blanked (s : List Nat) : blanked (blanked s) = blanked s := by
  unfold blanked
  rw [List.map_map]
  apply List.map_congr_left
  intro c _
  simp only [Function.comp]
  split <;> simp_all

theorem blanked_length (s : List Nat) : (blanked s).length = s.length := List.length_map ..

theorem blankRange_mid (a b c : List Nat) : blankRange (a ++ b ++ c) a.length (a ++ b).length = a ++ blanked b ++ c := by
  unfold blankRange
  rw [List.take_left, List.drop_left, List.drop_left, List.append_assoc a b c, List.take_left]
  rfl

theorem blankLine_mid {a l R : List Nat} (h : Closed l R) : blankLine (a ++ (l ++ R)) a.length = a ++ (blanked l ++ R) := by
  unfold blankLine
  rw [List.take_left, List.drop_left, h.blankHead]

/-- the state between two lines: what is settled, what waits for the end of an excluded part, how deep
the excluded conditionals nest, the current line, the line where the exclusion began -/
structure LS where
  out : List Nat
  pend : List Nat
  ex : Nat
  line : Nat
  startLine : Nat
  macros : Macros

def isEndLine (l : List Nat) : Bool := kwEndif.isPrefixOf l && isSpace (l.getD 6 0)
def isElseLine (l : List Nat) : Bool := kwElse.isPrefixOf l && isSpace (l.getD 5 0)
def isIfLine (l : List Nat) : Bool := kwIfdef.isPrefixOf l || kwIf.isPrefixOf l || kwIfndef.isPrefixOf l

/-- the condition of a line as the program sees it -/
def condText (l : List Nat) : List Nat :=
  (l.drop (l.takeWhile (fun c => !isSpace c)).length).takeWhile (· != 10)

def isNotLine (l : List Nat) : Prop := (l.takeWhile (fun c => !isSpace c)).length = 7

instance (l : List Nat) : Decidable (isNotLine l) := inferInstanceAs (Decidable (_ = 7))

/-- one line, but for the count of lines -/
def dispatch (s : LS) (l : List Nat) : Except PPError LS :=
  if isEndLine l then
    .ok (if s.ex = 0 then { s with out := s.out ++ blanked l }
    else if s.ex = 1 then { s with out := s.out ++ blanked s.pend ++ blanked l, pend := [], ex := 0 }
    else { s with pend := s.pend ++ blanked l, ex := s.ex - 1 })
  else if isElseLine l then
    .ok (if s.ex = 1 then { s with out := s.out ++ blanked s.pend ++ blanked l, pend := [], ex := 0 }
    else if s.ex = 0 then { s with pend := blanked l, ex := 1, startLine := s.line }
    else { s with pend := s.pend ++ blanked l })
  else if isIfLine l then
    if s.ex = 0 then
      match evalBool s.macros (condText l) with
      | .error e => .error (.syntax s.line (e + 1))
      | .ok (r, m) =>
        if (if isNotLine l then r else !r) then
          .ok { s with pend := blanked l, ex := 1, startLine := s.line, macros := m }
        else .ok { s with out := s.out ++ blanked l, macros := m }
    else .ok { s with pend := s.pend ++ blanked l, ex := s.ex + 1 }
  else .ok (if s.ex = 0 then { s with out := s.out ++ l } else { s with pend := s.pend ++ l })

/-- the program is in the state `s` in front of `R` -/
structure PPSim (s : LS) (p : PP) (R : List Nat) : Prop where
  z : p.z = s.out ++ s.pend ++ R
  ex : p.exclude = s.ex
  none : s.ex = 0 → s.pend = []
  start : 0 < s.ex → p.start = s.out.length
  line : p.lineno = s.line
  startLine : 0 < s.ex → p.startLine = s.startLine
  macros : p.macros = s.macros

theorem PPSim.place {s : LS} {p : PP} {R : List Nat} (h : PPSim s p R) : p.z = (s.out ++ s.pend) ++ R := h.z

/-- `%endif` -/
theorem endif_sim {s : LS} {p : PP} {l R : List Nat} (h : PPSim s p (l ++ R)) (hc : Closed l R) (hl : isEndLine l = true) :
    ∃ s', dispatch s l = .ok s' ∧ PPSim s' (ppEndif p (s.out ++ s.pend).length) R := by
  obtain ⟨hz, he, hn, hs, hline, hst, hm⟩ := h
  unfold dispatch
  rw [if_pos hl]
  refine ⟨_, rfl, ?_⟩
  unfold ppEndif
  by_cases h0 : s.ex = 0
  · have hp := hn h0
    rw [hp, List.append_nil] at hz
    simp only [he, h0, if_true, hp, List.append_nil]
    refine ⟨?_, rfl, fun _ => rfl, by simp, hline, by simp, hm⟩
    simp only [hz, blankLine_mid hc, hp, List.append_nil, List.append_assoc]
  · by_cases h1 : s.ex = 1
    · simp only [he, h1, if_true]
      rw [if_neg (by omega), if_neg (by omega)]
      refine ⟨?_, rfl, fun _ => rfl, by simp, hline, by simp, hm⟩
      simp only [hz, hs (by omega), blankRange_mid]
      have : (s.out ++ s.pend).length = (s.out ++ blanked s.pend).length := by simp [blanked_length]
      rw [this, blankLine_mid hc]
      simp
    · simp only [he, h1, h0, if_false]
      refine ⟨?_, rfl, fun h => absurd h (by show ¬ s.ex - 1 = 0; omega), fun _ => hs (by omega), hline, fun _ => hst (by omega), hm⟩
      simp only [hz, blankLine_mid hc]
      simp

/-- `%else` -/
theorem else_sim {s : LS} {p : PP} {l R : List Nat} (h : PPSim s p (l ++ R)) (hc : Closed l R) (hl' : isEndLine l = false)
    (hl : isElseLine l = true) :
    ∃ s', dispatch s l = .ok s' ∧ PPSim s' (ppElse p (s.out ++ s.pend).length) R := by
  obtain ⟨hz, he, hn, hs, hline, hst, hm⟩ := h
  unfold dispatch
  rw [hl', if_neg (by simp), if_pos hl]
  refine ⟨_, rfl, ?_⟩
  unfold ppElse
  by_cases h0 : s.ex = 0
  · have hp := hn h0
    rw [hp, List.append_nil] at hz
    have e01 : ¬ ((0 : Nat) = 1) := by decide
    simp only [he, h0, hp, List.append_nil, e01, if_true, if_false]
    refine ⟨?_, rfl, fun h => by simp at h, fun _ => rfl, hline, fun _ => hline, hm⟩
    simp only [hz, blankLine_mid hc, List.append_assoc]
  · by_cases h1 : s.ex = 1
    · simp only [he, h1, if_true]
      refine ⟨?_, rfl, fun _ => rfl, by simp, hline, by simp, hm⟩
      simp only [hz, hs (by omega), blankRange_mid]
      have : (s.out ++ s.pend).length = (s.out ++ blanked s.pend).length := by simp [blanked_length]
      rw [this, blankLine_mid hc]
      simp
    · simp only [he, h1, h0, if_false]
      refine ⟨?_, rfl, fun h => absurd h h0, fun _ => hs (by omega), hline, fun _ => hst (by omega), hm⟩
      simp only [hz, blankLine_mid hc]
      simp

/-- `%if` and the like -/
theorem if_sim {s : LS} {p : PP} {l R : List Nat} (h : PPSim s p (l ++ R)) (hc : Closed l R) (hl' : isEndLine l = false)
    (hl'' : isElseLine l = false) (hl : isIfLine l = true) :
    match dispatch s l with
    | .error e => ppIf p (s.out ++ s.pend).length = .error e
    | .ok s' => ∃ p', ppIf p (s.out ++ s.pend).length = .ok p' ∧ PPSim s' p' R := by
  obtain ⟨hz, he, hn, hs, hline, hst, hm⟩ := h
  unfold dispatch
  rw [hl', hl'', if_neg (by simp), if_neg (by simp), if_pos hl]
  have hd : p.z.drop (s.out ++ s.pend).length = l ++ R := by rw [hz, List.drop_left]
  have hb : (l ++ R).takeWhile (fun c => !isSpace c) = l.takeWhile (fun c => !isSpace c) :=
    hc.takeWhile _ (by decide)
  unfold ppIf
  by_cases h0 : s.ex = 0
  · have hp := hn h0
    rw [if_pos h0, he, if_pos h0]
    simp only [hd, hb]
    have hcd : ((l ++ R).drop (l.takeWhile (fun c => !isSpace c)).length).takeWhile (· != 10) = condText l := by
      have hle := takeWhile_length_le (fun c => !isSpace c) l
      rw [List.drop_append_of_le_length hle]
      refine Closed.takeWhile ?_ _ (by simp)
      rcases hc with ⟨b, hb', hb10⟩ | ⟨h10, hR⟩
      · left
        have hlt : (l.takeWhile (fun c => !isSpace c)).length ≤ b.length := by
          rw [hb']
          have : ∀ b : List Nat, ((b ++ [10]).takeWhile (fun c => !isSpace c)).length ≤ b.length := by
            intro b
            induction b with
            | nil => decide
            | cons c b ih =>
              rw [List.cons_append, List.takeWhile_cons]
              split
              · simp only [List.length_cons]; omega
              · simp
          exact this b
        refine ⟨b.drop (l.takeWhile (fun c => !isSpace c)).length, ?_, fun h => hb10 (List.mem_of_mem_drop h)⟩
        rw [← List.drop_append_of_le_length hlt, ← hb']
      · right
        exact ⟨fun h => h10 (List.mem_of_mem_drop h), hR⟩
    rw [hcd, hm]
    cases hv : evalBool s.macros (condText l) with
    | error e => simp only [hline]
    | ok y =>
      obtain ⟨r, m⟩ := y
      simp only
      have hi : (if (l.takeWhile (fun c => !isSpace c)).length = 7 then r else !r) = (if isNotLine l then r else !r) := rfl
      rw [hi]
      generalize (if isNotLine l then r else !r) = x
      rw [hp, List.append_nil] at hz ⊢
      cases x with
      | true =>
        simp only [if_true]
        refine ⟨_, rfl, ?_, rfl, fun h => by simp at h, fun _ => rfl, hline, fun _ => hline, rfl⟩
        simp only [hz, blankLine_mid hc, List.append_assoc]
      | false =>
        simp only [Bool.false_eq_true, if_false]
        refine ⟨_, rfl, ?_, h0.symm, fun _ => rfl, fun h => by simp [h0] at h, hline, fun h => by simp [h0] at h, rfl⟩
        simp only [hz, blankLine_mid hc, hp, List.append_nil, List.append_assoc]
  · rw [if_neg h0, he, if_neg h0]
    refine ⟨_, rfl, ?_, rfl, fun h => by simp at h, fun _ => hs (by omega), hline, fun _ => hst (by omega), hm⟩
    simp only [hz, blankLine_mid hc]
    simp

/-- the rest of a line only counts the line break -/
theorem rest_fold : ∀ (n a : Nat) (p : PP), (∀ j, a ≤ j → j < a + n → 0 < j ∧ p.z.getD (j - 1) 0 ≠ 10) →
    a + n ≤ p.z.length →
    (List.range' a n).foldlM ppStep p = .ok { p with lineno := p.lineno + ((p.z.drop a).take n).count 10 } := by
  intro n
  induction n with
  | zero => intro a p _ _; simp; rfl
  | succ n ih =>
    intro a p h hlen
    rw [List.range'_succ, List.foldlM_cons]
    have h0 := h a (Nat.le_refl _) (by omega)
    have hd : p.z.drop a = p.z.getD a 0 :: p.z.drop (a + 1) := by
      rw [List.drop_eq_getElem_cons (by omega)]
      congr 1
      simp [List.getD, List.getElem?_eq_getElem (show a < p.z.length by omega)]
    have hs : ppStep p a = .ok (if p.z.getD a 0 = 10 then { p with lineno := p.lineno + 1 } else p) := by
      unfold ppStep ppDirective
      split
      · rename_i hc
        rw [if_pos (Or.inr ⟨h0.1, h0.2⟩)]
      · rw [if_pos (Or.inr ⟨h0.1, h0.2⟩)]
    rw [hs]
    show (List.range' (a + 1) n).foldlM ppStep _ = _
    rw [ih]
    · rw [hd, List.take_succ_cons, List.count_cons]
      by_cases hc : p.z.getD a 0 = 10
      · simp only [hc, if_true, beq_self_eq_true]
        congr 2
        omega
      · have : (p.z.getD a 0 == 10) = false := by simpa using hc
        simp only [hc, this, if_false, Bool.false_eq_true, Nat.add_zero]
    · intro j h1 h2
      have := h j (by omega) (by omega)
      split <;> exact this
    · split <;> (show a + 1 + n ≤ p.z.length; omega)

/-- one line -/
def lineStep (s : LS) (l : List Nat) : Except PPError LS :=
  (dispatch s l).map fun s' => { s' with line := s'.line + l.count 10 }

theorem not_directive {l : List Nat} (h : l.head? ≠ some 37) : isEndLine l = false ∧ isElseLine l = false ∧ isIfLine l = false := by
  cases l with
  | nil => decide
  | cons c t =>
    have : (37 == c) = false := by
      rw [Bool.eq_false_iff]
      intro hc
      exact h (by simp [eq_of_beq hc])
    simp [isEndLine, isElseLine, isIfLine, kwEndif, kwElse, kwIf, kwIfdef, kwIfndef, List.isPrefixOf, this]

/-- what the program does at the start of a line that is not empty -/
theorem start_sim {s : LS} {p : PP} {c : Nat} {t R : List Nat} (h : PPSim s p ((c :: t) ++ R)) (hc : Closed (c :: t) R)
    (hA : (s.out ++ s.pend).getLast? = none ∨ (s.out ++ s.pend).getLast? = some 10) :
    match dispatch s (c :: t) with
    | .error e => ppDirective p (s.out ++ s.pend).length = .error e
    | .ok s' => ∃ p', ppDirective p (s.out ++ s.pend).length = .ok p' ∧ PPSim s' p' R := by
  have hd : p.z.drop (s.out ++ s.pend).length = (c :: t) ++ R := by rw [h.z, List.drop_left]
  have hg : p.z.getD (s.out ++ s.pend).length 0 = c := by
    rw [h.z]
    simp [List.getD]
  -- a line that is no directive
  have plain : isEndLine (c :: t) = false → isElseLine (c :: t) = false → isIfLine (c :: t) = false →
      ∃ s', dispatch s (c :: t) = .ok s' ∧ PPSim s' p R := by
    intro h1 h2 h3
    unfold dispatch
    rw [h1, h2, h3, if_neg (by simp), if_neg (by simp), if_neg (by simp)]
    refine ⟨_, rfl, ?_⟩
    obtain ⟨hz, he, hn, hs, hline, hst, hm⟩ := h
    by_cases h0 : s.ex = 0
    · rw [if_pos h0]
      refine ⟨?_, he, hn, fun h => by simp [h0] at h, hline, hst, hm⟩
      rw [hz, hn h0]
      simp
    · rw [if_neg h0]
      refine ⟨?_, he, fun h => absurd h h0, hs, hline, hst, hm⟩
      rw [hz]
      simp
  unfold ppDirective
  by_cases h37 : c = 37
  · have hprev : ¬ (0 < (s.out ++ s.pend).length ∧ p.z.getD ((s.out ++ s.pend).length - 1) 0 ≠ 10) := by
      rintro ⟨h0, h1⟩
      rcases hA with hA | hA
      · rw [List.getLast?_eq_none_iff] at hA
        rw [hA] at h0
        simp at h0
      · apply h1
        rw [h.place, List.getD, List.getElem?_append_left (by omega), ← List.getLast?_eq_getElem?, hA]
        rfl
    rw [if_neg (by rw [hg]; rintro (h' | h'); exacts [h' h37, hprev h'])]
    simp only [hd]
    have e1 : (kwEndif.isPrefixOf (c :: t ++ R) && isSpace ((c :: t ++ R).getD 6 0)) = isEndLine (c :: t) := by
      unfold isEndLine
      rw [hc.prefix (by decide)]
      cases hp : kwEndif.isPrefixOf (c :: t) with
      | false => rfl
      | true => exact congrArg (fun x => true && isSpace x) (hc.next (kw := kwEndif) (by decide) hp)
    have e2 : (kwElse.isPrefixOf (c :: t ++ R) && isSpace ((c :: t ++ R).getD 5 0)) = isElseLine (c :: t) := by
      unfold isElseLine
      rw [hc.prefix (by decide)]
      cases hp : kwElse.isPrefixOf (c :: t) with
      | false => rfl
      | true => exact congrArg (fun x => true && isSpace x) (hc.next (kw := kwElse) (by decide) hp)
    have e3 : (kwIfdef.isPrefixOf (c :: t ++ R) || kwIf.isPrefixOf (c :: t ++ R) || kwIfndef.isPrefixOf (c :: t ++ R)) =
        isIfLine (c :: t) := by
      unfold isIfLine
      rw [hc.prefix (by decide), hc.prefix (by decide), hc.prefix (by decide)]
    rw [e1, e2, e3]
    cases h1 : isEndLine (c :: t) with
    | true =>
      obtain ⟨s', hs', hsim⟩ := endif_sim h hc h1
      rw [hs']
      exact ⟨_, rfl, hsim⟩
    | false =>
      rw [if_neg (by simp)]
      cases h2 : isElseLine (c :: t) with
      | true =>
        obtain ⟨s', hs', hsim⟩ := else_sim h hc h1 h2
        rw [hs']
        exact ⟨_, rfl, hsim⟩
      | false =>
        rw [if_neg (by simp)]
        cases h3 : isIfLine (c :: t) with
        | true => exact if_sim h hc h1 h2 h3
        | false =>
          rw [if_neg (by simp)]
          obtain ⟨s', hs', hsim⟩ := plain h1 h2 h3
          rw [hs']
          exact ⟨_, rfl, hsim⟩
  · rw [if_pos (Or.inl (by rw [hg]; exact h37))]
    obtain ⟨h1, h2, h3⟩ := not_directive (l := c :: t) (by simpa using h37)
    obtain ⟨s', hs', hsim⟩ := plain h1 h2 h3
    rw [hs']
    exact ⟨_, rfl, hsim⟩

theorem kept_nl {x y : List Nat} (h : List.Forall₂ KeptByte x y) : ∀ j, x.getD j 0 = 10 ↔ y.getD j 0 = 10 := by
  induction h with
  | nil => intro j; simp
  | cons h1 _ ih =>
    intro j
    cases j with
    | zero =>
      simp only [List.getD_cons_zero]
      rcases h1 with rfl | ⟨h, rfl⟩ <;> omega
    | succ j => simpa using ih j

theorem kept_count {x y : List Nat} (h : List.Forall₂ KeptByte x y) : x.count 10 = y.count 10 := by
  induction h with
  | nil => rfl
  | cons h1 _ ih =>
    rw [List.count_cons, List.count_cons, ih]
    rcases h1 with rfl | ⟨h, rfl⟩
    · rfl
    · simp [h]

theorem kept_length {x y : List Nat} (h : List.Forall₂ KeptByte x y) : x.length = y.length := by
  induction h with
  | nil => rfl
  | cons _ _ ih => simp [ih]

theorem kept_drop {x y : List Nat} (h : List.Forall₂ KeptByte x y) : ∀ n, List.Forall₂ KeptByte (x.drop n) (y.drop n) := by
  induction h with
  | nil => intro n; simp
  | cons h1 h2 ih =>
    intro n
    cases n with
    | zero => exact .cons h1 h2
    | succ n => exact ih n

theorem kept_take {x y : List Nat} (h : List.Forall₂ KeptByte x y) : ∀ n, List.Forall₂ KeptByte (x.take n) (y.take n) := by
  induction h with
  | nil => intro n; simp
  | cons h1 h2 ih =>
    intro n
    cases n with
    | zero => exact .nil
    | succ n => exact .cons h1 (ih n)

theorem Closed.inner {l R : List Nat} (h : Closed l R) (j : Nat) (hj : j + 1 < l.length) : l.getD j 0 ≠ 10 := by
  intro h10
  have hget : l.getD j 0 = l[j]'(by omega) := by
    simp [List.getD, List.getElem?_eq_getElem (show j < l.length by omega)]
  rcases h with ⟨b, rfl, hb⟩ | ⟨hl, _⟩
  · simp only [List.length_append, List.length_cons, List.length_nil] at hj
    rw [hget, List.getElem_append_left (by omega)] at h10
    exact hb (h10 ▸ List.getElem_mem _)
  · rw [hget] at h10
    exact hl (h10 ▸ List.getElem_mem _)

theorem line_sim {s : LS} {p : PP} {l R : List Nat} (h : PPSim s p (l ++ R)) (hc : Closed l R)
    (hA : (s.out ++ s.pend).getLast? = none ∨ (s.out ++ s.pend).getLast? = some 10) :
    match lineStep s l with
    | .error e => (List.range' (s.out ++ s.pend).length l.length).foldlM ppStep p = .error e
    | .ok s' => ∃ p', (List.range' (s.out ++ s.pend).length l.length).foldlM ppStep p = .ok p' ∧ PPSim s' p' R ∧
        (s'.out ++ s'.pend).length = (s.out ++ s.pend).length + l.length ∧
        ((∃ b, l = b ++ [10]) → (s'.out ++ s'.pend).getLast? = some 10) := by
  generalize ha : (s.out ++ s.pend).length = a
  have hzlen : p.z.length = a + (l.length + R.length) := by
    rw [h.z, ← ha]; simp; omega
  have hzget : ∀ j, p.z.getD (a + j) 0 = (l ++ R).getD j 0 := by
    intro j
    rw [h.place, ← ha, List.getD, List.getElem?_append_right (by omega), Nat.add_sub_cancel_left]
    rfl
  have hst : 0 < p.exclude → p.start ≤ a := by
    intro h0
    rw [h.start (by rw [← h.ex]; exact h0), ← ha]
    simp
  cases l with
  | nil =>
    have : lineStep s [] = .ok s := by
      unfold lineStep dispatch
      rw [if_neg (by decide), if_neg (by decide), if_neg (by decide)]
      cases s
      simp [Except.map]
    rw [this]
    refine ⟨p, rfl, h, by simp [ha], ?_⟩
    rintro ⟨b, hb⟩
    simp at hb
  | cons c t =>
    by_cases h10 : c = 10
    · -- an empty line
      have ht : t = [] := by
        rcases hc with ⟨b, hb, hb10⟩ | ⟨hl, _⟩
        · cases b with
          | nil => simp at hb; exact hb.2
          | cons d b =>
            exfalso
            apply hb10
            have : c = d := by injection hb
            simp [← this, h10]
        · exact absurd (by simp [h10]) hl
      subst ht
      subst h10
      obtain ⟨h1, h2, h3⟩ := not_directive (l := [10]) (by simp)
      have hstep : ppStep p a = .ok { p with lineno := p.lineno + 1 } := by
        have hg : p.z.getD a 0 = 10 := by simpa using hzget 0
        unfold ppStep ppDirective
        rw [hg, if_pos rfl]
        simp only [hg]
        rw [if_pos (Or.inl (by decide))]
      unfold lineStep dispatch
      rw [h1, h2, h3, if_neg (by simp), if_neg (by simp), if_neg (by simp)]
      have hfold : (List.range' a [10].length).foldlM ppStep p = .ok { p with lineno := p.lineno + 1 } := by
        simp only [List.length_cons, List.length_nil, List.range'_succ, List.range'_zero, List.foldlM_cons, hstep]
        rfl
      obtain ⟨hz, he, hn, hs, hline, hst', hm⟩ := h
      by_cases h0 : s.ex = 0
      · simp only [h0, if_true, Except.map]
        refine ⟨_, hfold, ⟨?_, by simp [he, h0], fun _ => hn h0, by simp, by simp [hline], by simp, hm⟩, ?_, ?_⟩
        · rw [hz, hn h0]; simp
        · rw [← ha, hn h0]; simp
        · intro _; rw [hn h0]; simp
      · simp only [h0, if_false, Except.map]
        refine ⟨_, hfold, ⟨?_, he, fun h => absurd h h0, hs, by simp [hline], hst', hm⟩, ?_, ?_⟩
        · rw [hz]; simp
        · rw [← ha]; simp; omega
        · intro _; rw [← List.append_assoc]; simp
    · have hg : p.z.getD a 0 = c := by simpa using hzget 0
      have hstep : ppStep p a = ppDirective p a := by
        unfold ppStep
        rw [hg, if_neg h10]
      have hsim := start_sim h hc hA
      rw [ha] at hsim
      unfold lineStep
      cases hd : dispatch s (c :: t) with
      | error e =>
        rw [hd] at hsim
        simp only [Except.map]
        rw [List.length_cons, List.range'_succ, List.foldlM_cons, hstep]
        simp only at hsim
        rw [hsim]
        rfl
      | ok s' =>
        rw [hd] at hsim
        obtain ⟨p', hp', hs'⟩ := hsim
        simp only [Except.map]
        have hk := (ppStep_kept (hstep.trans hp') hst).1
        have hlen := kept_length hk
        have hAlen : (s'.out ++ s'.pend).length = a + (c :: t).length := by
          have := congrArg List.length hs'.place
          rw [List.length_append, ← hlen, hzlen] at this
          omega
        have hcount : ((p'.z.drop (a + 1)).take t.length).count 10 = (c :: t).count 10 := by
          rw [← kept_count (kept_take (kept_drop hk _) _), List.count_cons]
          have : p.z.drop (a + 1) = t ++ R := by
            rw [← List.drop_drop, h.place, ← ha, List.drop_left]
            rfl
          rw [this, List.take_left]
          simp [h10]
        refine ⟨{ p' with lineno := p'.lineno + (c :: t).count 10 }, ?_, ?_, hAlen, ?_⟩
        · rw [List.length_cons, List.range'_succ, List.foldlM_cons, hstep, hp']
          show (List.range' (a + 1) t.length).foldlM ppStep p' = _
          rw [rest_fold, hcount]
          · intro j h1 h2
            refine ⟨by omega, ?_⟩
            rw [Ne, ← kept_nl hk]
            obtain ⟨k, rfl⟩ : ∃ k, j = a + k + 1 := ⟨j - a - 1, by omega⟩
            rw [Nat.add_sub_cancel, hzget]
            have := hc.inner k (by simp; omega)
            rwa [List.getD, List.getElem?_append_left (by simp; omega)]
          · rw [← hlen, hzlen]; simp; omega
        · obtain ⟨hz, he, hn, hs, hline, hst', hm⟩ := hs'
          exact ⟨hz, he, hn, hs, by simp [hline], hst', hm⟩
        · rintro ⟨b, hb⟩
          have hlast : p.z.getD (a + t.length) 0 = 10 := by
            rw [hzget, hb]
            have : b.length = t.length := by
              have := congrArg List.length hb
              simp at this
              exact this.symm
            rw [← this]
            simp [List.getD]
          have := (kept_nl hk _).1 hlast
          rw [hs'.place] at this
          rw [List.length_cons] at hAlen
          show (s'.out ++ s'.pend).getLast? = some 10
          rw [List.getLast?_eq_getElem?, hAlen]
          rw [List.getD, List.getElem?_append_left (by omega)] at this
          have hlt : a + t.length < (s'.out ++ s'.pend).length := by omega
          rw [List.getElem?_eq_getElem hlt] at this
          have e : a + (t.length + 1) - 1 = a + t.length := by omega
          rw [e, List.getElem?_eq_getElem hlt]
          simpa using this

theorem Broken.closed {l : List Nat} {ls : List (List Nat)} (h : Broken (l :: ls)) : Closed l ls.flatten := by
  rcases h.1 with h | ⟨h', rfl⟩
  · exact Or.inl h
  · exact Or.inr ⟨h', rfl⟩

theorem lines_sim : ∀ (ls : List (List Nat)) (s : LS) (p : PP), Broken ls → PPSim s p ls.flatten →
    ((s.out ++ s.pend).getLast? = none ∨ (s.out ++ s.pend).getLast? = some 10 ∨ ls = []) →
    match ls.foldlM lineStep s with
    | .error e => (List.range' (s.out ++ s.pend).length ls.flatten.length).foldlM ppStep p = .error e
    | .ok s' => ∃ p', (List.range' (s.out ++ s.pend).length ls.flatten.length).foldlM ppStep p = .ok p' ∧ PPSim s' p' [] := by
  intro ls
  induction ls with
  | nil => intro s p _ h _; exact ⟨p, rfl, h⟩
  | cons l ls ih =>
    intro s p hb h hA
    have hA' : (s.out ++ s.pend).getLast? = none ∨ (s.out ++ s.pend).getLast? = some 10 := by
      rcases hA with h | h | h
      · exact Or.inl h
      · exact Or.inr h
      · cases h
    rw [List.flatten_cons] at h
    have hl := line_sim h hb.closed hA'
    rw [List.foldlM_cons, List.flatten_cons, List.length_append (as := l), ← List.range'_append_1, List.foldlM_append]
    cases hs : lineStep s l with
    | error e =>
      rw [hs] at hl
      simp only at hl
      rw [hl]
      rfl
    | ok s' =>
      rw [hs] at hl
      obtain ⟨p', hp', hsim, hlen, hlast⟩ := hl
      rw [hp']
      show match ls.foldlM lineStep s' with
        | .error e => (List.range' ((s.out ++ s.pend).length + l.length) ls.flatten.length).foldlM ppStep p' = .error e
        | .ok s' => ∃ p'', (List.range' ((s.out ++ s.pend).length + l.length) ls.flatten.length).foldlM ppStep p' = .ok p'' ∧ PPSim s' p'' []
      rw [← hlen]
      refine ih s' p' hb.2 hsim ?_
      rcases hb.1 with ⟨b, h1, _⟩ | ⟨_, rfl⟩
      · exact Or.inr (Or.inl (hlast ⟨b, h1⟩))
      · exact Or.inr (Or.inr rfl)

/-- `preprocess_input` works line by line -/
theorem preprocess_lines (m : Macros) (ls : List (List Nat)) (hb : Broken ls) :
    preprocess m ls.flatten =
      match ls.foldlM lineStep ⟨[], [], 0, 1, 1, m⟩ with
      | .error e => .error e
      | .ok s => if s.ex = 0 then .ok (s.out, s.macros) else .error (.unterminated s.startLine) := by
  have h := lines_sim ls ⟨[], [], 0, 1, 1, m⟩ ⟨ls.flatten, 0, 0, 1, 1, m⟩ hb
    ⟨by simp, rfl, fun _ => rfl, fun h => by simp at h, rfl, fun h => by simp at h, rfl⟩ (Or.inl rfl)
  unfold preprocess ppLoop
  rw [List.range_eq_range']
  simp only [List.append_nil, List.length_nil] at h
  cases hf : ls.foldlM lineStep ⟨[], [], 0, 1, 1, m⟩ with
  | error e =>
    rw [hf] at h
    simp only at h ⊢
    rw [h]
  | ok s =>
    rw [hf] at h
    obtain ⟨p, hp, hs⟩ := h
    simp only
    rw [hp]
    simp only [hs.ex, hs.macros]
    by_cases h0 : s.ex = 0
    · rw [if_pos h0, if_pos h0, hs.z, hs.none h0]
      simp
    · rw [if_neg h0, if_neg h0, hs.startLine (by omega)]

end Verif.Lemon
