import Verif.Proofs.ByaccRunRules
import Verif.Props.C78
import Verif.Proofs.ByaccActions
import Verif.Spec.ByaccMeaning
/-
Auxiliary facts: a text can be read in one way only.
-/
set_option autoImplicit false
namespace Verif.Byacc.Rd
open Spec.YText

theorem ok_unique {α : Type} {x : R α} {a b : α} (h1 : x = .ok a) (h2 : x = .ok b) : a = b := by
  rw [h1] at h2; exact Except.ok.inj h2

theorem symAt_unique {x x' : Sym} {t u u' : List Nat} (h : SymAt x t u) (h' : SymAt x' t u') : x = x' ∧ u = u' := by
  cases x with
  | name n =>
    cases x' with
    | name n' =>
      obtain ⟨rfl, h2⟩ := (C78_unique t).1 _ _ _ _ h.1 h'.1
      exact ⟨rfl, h2⟩
    | lit s =>
      exfalso
      obtain ⟨⟨h1, -, ⟨c, r, rfl, hc⟩, -⟩, -⟩ := h
      obtain ⟨q, r', hq, h2, -⟩ := h'
      rw [h2, List.cons_append, List.cons.injEq] at h1
      unfold NameFirst Letter at hc
      omega
  | lit s =>
    cases x' with
    | name n =>
      exfalso
      obtain ⟨⟨h1, -, ⟨c, r, rfl, hc⟩, -⟩, -⟩ := h'
      obtain ⟨q, r', hq, h2, -⟩ := h
      rw [h2, List.cons_append, List.cons.injEq] at h1
      unfold NameFirst Letter at hc
      omega
    | lit s' =>
      obtain ⟨rfl, h2⟩ := (C78_unique t).2.2.1 _ _ _ _ h h'
      exact ⟨rfl, h2⟩

theorem symAt_start {x : Sym} {t u : List Nat} (h : SymAt x t u) : SymStart t := by
  cases x with
  | name n =>
    obtain ⟨⟨rfl, -, ⟨c, r, rfl, hc⟩, -⟩, -⟩ := h
    exact ⟨c, _, rfl, .inl hc⟩
  | lit s =>
    obtain ⟨q, r, hq, rfl, -⟩ := h
    exact ⟨q, r, rfl, .inr hq⟩

theorem numberAt_digit {n : Nat} {t u : List Nat} (h : NumberAt n t u) : ∃ c r, t = c :: r ∧ Digit c := by
  obtain ⟨ds, hne, h2, rfl, -⟩ := h
  obtain ⟨c, r, rfl⟩ := List.exists_cons_of_ne_nil hne
  exact ⟨c, _, rfl, h2 c (by simp)⟩

/-! Code -/

theorem pieceAt_unique {o o' t u u' : List Nat} (h : PieceAt o t u) (h' : PieceAt o' t u') : o = o' ∧ u = u' := by
  have prefix2 : ∀ {c : Nat} {v : List Nat} (a b : Nat), (∃ r, c :: v = a :: b :: r) → [a, b] <+: c :: v := by
    rintro c v a b ⟨r, h⟩; exact ⟨r, by rw [h]; rfl⟩
  generalize ht : t = t' at h'
  cases h with
  | string q s _ hq hs =>
    cases h' with
    | string q' s' _ hq' hs' =>
      rw [List.cons.injEq] at ht
      obtain ⟨rfl, ht⟩ := ht
      have e1 := (copyString_iff q (by omega) [] (s ++ q :: u) (s ++ [q]) u).2 ⟨s, hs, rfl, rfl⟩
      have e2 := (copyString_iff q (by omega) [] (s ++ q :: u) (s' ++ [q]) u').2 ⟨s', hs', rfl, ht⟩
      have := Prod.mk.inj (ok_unique e1 e2)
      exact ⟨by rw [this.1], this.2⟩
    | block s' _ hs' => rw [List.cons.injEq] at ht; omega
    | line s' s'' _ h1 h2 h3 => rw [List.cons.injEq] at ht; omega
    | char c _ h1 h2 h3 h4 =>
      rw [List.cons.injEq] at ht
      obtain ⟨rfl, ht⟩ := ht
      rcases hq with rfl | rfl
      · exact absurd rfl h1
      · exact absurd rfl h2
  | block s _ hs =>
    cases h' with
    | string q' s' _ hq' hs' => rw [List.cons.injEq] at ht; omega
    | block s' _ hs' =>
      simp only [List.cons.injEq, true_and] at ht
      have e1 := (blockComment_iff [] (s ++ 42 :: 47 :: u) (s ++ [42, 47]) u).2 ⟨s, hs, rfl, rfl⟩
      have e2 := (blockComment_iff [] (s ++ 42 :: 47 :: u) (s' ++ [42, 47]) u').2 ⟨s', hs', rfl, ht⟩
      have := Prod.mk.inj (ok_unique e1 e2)
      exact ⟨by rw [this.1], this.2⟩
    | line s' s'' _ h1 h2 h3 => simp only [List.cons.injEq] at ht; omega
    | char c _ h1 h2 h3 h4 => exact absurd (prefix2 47 42 ⟨_, ht.symm⟩) h3
  | line s s2 _ g1 g2 g3 =>
    cases h' with
    | string q' s' _ hq' hs' => rw [List.cons.injEq] at ht; omega
    | block s' _ hs' => simp only [List.cons.injEq] at ht; omega
    | line s' s'' _ h1 h2 h3 =>
      simp only [List.cons.injEq, true_and] at ht
      have e1 := (lineComment_iff (s ++ u) s2 u).2 ⟨s, rfl, g1, g2, g3⟩
      have e2 := (lineComment_iff (s ++ u) s'' u').2 ⟨s', ht, h1, h2, h3⟩
      have := Prod.mk.inj (e1.symm.trans e2)
      exact ⟨by rw [this.1], this.2⟩
    | char c _ h1 h2 h3 h4 => exact absurd (prefix2 47 47 ⟨_, ht.symm⟩) h4
  | char c _ g1 g2 g3 g4 =>
    cases h' with
    | string q' s' _ hq' hs' =>
      rw [List.cons.injEq] at ht
      obtain ⟨rfl, -⟩ := ht
      rcases hq' with rfl | rfl
      · exact absurd rfl g1
      · exact absurd rfl g2
    | block s' _ hs' => exact absurd (prefix2 47 42 ⟨_, ht⟩) g3
    | line s' s'' _ h1 h2 h3 => exact absurd (prefix2 47 47 ⟨_, ht⟩) g4
    | char c' _ h1 h2 h3 h4 =>
      rw [List.cons.injEq] at ht
      obtain ⟨rfl, rfl⟩ := ht
      exact ⟨rfl, rfl⟩

theorem idRun_unique {s s' u u' : List Nat} (h1 : ∀ c ∈ s, IdChar c) (h2 : NotNext IdChar u) (h1' : ∀ c ∈ s', IdChar c) (h2' : NotNext IdChar u')
    (h : s ++ u = s' ++ u') : s = s' ∧ u = u' := by
  have e1 := (span_iff isName2 IdChar isName2_iff (s ++ u) s u).2 ⟨rfl, h1, h2⟩
  have e2 := (span_iff isName2 IdChar isName2_iff (s ++ u) s' u').2 ⟨h, h1', h2'⟩
  exact ⟨e1.1.symm.trans e2.1, e1.2.symm.trans e2.2⟩

theorem number0_unique {n n' : Nat} {t u u' : List Nat} (h : Number0At n t u) (h' : Number0At n' t u') : n = n' ∧ u = u' := by
  rcases h with h | ⟨rfl, rfl, h⟩
  · rcases h' with h' | ⟨rfl, rfl, h'⟩
    · exact (C78_unique t).2.1 _ _ _ _ h h'
    · obtain ⟨c, r, rfl, hc⟩ := numberAt_digit h
      exact absurd hc (h' c r rfl)
  · rcases h' with h' | ⟨rfl, rfl, -⟩
    · obtain ⟨c, r, rfl, hc⟩ := numberAt_digit h'
      exact absurd hc (h c r rfl)
    · exact ⟨rfl, rfl⟩

/-- the first character of a reference -/
theorem refAt_head {b : Bool} {r : RefTo} {t u : List Nat} (h : RefAt b r t u) : ∃ c v, t = c :: v ∧
    ((r = .lhs ∧ c = 36) ∨ ((∃ n, r = .pos n) ∧ Digit c) ∨ ((∃ n, r = .neg n) ∧ c = 45) ∨ (r = .name ∧ b = true ∧ (Letter c ∨ c = 95))) := by
  cases h with
  | lhs => exact ⟨_, _, rfl, .inl ⟨rfl, rfl⟩⟩
  | pos n _ _ h1 =>
    obtain ⟨c, v, rfl, hc⟩ := numberAt_digit h1
    exact ⟨c, v, rfl, .inr (.inl ⟨⟨n, rfl⟩, hc⟩)⟩
  | neg n => exact ⟨_, _, rfl, .inr (.inr (.inl ⟨⟨n, rfl⟩, rfl⟩))⟩
  | name s _ _ hb h1 h2 =>
    obtain ⟨c, v, rfl, hc⟩ := h2
    exact ⟨c, _, h1, .inr (.inr (.inr ⟨rfl, hb, hc⟩))⟩

theorem tagRefAt_head {r : RefTo} {t u : List Nat} (h : TagRefAt r t u) : ∃ c v, t = c :: v ∧
    ((r = .lhs ∧ c = 36) ∨ ((∃ n, r = .pos n) ∧ Digit c) ∨ ((∃ n, r = .neg n) ∧ c = 45) ∨ (r = .name ∧ (Letter c ∨ c = 95))) := by
  cases h with
  | lhs => exact ⟨_, _, rfl, .inl ⟨rfl, rfl⟩⟩
  | pos n _ _ h1 =>
    obtain ⟨c, v, rfl, hc⟩ := numberAt_digit h1
    exact ⟨c, v, rfl, .inr (.inl ⟨⟨n, rfl⟩, hc⟩)⟩
  | neg n => exact ⟨_, _, rfl, .inr (.inr (.inl ⟨⟨n, rfl⟩, rfl⟩))⟩
  | name s _ _ h1 h2 =>
    obtain ⟨c, v, rfl, hc⟩ := h2
    exact ⟨c, _, h1, .inr (.inr (.inr ⟨rfl, hc⟩))⟩

theorem kinds_unique {c : Nat} {r r' : RefTo} {p p' : Prop}
    (h : (r = .lhs ∧ c = 36) ∨ ((∃ n, r = .pos n) ∧ Digit c) ∨ ((∃ n, r = .neg n) ∧ c = 45) ∨ (r = .name ∧ p ∧ (Letter c ∨ c = 95)))
    (h' : (r' = .lhs ∧ c = 36) ∨ ((∃ n, r' = .pos n) ∧ Digit c) ∨ ((∃ n, r' = .neg n) ∧ c = 45) ∨ (r' = .name ∧ p' ∧ (Letter c ∨ c = 95))) :
    (r = .lhs ∧ r' = .lhs) ∨ ((∃ n, r = .pos n) ∧ ∃ n, r' = .pos n) ∨ ((∃ n, r = .neg n) ∧ ∃ n, r' = .neg n) ∨ (r = .name ∧ r' = .name) := by
  unfold Digit Letter at *
  rcases h with ⟨h1, h2⟩ | ⟨h1, h2⟩ | ⟨h1, h2⟩ | ⟨h1, -, h2⟩ <;> rcases h' with ⟨h1', h2'⟩ | ⟨h1', h2'⟩ | ⟨h1', h2'⟩ | ⟨h1', -, h2'⟩ <;>
    first
    | exact .inl ⟨h1, h1'⟩
    | exact .inr (.inl ⟨h1, h1'⟩)
    | exact .inr (.inr (.inl ⟨h1, h1'⟩))
    | exact .inr (.inr (.inr ⟨h1, h1'⟩))
    | (exfalso; omega)

theorem refAt_unique {b : Bool} {r r' : RefTo} {t u u' : List Nat} (h : RefAt b r t u) (h' : RefAt b r' t u') : r = r' ∧ u = u' := by
  obtain ⟨c, v, rfl, hc⟩ := refAt_head h
  obtain ⟨c', v', e, hc'⟩ := refAt_head h'
  obtain ⟨rfl, rfl⟩ := List.cons.inj e
  rcases kinds_unique (p := b = true) (p' := b = true) hc hc' with ⟨rfl, rfl⟩ | ⟨⟨n, rfl⟩, ⟨n', rfl⟩⟩ | ⟨⟨n, rfl⟩, ⟨n', rfl⟩⟩ | ⟨rfl, rfl⟩
  · cases h; cases h'; exact ⟨rfl, rfl⟩
  · cases h with
    | pos _ _ _ h1 =>
      cases h' with
      | pos _ _ _ h1' =>
        obtain ⟨rfl, rfl⟩ := (C78_unique _).2.1 _ _ _ _ h1 h1'
        exact ⟨rfl, rfl⟩
  · cases h with
    | neg _ _ _ h1 =>
      cases h' with
      | neg _ _ _ h1' =>
        obtain ⟨rfl, rfl⟩ := number0_unique h1 h1'
        exact ⟨rfl, rfl⟩
  · cases h with
    | name s _ _ _ h1 _ h2 h3 =>
      cases h' with
      | name s' _ _ _ h1' _ h2' h3' => exact ⟨rfl, (idRun_unique h2 h3 h2' h3' (h1.symm.trans h1')).2⟩

theorem tagRefAt_unique {r r' : RefTo} {t u u' : List Nat} (h : TagRefAt r t u) (h' : TagRefAt r' t u') : r = r' ∧ u = u' := by
  obtain ⟨c, v, rfl, hc⟩ := tagRefAt_head h
  obtain ⟨c', v', e, hc'⟩ := tagRefAt_head h'
  obtain ⟨rfl, rfl⟩ := List.cons.inj e
  have aug : ∀ {r : RefTo}, ((r = .lhs ∧ c = 36) ∨ ((∃ n, r = .pos n) ∧ Digit c) ∨ ((∃ n, r = .neg n) ∧ c = 45) ∨ (r = .name ∧ (Letter c ∨ c = 95))) →
      ((r = .lhs ∧ c = 36) ∨ ((∃ n, r = .pos n) ∧ Digit c) ∨ ((∃ n, r = .neg n) ∧ c = 45) ∨ (r = .name ∧ True ∧ (Letter c ∨ c = 95))) := by
    intro r h; simpa using h
  rcases kinds_unique (aug hc) (aug hc') with ⟨rfl, rfl⟩ | ⟨⟨n, rfl⟩, ⟨n', rfl⟩⟩ | ⟨⟨n, rfl⟩, ⟨n', rfl⟩⟩ | ⟨rfl, rfl⟩
  · cases h; cases h'; exact ⟨rfl, rfl⟩
  · cases h with
    | pos _ _ _ h1 =>
      cases h' with
      | pos _ _ _ h1' =>
        obtain ⟨rfl, rfl⟩ := (C78_unique _).2.1 _ _ _ _ h1 h1'
        exact ⟨rfl, rfl⟩
  · cases h with
    | neg _ _ _ h1 =>
      cases h' with
      | neg _ _ _ h1' =>
        obtain ⟨rfl, rfl⟩ := (C78_unique _).2.1 _ _ _ _ h1 h1'
        exact ⟨rfl, rfl⟩
  · cases h with
    | name s _ _ h1 _ h2 h3 =>
      cases h' with
      | name s' _ _ h1' _ h2' h3' => exact ⟨rfl, (idRun_unique h2 h3 h2' h3' (h1.symm.trans h1')).2⟩

theorem refAt_dollar {b : Bool} {r : RefTo} {t u : List Nat} (h : RefAt b r t u) : DollarStart t ∧ NotNext (· = 60) t := by
  obtain ⟨c, v, rfl, hc⟩ := refAt_head h
  unfold Digit Letter at hc
  refine ⟨⟨c, v, rfl, ?_⟩, ?_⟩
  · unfold Digit Letter
    rcases hc with h | h | h | h <;> omega
  · intro d w e hd
    obtain ⟨rfl, rfl⟩ := List.cons.inj e
    rcases hc with h | h | h | h <;> omega

theorem refAt_at {r : RefTo} {t u : List Nat} (h : RefAt false r t u) : AtStart t := by
  obtain ⟨c, v, rfl, hc⟩ := refAt_head h
  refine ⟨c, v, rfl, ?_⟩
  rcases hc with h | h | h | ⟨-, h, -⟩
  · exact .inl h.2
  · exact .inr (.inl h.2)
  · exact .inr (.inr h.2)
  · cases h

theorem tagAt_head {g t u : List Nat} (h : TagAt g t u) : ∃ v, t = 60 :: v := by
  obtain ⟨t1, _, _, h, _⟩ := h; exact ⟨t1, h⟩

theorem partAt_unique {p p' : Part} {t u u' : List Nat} (h : PartAt p t u) (h' : PartAt p' t u') : p = p' ∧ u = u' := by
  generalize ht : t = t' at h'
  have ident36 : ∀ {c : Nat} {s u v : List Nat}, Letter c ∨ c = 95 ∨ (c = 36 ∧ ¬ DollarStart (s ++ u)) → 36 :: v = c :: (s ++ u) → DollarStart v → False := by
    rintro c s u v hc e hd
    obtain ⟨rfl, rfl⟩ := List.cons.inj e
    unfold Letter at hc
    rcases hc with h | h | ⟨-, h⟩
    · omega
    · omega
    · exact h hd
  cases h with
  | value r v _ h1 =>
    cases h' with
    | value r' v' _ h1' =>
      obtain ⟨-, rfl⟩ := List.cons.inj ht
      obtain ⟨rfl, rfl⟩ := refAt_unique h1 h1'
      exact ⟨rfl, rfl⟩
    | tagged g r' v' w _ h1' h2' =>
      obtain ⟨-, rfl⟩ := List.cons.inj ht
      obtain ⟨x, rfl⟩ := tagAt_head h1'
      exact absurd rfl ((refAt_dollar h1).2 60 x rfl)
    | place => cases ht
    | ident c s _ hc => exact (ident36 hc ht (refAt_dollar h1).1).elim
    | copied o _ _ hn => exact absurd (by simp) (hn 36 v ht.symm)
  | tagged g r v w _ h1 h2 =>
    have hd : DollarStart v := by
      obtain ⟨x, rfl⟩ := tagAt_head h1
      exact ⟨60, x, rfl, .inl rfl⟩
    cases h' with
    | value r' v' _ h1' =>
      obtain ⟨-, rfl⟩ := List.cons.inj ht
      obtain ⟨x, rfl⟩ := tagAt_head h1
      exact absurd rfl ((refAt_dollar h1').2 60 x rfl)
    | tagged g' r' v' w' _ h1' h2' =>
      obtain ⟨-, rfl⟩ := List.cons.inj ht
      obtain ⟨rfl, rfl⟩ := (C78_unique _).2.2.2.1 _ _ _ _ h1 h1'
      obtain ⟨rfl, rfl⟩ := tagRefAt_unique h2 h2'
      exact ⟨rfl, rfl⟩
    | place => cases ht
    | ident c s _ hc => exact (ident36 hc ht hd).elim
    | copied o _ _ hn => exact absurd (by simp) (hn 36 v ht.symm)
  | place r v _ h1 =>
    cases h' with
    | value => cases ht
    | tagged => cases ht
    | place r' v' _ h1' =>
      obtain ⟨-, rfl⟩ := List.cons.inj ht
      obtain ⟨rfl, rfl⟩ := refAt_unique h1 h1'
      exact ⟨rfl, rfl⟩
    | ident c s _ hc =>
      obtain ⟨rfl, -⟩ := List.cons.inj ht
      unfold Letter at hc
      omega
    | copied o _ _ hn ha => exact absurd (refAt_at h1) (ha v ht.symm)
  | ident c s _ hc h1 h2 =>
    cases h' with
    | value r' v' _ h1' => exact (ident36 hc ht.symm (refAt_dollar h1').1).elim
    | tagged g' r' v' w' _ h1' h2' =>
      refine (ident36 hc ht.symm ?_).elim
      obtain ⟨x, rfl⟩ := tagAt_head h1'
      exact ⟨60, x, rfl, .inl rfl⟩
    | place r' v' _ h1' =>
      obtain ⟨rfl, -⟩ := List.cons.inj ht
      unfold Letter at hc
      omega
    | ident c' s' _ hc' h1' h2' =>
      obtain ⟨rfl, e⟩ := List.cons.inj ht
      obtain ⟨rfl, rfl⟩ := idRun_unique h1 h2 h1' h2' e
      exact ⟨rfl, rfl⟩
    | copied o _ _ hn =>
      refine absurd ?_ (hn c _ ht.symm)
      rcases hc with h | h | ⟨h, -⟩
      · exact .inl h
      · exact .inr (.inl h)
      · exact .inr (.inr (.inl h))
  | copied o _ _ hn ha h1 =>
    subst ht
    cases h' with
    | value r' v' _ h1' => exact absurd (by simp) (hn 36 _ rfl)
    | tagged g' r' v' w' _ h1' h2' => exact absurd (by simp) (hn 36 _ rfl)
    | place r' v' _ h1' => exact absurd (refAt_at h1') (ha _ rfl)
    | ident c' s' _ hc' h1' h2' =>
      refine absurd ?_ (hn c' _ rfl)
      rcases hc' with h | h | ⟨h, -⟩
      · exact .inl h
      · exact .inr (.inl h)
      · exact .inr (.inr (.inl h))
    | copied o' _ _ hn' ha' h1' =>
      obtain ⟨rfl, rfl⟩ := pieceAt_unique h1 h1'
      exact ⟨rfl, rfl⟩

theorem partAt_head {p : Part} {t u : List Nat} (h : PartAt p t u) : NotNext (fun c => c = 123 ∨ c = 125 ∨ c = 59) t := by
  intro c v e hc
  cases h with
  | value => obtain ⟨rfl, -⟩ := List.cons.inj e; omega
  | tagged => obtain ⟨rfl, -⟩ := List.cons.inj e; omega
  | place => obtain ⟨rfl, -⟩ := List.cons.inj e; omega
  | ident d s _ hd =>
    obtain ⟨rfl, -⟩ := List.cons.inj e
    unfold Letter at hd; omega
  | copied o _ _ hn => exact hn c v e (by omega)

theorem partsAt_unique {d : Int} {ps ps' : List Part} {t u u' : List Nat} (h : PartsAt d ps t u) (h' : PartsAt d ps' t u') : ps = ps' ∧ u = u' := by
  induction h generalizing ps' u' with
  | semicolon d u hd =>
    cases h' with
    | semicolon => exact ⟨rfl, rfl⟩
    | semi _ ps2 _ _ h0 => omega
    | part _ p ps2 _ _ _ hp => exact absurd (by simp) (partAt_head hp 59 _ rfl)
  | last d u hd =>
    cases h' with
    | last => exact ⟨rfl, rfl⟩
    | closing _ ps2 _ _ h0 => omega
    | part _ p ps2 _ _ _ hp => exact absurd (by simp) (partAt_head hp 125 _ rfl)
  | semi d ps t u hd _ ih =>
    cases h' with
    | semicolon => omega
    | semi _ ps2 _ _ h0 h1 =>
      obtain ⟨rfl, rfl⟩ := ih h1
      exact ⟨rfl, rfl⟩
    | part _ p ps2 _ _ _ hp => exact absurd (by simp) (partAt_head hp 59 _ rfl)
  | opening d ps t u _ ih =>
    cases h' with
    | opening _ ps2 _ _ h1 =>
      obtain ⟨rfl, rfl⟩ := ih h1
      exact ⟨rfl, rfl⟩
    | part _ p ps2 _ _ _ hp => exact absurd (by simp) (partAt_head hp 123 _ rfl)
  | closing d ps t u hd _ ih =>
    cases h' with
    | last => omega
    | closing _ ps2 _ _ h0 h1 =>
      obtain ⟨rfl, rfl⟩ := ih h1
      exact ⟨rfl, rfl⟩
    | part _ p ps2 _ _ _ hp => exact absurd (by simp) (partAt_head hp 125 _ rfl)
  | part d p ps t u v hp _ ih =>
    cases h' with
    | semicolon => exact absurd (by simp) (partAt_head hp 59 _ rfl)
    | last => exact absurd (by simp) (partAt_head hp 125 _ rfl)
    | semi => exact absurd (by simp) (partAt_head hp 59 _ rfl)
    | opening => exact absurd (by simp) (partAt_head hp 123 _ rfl)
    | closing => exact absurd (by simp) (partAt_head hp 125 _ rfl)
    | part _ p' ps' _ w _ hp' h1 =>
      obtain ⟨rfl, rfl⟩ := partAt_unique hp hp'
      obtain ⟨rfl, rfl⟩ := ih h1
      exact ⟨rfl, rfl⟩

theorem lineSpace_brace {sp sp' r r' : List Nat} (h : ∀ c ∈ sp, LineSpace c) (h' : ∀ c ∈ sp', LineSpace c) (e : sp ++ 123 :: r = sp' ++ 123 :: r') : r = r' := by
  have ns : ¬ LineSpace 123 := by unfold LineSpace Space; omega
  induction sp generalizing sp' with
  | nil =>
    cases sp' with
    | nil => exact (List.cons.inj e).2
    | cons c sp' =>
      have := (List.cons.inj e).1
      exact absurd (h' c (by simp)) (by rw [← this]; exact ns)
  | cons c sp ih =>
    cases sp' with
    | nil =>
      have := (List.cons.inj e).1
      exact absurd (h c (by simp)) (by rw [this]; exact ns)
    | cons c' sp' => exact ih (fun d hd => h d (by simp [hd])) (fun d hd => h' d (by simp [hd])) (List.cons.inj e).2

theorem actionAt_unique {b b' : Bool} {ps ps' : List Part} {t u u' : List Nat} (h : ActionAt b ps t u) (h' : ActionAt b' ps' t u') :
    b = b' ∧ ps = ps' ∧ u = u' := by
  obtain ⟨t1, h1, h2⟩ := h
  obtain ⟨t1', h1', h2'⟩ := h'
  have e : t1 = t1' := by
    rcases h1 with ⟨rfl, r, rfl⟩ | rfl
    · rcases h1' with ⟨h, -⟩ | h
      · exact h
      · cases h
    · rcases h1' with ⟨rfl, r, h⟩ | h
      · cases h
      · exact (List.cons.inj h).2
  subst e
  rcases h2 with ⟨rfl, sp, r, rfl, h3, h4⟩ | ⟨rfl, h3, h4⟩
  · rcases h2' with ⟨rfl, sp', r', e, h3', h4'⟩ | ⟨rfl, h3', h4'⟩
    · obtain rfl := lineSpace_brace h3 h3' e
      exact ⟨rfl, partsAt_unique h4 h4'⟩
    · exact absurd ⟨sp, r, rfl, h3⟩ h3'
  · rcases h2' with ⟨rfl, sp', r', e, h3', h4'⟩ | ⟨rfl, h3', h4'⟩
    · exact absurd ⟨sp', r', e, h3'⟩ h3
    · exact ⟨rfl, partsAt_unique h4 h4'⟩

/-! Declarations -/

theorem itemsAt_unique {xs xs' : List (Sym × Option Nat)} {t u u' : List Nat} (h : ItemsAt xs t u) (h' : ItemsAt xs' t u') : xs = xs' ∧ u = u' := by
  induction h generalizing xs' u' with
  | nil t u h1 h2 h3 =>
    cases h' with
    | nil _ _ h1' => exact ⟨rfl, skips_unique h1 h1'⟩
    | sym x xs _ u2 v w z h1' hs => obtain rfl := skips_unique h1 h1'; exact absurd (symAt_start hs) h3
    | num x n xs _ u2 v w y z h1' hs => obtain rfl := skips_unique h1 h1'; exact absurd (symAt_start hs) h3
  | sym x xs t u v w z h1 h2 h3 h4 _ ih =>
    cases h' with
    | nil _ _ h1' _ h3' => obtain rfl := skips_unique h1 h1'; exact absurd (symAt_start h2) h3'
    | sym x' xs' _ u2 v2 w2 z2 h1' h2' h3' h4' h5' =>
      obtain rfl := skips_unique h1 h1'
      obtain ⟨rfl, rfl⟩ := symAt_unique h2 h2'
      obtain rfl := skips_unique h3 h3'
      obtain ⟨rfl, rfl⟩ := ih h5'
      exact ⟨rfl, rfl⟩
    | num x' n xs' _ u2 v2 w2 y z2 h1' h2' h3' h4' =>
      obtain rfl := skips_unique h1 h1'
      obtain ⟨rfl, rfl⟩ := symAt_unique h2 h2'
      obtain rfl := skips_unique h3 h3'
      obtain ⟨c, r, rfl, hc⟩ := numberAt_digit h4'
      exact absurd hc (h4 c r rfl)
  | num x n xs t u v w y z h1 h2 h3 h4 _ _ ih =>
    cases h' with
    | nil _ _ h1' _ h3' => obtain rfl := skips_unique h1 h1'; exact absurd (symAt_start h2) h3'
    | sym x' xs' _ u2 v2 w2 z2 h1' h2' h3' h4' h5' =>
      obtain rfl := skips_unique h1 h1'
      obtain ⟨rfl, rfl⟩ := symAt_unique h2 h2'
      obtain rfl := skips_unique h3 h3'
      obtain ⟨c, r, rfl, hc⟩ := numberAt_digit h4
      exact absurd hc (h4' c r rfl)
    | num x' n' xs' _ u2 v2 w2 y2 z2 h1' h2' h3' h4' _ h5' =>
      obtain rfl := skips_unique h1 h1'
      obtain ⟨rfl, rfl⟩ := symAt_unique h2 h2'
      obtain rfl := skips_unique h3 h3'
      obtain ⟨rfl, rfl⟩ := (C78_unique _).2.1 _ _ _ _ h4 h4'
      obtain ⟨rfl, rfl⟩ := ih h5'
      exact ⟨rfl, rfl⟩

theorem namesAt_unique {xs xs' : List Sym} {t u u' : List Nat} (h : NamesAt xs t u) (h' : NamesAt xs' t u') : xs = xs' ∧ u = u' := by
  induction h generalizing xs' u' with
  | nil t u h1 h2 h3 =>
    cases h' with
    | nil _ _ h1' => exact ⟨rfl, skips_unique h1 h1'⟩
    | cons x xs _ u2 v w z h1' hs => obtain rfl := skips_unique h1 h1'; exact absurd (symAt_start hs) h3
  | cons x xs t u v w z h1 h2 h3 h4 _ ih =>
    cases h' with
    | nil _ _ h1' _ h3' => obtain rfl := skips_unique h1 h1'; exact absurd (symAt_start h2) h3'
    | cons x' xs' _ u2 v2 w2 z2 h1' h2' h3' h4' h5' =>
      obtain rfl := skips_unique h1 h1'
      obtain ⟨rfl, rfl⟩ := symAt_unique h2 h2'
      obtain rfl := skips_unique h3 h3'
      obtain ⟨rfl, rfl⟩ := ih h5'
      exact ⟨rfl, rfl⟩

theorem taggedAt_unique {α : Type} {P : α → List Nat → List Nat → Prop} (hP : ∀ (x x' : α) (t u u' : List Nat), P x t u → P x' t u' → x = x' ∧ u = u')
    {g g' : Option (List Nat)} {x x' : α} {t u u' : List Nat} (h : TaggedAt P g x t u) (h' : TaggedAt P g' x' t u') : g = g' ∧ x = x' ∧ u = u' := by
  obtain ⟨t1, h1, -, h2⟩ := h
  obtain ⟨t1', h1', -, h2'⟩ := h'
  obtain rfl := skips_unique h1 h1'
  rcases h2 with ⟨rfl, h3, h4⟩ | ⟨g1, t2, rfl, h3, h4⟩
  · rcases h2' with ⟨rfl, h3', h4'⟩ | ⟨g1', t2', rfl, h3', h4'⟩
    · exact ⟨rfl, hP _ _ _ _ _ h4 h4'⟩
    · obtain ⟨v, rfl⟩ := tagAt_head h3'
      exact absurd rfl (h3 60 v rfl)
  · rcases h2' with ⟨rfl, h3', h4'⟩ | ⟨g1', t2', rfl, h3', h4'⟩
    · obtain ⟨v, rfl⟩ := tagAt_head h3
      exact absurd rfl (h3' 60 v rfl)
    · obtain ⟨rfl, rfl⟩ := (C78_unique _).2.2.2.1 _ _ _ _ h3 h3'
      exact ⟨rfl, hP _ _ _ _ _ h4 h4'⟩

theorem textBody_unique {o o' v w w' u u' : List Nat} (h1 : v = 10 :: w ∨ (v = w ∧ NotNext (· = 10) v)) (h2 : TextAt o w u)
    (h1' : v = 10 :: w' ∨ (v = w' ∧ NotNext (· = 10) v)) (h2' : TextAt o' w' u') :
    (if o = [] ∨ o.getLast? = some 10 then o else o ++ [10]) = (if o' = [] ∨ o'.getLast? = some 10 then o' else o' ++ [10]) ∧ u = u' := by
  have e1 := (copyText_iff [] v _ u).2 ⟨w, o, h1, h2, rfl⟩
  have e2 := (copyText_iff [] v _ u').2 ⟨w', o', h1', h2', rfl⟩
  exact Prod.mk.inj (ok_unique e1 e2)

theorem bodyAt_unique {k : Kw} {d d' : Decl} {t u u' : List Nat} (h : BodyAt k d t u) (h' : BodyAt k d' t u') : d = d' ∧ u = u' := by
  have hd : ∀ {k : Kw} {a a' : Assoc}, (k, a) ∈ declares → (k, a') ∈ declares → a = a' := by
    intro k a a' h h'
    have := (kwAssoc_iff k a).2 h
    rw [(kwAssoc_iff k a').2 h'] at this
    exact (Option.some.inj this).symm
  cases h
  case tokens a tag items h1 h2 =>
    cases h'
    case tokens a' tag' items' h1' h2' =>
      obtain rfl := hd h1 h1'
      obtain ⟨rfl, rfl, rfl⟩ := taggedAt_unique (P := ItemsAt) (fun _ _ _ _ _ => itemsAt_unique) h2 h2'
      exact ⟨rfl, rfl⟩
    all_goals (exfalso; revert h1; first | (cases a <;> decide) | (rename_i h; revert h; cases k <;> cases a <;> decide))
  case types tag items h1 =>
    cases h'
    case types tag' items' h1' =>
      obtain ⟨rfl, rfl, rfl⟩ := taggedAt_unique (P := NamesAt) (fun _ _ _ _ _ => namesAt_unique) h1 h1'
      exact ⟨rfl, rfl⟩
    case tokens a tag items h2 _ => exfalso; revert h2; cases a <;> decide
    case flag h2 => exfalso; revert h2; decide
  case start n w h1 h2 =>
    cases h'
    case start n' w' h1' h2' =>
      obtain rfl := skips_unique h1 h1'
      obtain ⟨e, rfl⟩ := symAt_unique h2 h2'
      cases e
      exact ⟨rfl, rfl⟩
    case tokens a tag items h2 _ => exfalso; revert h2; cases a <;> decide
    case flag h2 => exfalso; revert h2; decide
  case expect n h1 =>
    cases h'
    case expect n' h1' =>
      have := Prod.mk.inj (ok_unique ((declExpect_iff _ _ _).2 h1) ((declExpect_iff _ _ _).2 h1'))
      exact ⟨by rw [this.1], this.2⟩
    case tokens a tag items h2 _ => exfalso; revert h2; cases a <;> decide
    case flag h2 => exfalso; revert h2; decide
  case expectRR n h1 =>
    cases h'
    case expectRR n' h1' =>
      have := Prod.mk.inj (ok_unique ((declExpect_iff _ _ _).2 h1) ((declExpect_iff _ _ _).2 h1'))
      exact ⟨by rw [this.1], this.2⟩
    case tokens a tag items h2 _ => exfalso; revert h2; cases a <;> decide
    case flag h2 => exfalso; revert h2; decide
  case text o w h1 h2 =>
    generalize hk : Kw.TEXT = k at h'
    cases h'
    case text o' w' h1' h2' =>
      have := textBody_unique h1 h2 h1' h2'
      exact ⟨by rw [this.1], this.2⟩
    case tokens a tag items h2 _ => exfalso; subst hk; revert h2; cases a <;> decide
    case flag h2 => exfalso; subst hk; revert h2; decide
    all_goals cases hk
  case union h1 =>
    cases h'
    case union h1' =>
      have e1 := (unionLoop_iff [] (t.length + 1) 0 t u (by omega)).2 h1
      have e2 := (unionLoop_iff [] (t.length + 1) 0 t u' (by omega)).2 h1'
      exact ⟨rfl, ok_unique e1 e2⟩
    case tokens a tag items h2 _ => exfalso; revert h2; cases a <;> decide
    case flag h2 => exfalso; revert h2; decide
  case ident h1 =>
    cases h'
    case ident h1' => exact ⟨rfl, ok_unique ((copyIdent_iff _ _).2 h1) ((copyIdent_iff _ _).2 h1')⟩
    case tokens a tag items h2 _ => exfalso; revert h2; cases a <;> decide
    case flag h2 => exfalso; revert h2; decide
  case flag h1 =>
    cases h'
    case flag => exact ⟨rfl, rfl⟩
    case tokens a tag items h2 _ => exfalso; revert h1 h2; cases k <;> cases a <;> decide
    all_goals (exfalso; revert h1; decide)

theorem declAt_unique {d d' : Decl} {t u u' : List Nat} (h : DeclAt d t u) (h' : DeclAt d' t u') : d = d' ∧ u = u' := by
  obtain ⟨k, v, h1, h2⟩ := (declAt_iff _ _ _).1 h
  obtain ⟨k', v', h1', h2'⟩ := (declAt_iff _ _ _).1 h'
  obtain ⟨rfl, rfl⟩ := (C78_unique t).2.2.2.2.1 _ _ _ _ h1 h1'
  exact bodyAt_unique h2 h2'

theorem declAt_kw {d : Decl} {t u : List Nat} (h : DeclAt d t u) : ∃ k v, KwAt k t v ∧ k ≠ .MARK := by
  obtain ⟨k, v, h1, h2⟩ := (declAt_iff _ _ _).1 h
  refine ⟨k, v, h1, ?_⟩
  rintro rfl
  clear h
  cases h2
  case tokens a _ _ h _ => revert h; cases a <;> decide
  case flag h => revert h; decide

theorem declsAt_unique {ds ds' : List Decl} {t u u' : List Nat} (h : DeclsAt ds t u) (h' : DeclsAt ds' t u') : ds = ds' ∧ u = u' := by
  induction h generalizing ds' u' with
  | done t v u h1 h2 =>
    cases h' with
    | done _ v' _ h1' h2' =>
      obtain rfl := skips_unique h1 h1'
      exact ⟨rfl, ((C78_unique v).2.2.2.2.1 _ _ _ _ h2 h2').2⟩
    | cons d ds _ v' w _ h1' h2' =>
      obtain rfl := skips_unique h1 h1'
      obtain ⟨k, x, h3, h4⟩ := declAt_kw h2'
      exact absurd ((C78_unique v).2.2.2.2.1 _ _ _ _ h3 h2).1 h4
  | cons d ds t v w u h1 h2 _ ih =>
    cases h' with
    | done _ v' _ h1' h2' =>
      obtain rfl := skips_unique h1 h1'
      obtain ⟨k, x, h3, h4⟩ := declAt_kw h2
      exact absurd ((C78_unique v).2.2.2.2.1 _ _ _ _ h3 h2').1 h4
    | cons d' ds' _ v' w' _ h1' h2' h3' =>
      obtain rfl := skips_unique h1 h1'
      obtain ⟨rfl, rfl⟩ := declAt_unique h2 h2'
      obtain ⟨rfl, rfl⟩ := ih h3'
      exact ⟨rfl, rfl⟩

theorem earlyAt_unique {ds ds' : List Decl} {t u u' : List Nat} (h : EarlyAt ds t u) (h' : EarlyAt ds' t u') : ds = ds' ∧ u = u' := by
  induction h generalizing ds' u' with
  | done t u h1 h2 =>
    cases h' with
    | done _ _ h1' h2' => exact ⟨rfl, skips_unique h1 h1'⟩
    | cons d ds _ v' w _ h1' h2' =>
      obtain rfl := skips_unique h1 h1'
      obtain ⟨k, x, h3, h4⟩ := declAt_kw h2'
      obtain ⟨c, r, hc, rfl⟩ := kwAt_percent h3
      exact absurd hc (h2 c r rfl)
  | cons d ds t v w u h1 h2 _ _ ih =>
    cases h' with
    | done _ _ h1' h2' =>
      obtain rfl := skips_unique h1 h1'
      obtain ⟨k, x, h3, h4⟩ := declAt_kw h2
      obtain ⟨c, r, hc, rfl⟩ := kwAt_percent h3
      exact absurd hc (h2' c r rfl)
    | cons d' ds' _ v' w' _ h1' h2' _ h3' =>
      obtain rfl := skips_unique h1 h1'
      obtain ⟨rfl, rfl⟩ := declAt_unique h2 h2'
      obtain ⟨rfl, rfl⟩ := ih h3'
      exact ⟨rfl, rfl⟩

/-! Rules -/

theorem precAt_unique {t u u' : List Nat} (h : PrecAt t u) (h' : PrecAt t u') : u = u' := by
  obtain ⟨p, v, -, rfl, h⟩ := h
  obtain ⟨p', v', -, e, h'⟩ := h'
  obtain ⟨-, rfl⟩ := List.cons.inj e
  have hw : ∀ b ∈ txt "prec", 97 ≤ b ∧ b ≤ 122 := by decide
  have neq : ∀ {v w : List Nat}, WordAt "prec" (61 :: v) w → False := by
    rintro v w ⟨s, e, hf, -⟩
    cases hf with
    | cons h _ =>
      obtain ⟨rfl, -⟩ := List.cons.inj e
      revert h; decide
  rcases h with rfl | h
  · rcases h' with h' | h'
    · exact (List.cons.inj h').2
    · exact (neq h').elim
  · rcases h' with rfl | h'
    · exact (neq h).elim
    · rw [((wordAt_iff "prec" hw v u).1 h).2, ((wordAt_iff "prec" hw v u').1 h').2]

/-- the first character of a part of the rules -/
theorem rtokAt_head {x : RTok} {t u : List Nat} (h : RTokAt x t u) : (SymStart t ∧ ((∃ y, x = .sym y) ∨ ∃ y, x = .lhs y)) ∨
    ∃ c r, t = c :: r ∧ ((x = .bar ∧ c = 124) ∨ ((∃ b ps, x = .action b ps) ∧ (c = 123 ∨ c = 61)) ∨ ((∃ y, x = .prec y) ∧ Percent c)) := by
  cases h with
  | sym y _ v _ h1 => exact .inl ⟨symAt_start h1, .inl ⟨y, rfl⟩⟩
  | lhs y _ v _ h1 => exact .inl ⟨symAt_start h1, .inr ⟨y, rfl⟩⟩
  | bar => exact .inr ⟨124, _, rfl, .inl ⟨rfl, rfl⟩⟩
  | action b ps _ _ h1 =>
    obtain ⟨t1, h1 | h1, -⟩ := h1
    · obtain ⟨-, r, h⟩ := h1
      exact .inr ⟨123, r, h, .inr (.inl ⟨⟨b, ps, rfl⟩, .inl rfl⟩)⟩
    · exact .inr ⟨61, t1, h1, .inr (.inl ⟨⟨b, ps, rfl⟩, .inr rfl⟩)⟩
  | prec y _ v w _ h1 =>
    obtain ⟨p, v, hp, rfl, -⟩ := h1
    exact .inr ⟨p, v, rfl, .inr (.inr ⟨⟨y, rfl⟩, hp⟩)⟩

theorem symStart_not {t : List Nat} (h : SymStart t) : ∀ c r, t = c :: r → c ≠ 124 ∧ c ≠ 123 ∧ c ≠ 61 ∧ ¬ Percent c := by
  obtain ⟨d, v, rfl, hd⟩ := h
  intro c r e
  obtain ⟨rfl, -⟩ := List.cons.inj e
  unfold NameFirst Letter at hd
  unfold Percent
  omega

theorem rtokAt_unique {x x' : RTok} {t u u' : List Nat} (h : RTokAt x t u) (h' : RTokAt x' t u') : x = x' ∧ u = u' := by
  have hh := rtokAt_head h
  have hh' := rtokAt_head h'
  rcases hh with ⟨hs, hx⟩ | ⟨c, r, e, hx⟩
  · rcases hh' with ⟨-, hx'⟩ | ⟨c', r', e', hx'⟩
    · rcases hx with ⟨y, rfl⟩ | ⟨y, rfl⟩ <;> rcases hx' with ⟨y', rfl⟩ | ⟨y', rfl⟩
      · cases h with
        | sym _ _ v _ h1 h2 h3 =>
          cases h' with
          | sym _ _ v' _ h1' h2' h3' =>
            obtain ⟨rfl, rfl⟩ := symAt_unique h1 h1'
            exact ⟨rfl, skips_unique h2 h2'⟩
      · exfalso
        cases h with
        | sym _ _ v _ h1 h2 h3 =>
          cases h' with
          | lhs _ _ v' _ h1' h2' =>
            obtain ⟨rfl, rfl⟩ := symAt_unique h1 h1'
            obtain rfl := skips_unique h2 h2'
            exact h3 58 _ rfl (.inl rfl)
      · exfalso
        cases h with
        | lhs _ _ v _ h1 h2 =>
          cases h' with
          | sym _ _ v' _ h1' h2' h3' =>
            obtain ⟨rfl, rfl⟩ := symAt_unique h1 h1'
            obtain rfl := skips_unique h2 h2'
            exact h3' 58 _ rfl (.inl rfl)
      · cases h with
        | lhs _ _ v _ h1 h2 =>
          cases h' with
          | lhs _ _ v' _ h1' h2' =>
            obtain ⟨rfl, rfl⟩ := symAt_unique h1 h1'
            exact ⟨rfl, (List.cons.inj (skips_unique h2 h2')).2⟩
    · exfalso
      obtain ⟨n1, n2, n3, n4⟩ := symStart_not hs c' r' e'
      rcases hx' with ⟨-, hc⟩ | ⟨-, hc | hc⟩ | ⟨-, hc⟩
      · exact n1 hc
      · exact n2 hc
      · exact n3 hc
      · exact n4 hc
  · rcases hh' with ⟨hs', hx'⟩ | ⟨c', r', e', hx'⟩
    · exfalso
      obtain ⟨n1, n2, n3, n4⟩ := symStart_not hs' c r e
      rcases hx with ⟨-, hc⟩ | ⟨-, hc | hc⟩ | ⟨-, hc⟩
      · exact n1 hc
      · exact n2 hc
      · exact n3 hc
      · exact n4 hc
    · rw [e, List.cons.injEq] at e'
      obtain ⟨rfl, -⟩ := e'
      unfold Percent at hx hx'
      rcases hx with ⟨rfl, hc⟩ | ⟨⟨b, ps, rfl⟩, hc⟩ | ⟨⟨y, rfl⟩, hc⟩ <;> rcases hx' with ⟨rfl, hc'⟩ | ⟨⟨b', ps', rfl⟩, hc'⟩ | ⟨⟨y', rfl⟩, hc'⟩ <;>
        first
        | (exfalso; omega)
        | skip
      · cases h; cases h'; exact ⟨rfl, rfl⟩
      · cases h with
        | action _ _ _ _ h1 =>
          cases h' with
          | action _ _ _ _ h1' =>
            obtain ⟨rfl, rfl, rfl⟩ := actionAt_unique h1 h1'
            exact ⟨rfl, rfl⟩
      · cases h with
        | prec _ _ v w _ h1 h2 h3 =>
          cases h' with
          | prec _ _ v' w' _ h1' h2' h3' =>
            obtain rfl := precAt_unique h1 h1'
            obtain rfl := skips_unique h2 h2'
            obtain ⟨rfl, rfl⟩ := symAt_unique h3 h3'
            exact ⟨rfl, rfl⟩

theorem rulesEnd_not {x : RTok} {t u : List Nat} (h : RTokAt x t u) : ¬ RulesEnd t := by
  intro he
  rcases he with (rfl | ⟨v, rfl⟩) | ⟨p, v, hp, rfl, hv⟩
  · rcases rtokAt_head h with ⟨⟨c, r, e, -⟩, -⟩ | ⟨c, r, e, -⟩ <;> cases e
  · rcases rtokAt_head h with ⟨⟨c, r, e, hc⟩, -⟩ | ⟨c, r, e, hc⟩
    · obtain ⟨rfl, -⟩ := List.cons.inj e
      unfold NameFirst Letter at hc; omega
    · obtain ⟨rfl, -⟩ := List.cons.inj e
      unfold Percent at hc; omega
  · rcases rtokAt_head h with ⟨⟨c, r, e, hc⟩, -⟩ | ⟨c, r, e, hc⟩
    · obtain ⟨rfl, -⟩ := List.cons.inj e
      unfold Percent at hp; unfold NameFirst Letter at hc; omega
    · obtain ⟨rfl, rfl⟩ := List.cons.inj e
      rcases hc with ⟨-, hc⟩ | ⟨-, hc⟩ | ⟨⟨y, rfl⟩, -⟩
      · unfold Percent at hp; omega
      · unfold Percent at hp; omega
      · cases h with
        | prec _ _ w _ _ h1 =>
          obtain ⟨p', v', -, e', h1⟩ := h1
          obtain ⟨-, rfl⟩ := List.cons.inj e'
          rcases hv with ⟨c, x, hc, rfl⟩ | ⟨x, hv⟩
          · rcases h1 with h1 | ⟨s, e1, hf, -⟩
            · obtain ⟨rfl, -⟩ := List.cons.inj h1
              revert hc; unfold Percent; decide
            · cases hf with
              | cons hf _ =>
                obtain ⟨rfl, -⟩ := List.cons.inj e1
                unfold Percent at hc
                change _ = 112 ∨ _ at hf
                omega
          · obtain ⟨s', e2, hf', -⟩ := hv
            cases hf' with
            | cons hf' _ =>
              change _ = 101 ∨ (_ ∧ _ ∧ 101 = _) at hf'
              rcases h1 with h1 | ⟨s, e1, hf, -⟩
              · rw [e2, List.cons_append, List.cons.injEq] at h1
                omega
              · cases hf with
                | cons hf _ =>
                  change _ = 112 ∨ (_ ∧ _ ∧ 112 = _) at hf
                  rw [e2, List.cons_append, List.cons_append, List.cons.injEq] at e1
                  omega

theorem rtokensAt_unique {xs xs' : List RTok} {t : List Nat} (h : RTokensAt xs t) (h' : RTokensAt xs' t) : xs = xs' := by
  induction h generalizing xs' with
  | done t u h1 h2 =>
    cases h' with
    | done => rfl
    | cons x xs _ u' v h1' h2' =>
      obtain rfl := skips_unique h1 h1'
      exact absurd h2 (rulesEnd_not h2')
  | cons x xs t u v h1 h2 _ ih =>
    cases h' with
    | done _ u' h1' h2' =>
      obtain rfl := skips_unique h1 h1'
      exact absurd h2' (rulesEnd_not h2)
    | cons x' xs' _ u' v' h1' h2' h3' =>
      obtain rfl := skips_unique h1 h1'
      obtain ⟨rfl, rfl⟩ := rtokAt_unique h2 h2'
      rw [ih h3']

theorem fileAt_unique {F F' : File} {t : List Nat} (h : FileAt F t) (h' : FileAt F' t) : F = F' := by
  obtain ⟨u, v, w, h1, h2, ⟨z, h3, -, h4⟩, h5⟩ := h
  obtain ⟨u', v', w', h1', h2', ⟨z', h3', -, h4'⟩, h5'⟩ := h'
  obtain ⟨e1, rfl⟩ := declsAt_unique h1 h1'
  obtain ⟨e2, rfl⟩ := earlyAt_unique h2 h2'
  obtain ⟨e3, rfl⟩ := symAt_unique h3 h3'
  obtain ⟨-, rfl⟩ := List.cons.inj (skips_unique h4 h4')
  have e4 := rtokensAt_unique h5 h5'
  rcases F with ⟨d, e, f, g⟩
  rcases F' with ⟨d', e', f', g'⟩
  simp only at e1 e2 e4
  cases e3
  subst e1 e2 e4
  rfl

/-! Actions -/

theorem partOut_unique {x : Types} {b : Bool} {p : Part} {o o' : List Nat} {b1 b1' : Bool} (h : PartOut x b p o b1) (h' : PartOut x b p o' b1') :
    o = o' ∧ b1 = b1' := by
  cases p with
  | code c =>
    rw [codeOut] at h h'
    exact ⟨h.2.trans h'.2.symm, h.1.trans h'.1.symm⟩
  | value g r =>
    cases g with
    | none =>
      rw [valueOut] at h h'
      obtain ⟨rfl, ty, h1, rfl⟩ := h
      obtain ⟨rfl, ty', h1', rfl⟩ := h'
      rw [h1] at h1'; cases h1'
      exact ⟨rfl, rfl⟩
    | some g =>
      rw [taggedOut] at h h'
      exact ⟨h.2.trans h'.2.symm, h.1.trans h'.1.symm⟩
  | place r =>
    rw [placeOut_iff] at h h'
    exact ⟨h.2.trans h'.2.symm, h.1.trans h'.1.symm⟩

theorem partsOut_unique {x : Types} {b : Bool} {ps : List Part} {o o' : List Nat} {b1 b1' : Bool} (h : PartsOut x b ps o b1)
    (h' : PartsOut x b ps o' b1') : o = o' ∧ b1 = b1' := by
  induction h generalizing o' with
  | nil => cases h'; exact ⟨rfl, rfl⟩
  | cons b b2 b3 p ps o os h1 _ ih =>
    cases h' with
    | cons _ b2' _ _ _ o2 os2 h1' h2' =>
      obtain ⟨rfl, rfl⟩ := partOut_unique h1 h1'
      obtain ⟨rfl, rfl⟩ := ih h2'
      exact ⟨rfl, rfl⟩

theorem actsIn_unique {us : List Use} {l : Sym} {n : Nat} {b : Bool} {a r : List El} {o o' : List (Nat × List Nat)} {b1 b1' : Bool}
    (h : ActsIn us l n b a r o b1) (h' : ActsIn us l n b a r o' b1') : o = o' ∧ b1 = b1' := by
  induction h generalizing o' with
  | done => cases h'; exact ⟨rfl, rfl⟩
  | sym _ _ _ _ _ _ _ ih => cases h' with | sym _ _ _ _ _ _ h' => exact ih h'
  | prec _ _ _ _ _ _ _ ih => cases h' with | prec _ _ _ _ _ _ h' => exact ih h'
  | action _ b2 _ tabbed ps o a rest acts h1 _ ih =>
    cases h' with
    | action _ b2' _ _ _ o2 _ _ acts2 h1' h2' =>
      obtain ⟨rfl, rfl⟩ := partsOut_unique h1 h1'
      obtain ⟨rfl, rfl⟩ := ih h2'
      exact ⟨rfl, rfl⟩

theorem actsOf_unique {us : List Use} {n : Nat} {b : Bool} {as : List Alt} {o o' : List (Nat × List Nat)} {b1 b1' : Bool}
    (h : ActsOf us n b as o b1) (h' : ActsOf us n b as o' b1') : o = o' ∧ b1 = b1' := by
  induction h generalizing o' with
  | nil => cases h'; exact ⟨rfl, rfl⟩
  | cons _ _ b2 _ a as acts more h1 _ ih =>
    cases h' with
    | cons _ _ b2' _ _ _ acts2 more2 h1' h2' =>
      obtain ⟨rfl, rfl⟩ := actsIn_unique h1 h1'
      obtain ⟨rfl, rfl⟩ := ih h2'
      exact ⟨rfl, rfl⟩

end Verif.Byacc.Rd
