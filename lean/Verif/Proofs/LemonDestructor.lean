import Verif.Lemon.Destructor
import Verif.Spec.LemonDestructor
import Verif.Props.C75File
/-
Helper lemmas for C76.
-/
set_option autoImplicit false
namespace Verif.Lemon
open Verif.Spec.GFile Verif.Spec.RuleCode

/-! ### `$$` -/

/-- what stands for the value in the field with number `d` -/
def dollarText (d : Nat) : List Nat := text "(yypminor->yy" ++ num d ++ text ")"

theorem dollars_cons2 (d : Nat) (t : List Nat) : dollars d (36 :: 36 :: t) = dollarText d ++ dollars d t := by
  rw [dollars, dollarText, decimal_num]
  have e1 : text "(yypminor->yy" = [40, 121, 121, 112, 109, 105, 110, 111, 114, 45, 62, 121, 121] := by decide
  have e2 : text ")" = [41] := by decide
  rw [e1, e2]

theorem dollars_cons (d c : Nat) (t : List Nat) (h : c = 36 → t.head? ≠ some 36) : dollars d (c :: t) = c :: dollars d t := by
  rw [dollars]
  rintro t' rfl rfl
  simp at h

theorem dd : text "$$" = [36, 36] := by decide
theorem d1 : text "$" = [36] := by decide

theorem dollars_part (d : Nat) (p rest : List Nat) (h : ¬ text "$$" <:+: p ++ text "$") : dollars d (p ++ text "$$" ++ rest) = p ++ dollarText d ++ dollars d rest := by
  rw [dd, d1] at *
  induction p with
  | nil => exact dollars_cons2 d rest
  | cons c p ih =>
    have h' : ¬ [36, 36] <:+: p ++ [36] := fun hh => h (by rw [List.cons_append, List.infix_cons_iff]; exact .inr hh)
    rw [List.cons_append, List.cons_append, dollars_cons, ih h']
    · rfl
    · rintro rfl h2
      apply h
      cases p with
      | nil => exact ⟨[], [], by simp⟩
      | cons e p =>
        simp at h2
        subst h2
        exact ⟨[], p ++ [36], by simp⟩

theorem dollars_last (d : Nat) (p : List Nat) (h : ¬ text "$$" <:+: p) : dollars d p = p := by
  rw [dd] at h
  induction p with
  | nil => rfl
  | cons c p ih =>
    have h' : ¬ [36, 36] <:+: p := fun hh => h (by rw [List.infix_cons_iff]; exact .inr hh)
    rw [dollars_cons, ih h']
    rintro rfl h2
    apply h
    cases p with
    | nil => simp at h2
    | cons e p =>
      simp at h2
      subst h2
      exact ⟨[], p, by simp⟩

/-- the replacement is determined -/
theorem replaced_unique {d : Nat} {t u : List Nat} (h : Replaced t (dollarText d) u) : u = dollars d t := by
  obtain ⟨last, ps, rfl, rfl, h1, h2⟩ := h
  induction ps with
  | nil => simp only [List.flatMap_nil, List.nil_append]; rw [dollars_last d last h2]
  | cons p ps ih =>
    simp only [List.flatMap_cons]
    rw [List.append_assoc, List.append_assoc (p ++ text "$$"), dollars_part d p _ (h1 p (by simp)), ih (fun q hq => h1 q (by simp [hq]))]

theorem dollars_replaced (d : Nat) : ∀ (n : Nat) (t : List Nat), t.length ≤ n → Replaced t (dollarText d) (dollars d t) := by
  intro n
  induction n with
  | zero =>
    intro t ht
    have : t = [] := List.length_eq_zero_iff.mp (by omega)
    subst this
    exact ⟨[], [], by simp, by simp [dollars], by simp, by decide⟩
  | succ n ih =>
    intro t ht
    by_cases hi : text "$$" <:+: t
    · obtain ⟨a, b, e, hk⟩ := first_infix _ _ hi
      have hl : a.length + 2 + b.length = t.length := by rw [e, dd]; simp; omega
      obtain ⟨last, ps, e1, e2, h1, h2⟩ := ih b (by omega)
      have ha : ¬ text "$$" <:+: a ++ text "$" := by
        rintro ⟨x, y, hxy⟩
        have hlen : x.length + 2 + y.length = a.length + 1 := by
          have := congrArg List.length hxy
          rw [dd, d1] at this
          simp at this
          omega
        refine hk x.length (by omega) ?_
        rw [e]
        have e3 : a ++ text "$$" ++ b = (a ++ text "$") ++ (text "$" ++ b) := by rw [dd, d1]; simp
        rw [e3, ← hxy]
        simp
      refine ⟨last, a :: ps, ?_, ?_, ?_, h2⟩
      · rw [List.flatMap_cons, List.append_assoc, ← e1, e]
      · rw [e, dollars_part d a b ha, List.flatMap_cons, List.append_assoc _ _ last, ← e2]
      · intro p hp
        rcases List.mem_cons.mp hp with rfl | hp
        · exact ha
        · exact h1 p hp
    · exact ⟨t, [], by simp, by rw [dollars_last d t hi]; simp, by simp, hi⟩

/-! ### the cases -/

/-- the symbol has a destructor of its own -/
def DSym.own (p : DSym) : Prop := p.sym.type ≠ .TERMINAL ∧ p.sym.destructor ≠ none

theorem dsame_iff (p q : DSym) : p.same q = true ↔ q.own ∧ q.dtnum = p.dtnum ∧ p.sym.destructor = q.sym.destructor := by
  simp [DSym.same, DSym.own, Option.isSome_iff_ne_none, and_assoc]

theorem ownCases_spec : ∀ (l : List DSym) (done : List Nat), (l.map DSym.index).Nodup →
    (∀ p ∈ l, p.index ∈ done → p.own → ∀ q ∈ l, p.same q = true → q.index ∈ done) →
    (∀ p ∈ l, p.own → p.index ∈ done ∨ ∃ c ∈ ownCases l done, p ∈ c.syms) ∧
    ((ownCases l done).flatMap fun c => c.syms.map DSym.index).Nodup ∧
    ∀ c ∈ ownCases l done, ∃ b, c.body = some b ∧ ∀ q ∈ c.syms, q ∈ l ∧ q.index ∉ done ∧ q.own ∧ b.own ∧ b.dtnum = q.dtnum ∧ b.sym.destructor = q.sym.destructor := by
  intro l
  induction l with
  | nil => intro done _ _; simp [ownCases]
  | cons p l ih =>
    intro done hn hd
    have hn' : (l.map DSym.index).Nodup := by simp at hn; simpa using hn.2
    have hpl : ∀ q ∈ l, q.index ≠ p.index := by
      intro q hq e
      simp only [List.map_cons, List.nodup_cons, List.mem_map] at hn
      exact hn.1 ⟨q, hq, e⟩
    have hd' : ∀ p ∈ l, p.index ∈ done → p.own → ∀ q ∈ l, p.same q = true → q.index ∈ done :=
      fun p hp h ho q hq => hd p (by simp [hp]) h ho q (by simp [hq])
    have hinj : ∀ q ∈ l, ∀ q' ∈ l, q.index = q'.index → q = q' := fun q hq q' hq' e => List.inj_on_of_nodup_map hn' hq hq' e
    rw [ownCases]
    by_cases h1 : p.sym.type = .TERMINAL ∨ p.sym.destructor = none ∨ p.index ∈ done
    · rw [if_pos h1]
      obtain ⟨a1, a2, a3⟩ := ih done hn' hd'
      refine ⟨?_, a2, fun c hc => ?_⟩
      · intro q hq ho
        rcases List.mem_cons.mp hq with rfl | hq
        · rcases h1 with h1 | h1 | h1
          · exact absurd h1 ho.1
          · exact absurd h1 ho.2
          · exact .inl h1
        · exact a1 q hq ho
      · obtain ⟨b, hb, h⟩ := a3 c hc
        exact ⟨b, hb, fun q hq => ⟨by simp [(h q hq).1], (h q hq).2⟩⟩
    · rw [if_neg h1]
      simp only [not_or] at h1
      obtain ⟨h1, h2, h3⟩ := h1
      have hpo : p.own := ⟨h1, h2⟩
      dsimp only
      have hoth : ∀ i, i ∈ (l.filter fun q => p.same q).map DSym.index ↔ ∃ q ∈ l, p.same q = true ∧ q.index = i := by
        intro i; simp only [List.mem_map, List.mem_filter, and_assoc]
      obtain ⟨a1, a2, a3⟩ := ih (done ++ (l.filter fun q => p.same q).map DSym.index) hn' (by
        intro q hq h ho q' hq' hsame
        rw [List.mem_append, hoth] at h ⊢
        rcases h with h | ⟨q2, hq2, h4, h5⟩
        · exact .inl (hd' q hq h ho q' hq' hsame)
        · have := hinj q2 hq2 q hq h5
          subst this
          refine .inr ⟨q', hq', ?_, rfl⟩
          rw [dsame_iff] at hsame h4 ⊢
          exact ⟨hsame.1, hsame.2.1.trans h4.2.1, h4.2.2.trans hsame.2.2⟩)
      refine ⟨?_, ?_, ?_⟩
      · intro q hq ho
        rcases List.mem_cons.mp hq with rfl | hq
        · exact .inr ⟨_, List.mem_cons_self, List.mem_cons_self⟩
        · rcases a1 q hq ho with h | ⟨c, hc, h⟩
          · rw [List.mem_append] at h
            rcases h with h | h
            · exact .inl h
            · obtain ⟨q2, hq2, h4, h5⟩ := (hoth _).mp h
              have := hinj q2 hq2 q hq h5
              subst this
              exact .inr ⟨_, List.mem_cons_self, List.mem_cons_of_mem _ (List.mem_filter.mpr ⟨hq2, h4⟩)⟩
          · exact .inr ⟨c, by simp [hc], h⟩
      · rw [List.flatMap_cons, List.nodup_append]
        refine ⟨?_, a2, ?_⟩
        · dsimp only
          rw [List.map_cons, List.nodup_cons]
          refine ⟨fun h => ?_, hn'.sublist (List.filter_sublist.map _)⟩
          obtain ⟨q, hq, _, e⟩ := (hoth _).mp h
          exact hpl q hq e
        · intro i hi j hj e
          subst e
          rw [List.mem_flatMap] at hj
          obtain ⟨c, hc, hj⟩ := hj
          obtain ⟨b, _, h⟩ := a3 c hc
          obtain ⟨q, hq, rfl⟩ := List.mem_map.mp hj
          obtain ⟨g1, g2, _⟩ := h q hq
          rw [List.map_cons, List.mem_cons] at hi
          rcases hi with hi | hi
          · exact hpl q g1 hi
          · exact g2 (List.mem_append.mpr (.inr hi))
      · intro c hc
        rcases List.mem_cons.mp hc with rfl | hc
        · refine ⟨p, rfl, ?_⟩
          intro q hq
          rcases List.mem_cons.mp hq with rfl | hq
          · exact ⟨by simp, h3, hpo, hpo, rfl, rfl⟩
          · obtain ⟨hq, hs⟩ := List.mem_filter.mp hq
            have hs' := (dsame_iff _ _).mp hs
            refine ⟨by simp [hq], ?_, hs'.1, hpo, hs'.2.1.symm, hs'.2.2⟩
            intro hdone
            refine h3 (hd q (by simp [hq]) hdone hs'.1 p (by simp) ?_)
            rw [dsame_iff]
            exact ⟨hpo, hs'.2.1.symm, hs'.2.2.symm⟩
        · obtain ⟨b, hb, h⟩ := a3 c hc
          refine ⟨b, hb, fun q hq => ?_⟩
          obtain ⟨g1, g2, g3⟩ := h q hq
          exact ⟨by simp [g1], fun hh => g2 (List.mem_append.mpr (.inl hh)), g3⟩

/-! ### the symbols of a file -/

variable {o : Opts} {items : List Verif.Spec.GFile.Item} {s : RState}

theorem nodup_numbered (hv : Valid o items) : (numbered o items).Nodup := by
  have := nodup_symOrder hv (o := o)
  unfold symOrder at this
  exact (this.of_append_left).of_append_left

theorem dsyms_mem (hv : Valid o items) (hh : Holds o items s) (p : DSym) :
    p ∈ s.dsyms ↔ ∃ i x, (numbered o items)[i]? = some x ∧ p = ⟨symOf o items x, i, s.dtnum x⟩ := by
  have hnd := nodup_numbered hv (o := o)
  have hd : ∀ i x, (numbered o items)[i]? = some x → s.union.2.getD i 0 = s.dtnum x := by
    intro i x hx
    have hi : i < (numbered o items).length := (List.getElem?_eq_some_iff.mp hx).1
    have hx' : (numbered o items)[i] = x := (List.getElem?_eq_some_iff.mp hx).2
    have : (s.realSymbols.findIdx fun y => y.name == x) = i := by
      rw [realSymbols_eq hv hh, List.findIdx_map]
      show List.findIdx (fun y => y == _) _ = i
      rw [← hx']
      exact hnd.idxOf_getElem i hi
    rw [RState.dtnum, this]
  unfold RState.dsyms
  rw [List.mem_map]
  constructor
  · rintro ⟨⟨y, i⟩, hy, rfl⟩
    rw [List.mem_zipIdx_iff_getElem?] at hy
    simp only at hy
    rw [realSymbols_eq hv hh, List.getElem?_map] at hy
    obtain ⟨x, hx, rfl⟩ := Option.map_eq_some_iff.mp hy
    exact ⟨i, x, hx, by simp only [hd i x hx]⟩
  · rintro ⟨i, x, hx, rfl⟩
    refine ⟨(symOf o items x, i), ?_, by simp only [hd i x hx]⟩
    rw [List.mem_zipIdx_iff_getElem?]
    simp only
    rw [realSymbols_eq hv hh, List.getElem?_map]
    have hx' : (text "$" :: tokens o items ++ nonterminals o items)[i]? = some x := hx
    rw [hx']
    rfl

theorem dsyms_index (s : RState) : (s.dsyms.map DSym.index).Nodup := by
  unfold RState.dsyms
  rw [List.map_map]
  have : (DSym.index ∘ fun (p : Sym × Nat) => (⟨p.1, p.2, s.union.2.getD p.2 0⟩ : DSym)) = Prod.snd := by funext p; rfl
  rw [this, List.zipIdx_map_snd]
  exact List.nodup_range'

end Verif.Lemon
