import Verif.Proofs.LemonCodeRule
/-
C75: the code of rules.
-/
set_option autoImplicit false
namespace Verif.Lemon
open Verif.Spec.RuleCode
open Verif.Spec.GFile (text)
open Verif.Spec.Words (letter digit inName)

theorem replace_mark (m m' : List Nat) (L : Labels) (value : Ref → List Nat) (token : Nat → List Nat) : ∀ (ps : List Piece) (a : Bool), .mark ∉ ps →
    replace m L value token a ps = replace m' L value token a ps := by
  intro ps
  induction ps with
  | nil => intro a _; rfl
  | cons p ps ih =>
    intro a h
    have h' : .mark ∉ ps := fun hm => h (by simp [hm])
    cases p with
    | mark => simp at h
    | name x => simp only [replace, ih _ h']
    | other c => simp only [replace, ih _ h']

theorem replace_ne_nil (m : List Nat) (L : Labels) (value : Ref → List Nat) (token : Nat → List Nat) (hm : m ≠ []) (hv : ∀ r, value r ≠ []) (ht : ∀ i, token i ≠ [])
    (ps : List Piece) (hx : ∀ x, .name x ∈ ps → x ≠ []) (a : Bool) (hne : ps ≠ []) : replace m L value token a ps ≠ [] := by
  have hname : ∀ (x : List Nat) (qs : List Piece) (a : Bool), x ≠ [] → replace m L value token a (.name x :: qs) ≠ [] := by
    intro x qs a hx0 h
    simp only [replace, List.append_eq_nil_iff] at h
    have h := h.1
    split at h
    · exact hx0 h
    · exact hv _ h
    · split at h
      · exact ht _ h
      · exact hv _ h
  cases ps with
  | nil => simp at hne
  | cons p ps =>
    cases p with
    | mark => intro h; simp only [replace, List.append_eq_nil_iff] at h; exact hm h.1
    | name x => exact hname x ps a (hx x (by simp))
    | other c =>
      intro h
      simp only [replace, List.append_eq_nil_iff] at h
      obtain ⟨h1, h2⟩ := h
      split at h1
      · rename_i hc
        cases ps with
        | nil => simp [Labels.isRhs] at hc
        | cons q qs =>
          cases q with
          | mark => simp [Labels.isRhs] at hc
          | other d => simp [Labels.isRhs] at hc
          | name x => exact hname x qs _ (hx x (by simp)) h2
      · simp at h1

variable {s : RState} {r : RRule} {t : Trans} {ps : List Piece}

/-- every text of code can be divided into pieces, in one way -/
theorem C75_pieces (L : Labels) (z : List Nat) : ∃! ps, Divides L.comment z ps := by
  obtain ⟨ps, h⟩ := divides_exists L z
  exact ⟨ps, h, fun qs h' => divides_unique h' h⟩

/-- The code of a rule can be translated if and only if it does not end in a label, and the labels are short.  (For the conditions
on the comment and on token classes see `C75_mark_violated` and `C75_class_violated`.) -/
theorem C75_safe_partial (hi : r.labels.Idents) (hd : Divides r.labels.comment r.source ps) (hb : ¬ LabelBeforeMark r.labels ps)
    (hf : ∀ p ∈ r.rhs, p.2.isSome → (s.refDtnum p.1).isSome) :
    (translateCode s r).isSome ↔ ¬ EndsInLabel r.labels ps ∧ ∀ m, r.labels.comment = some m → m.length < 900 := by
  rw [translateCode_eq s r ps hd]
  by_cases he : EndsInLabel r.labels ps
  · rw [codeLoop_rule_end s r ps hi hd hb he]
    simp [he]
  · obtain ⟨st', h1, _⟩ := codeLoop_rule s r ps hi hd hb hf he (r.begin s)
    simp only [h1, Option.map_some, he, not_false_eq_true, true_and]
    split
    · rename_i h; simpa using h
    · rename_i h; simpa using h

theorem translated (hi : r.labels.Idents) (hd : Divides r.labels.comment r.source ps) (hb : ¬ LabelBeforeMark r.labels ps)
    (hf : ∀ p ∈ r.rhs, p.2.isSome → (s.refDtnum p.1).isSome) (ht : translateCode s r = some t) :
    ∃ st', t = r.finish s (r.isLocal ps) st' ∧
      LoopDone (r.env s (r.isLocal ps) (r.labels.comment.bind fun m => markLen m ps)) (r.labels.comment.getD [47]) false ps (r.begin s) st' := by
  have he : ¬ EndsInLabel r.labels ps := ((C75_safe_partial (s := s) hi hd hb hf).mp (by rw [ht]; rfl)).1
  obtain ⟨st', h1, h2⟩ := codeLoop_rule s r ps hi hd hb hf he (r.begin s)
  rw [translateCode_eq s r ps hd] at ht
  split at ht
  · rw [h1, Option.map_some, Option.some.injEq] at ht
    exact ⟨st', ht.symm, h2⟩
  · simp at ht

/-- If there is no message, the code of a rule is as given, but every label is replaced: that of the left side by the place of its
value, that of a symbol of the right side by the place of its value on the stack, or with `@` by the place of the number of the token. -/
theorem C75_code_partial (hi : r.labels.Idents) (hd : Divides r.labels.comment r.source ps) (hb : ¬ LabelBeforeMark r.labels ps)
    (hf : ∀ p ∈ r.rhs, p.2.isSome → (s.refDtnum p.1).isSome) (ht : translateCode s r = some t) (he : t.errs = []) :
    t.code = replace (r.labels.comment.getD []) r.labels (place r.rhs.length (s.dtnum r.lhs) (r.field s) t.lhsLocal) (major r.rhs.length) false ps := by
  obtain ⟨st', rfl, h2⟩ := translated hi hd hb hf ht
  have hm : replace (r.labels.comment.getD []) r.labels (place r.rhs.length (s.dtnum r.lhs) (r.field s) (r.isLocal ps)) (major r.rhs.length) false ps =
      replace (r.labels.comment.getD [47]) r.labels (place r.rhs.length (s.dtnum r.lhs) (r.field s) (r.isLocal ps)) (major r.rhs.length) false ps := by
    rcases Option.eq_none_or_eq_some r.labels.comment with hc | ⟨m, hc⟩
    · rw [hc] at hd
      exact replace_mark _ _ _ _ _ _ _ (fun h => by obtain ⟨m', e, _⟩ := hd.marked.mp h; simp at e)
    · rw [hc]; rfl
  obtain ⟨e, he1, he2⟩ := h2.errs
  have hn : NoBad r.labels false ps := by
    apply he2.mp
    simp only [RRule.finish, List.append_eq_nil_iff] at he
    have := he.1.1
    rw [he1, List.append_eq_nil_iff] at this
    exact this.2
  have ho := h2.out hn
  simp only [Bool.false_eq_true, false_and, if_false, env_value, env_token, env_labels] at ho
  have hb0 : (r.begin s).out = [] := rfl
  rw [hb0, List.nil_append] at ho
  simp only [RRule.finish]
  rw [hm, ho]
  split
  · rename_i h0
    rw [h0]
    have hps : ps = [] := by
      by_contra hne
      refine replace_ne_nil _ _ _ _ ?_ ?_ ?_ ps (fun x hx => (hd.names x hx).1) false hne h0
      · obtain ⟨m', e⟩ := comment_slash' r.labels; rw [e]; simp
      · intro x
        have e1 : text "yylhsminor.yy" ≠ [] := by decide
        have e2 : text "yymsp[" ≠ [] := by decide
        cases x with
        | lhs => simp only [place]; split <;> simp [minor, entry, e1, e2]
        | rhs i => simp [place, minor, entry, e2]
      · intro i
        have e2 : text "yymsp[" ≠ [] := by decide
        simp [major, entry, e2]
    rw [hd.text, hps]
    rfl
  · rfl

theorem codeTail_errs (used : List Bool) (i : Nat) (p : RhsRef × Option (List Nat)) : (codeTail s r used i p).1 = [] ↔
    ∀ a, p.2 = some a → (0 < i → r.lhsalias ≠ some a ∧ ∀ q ∈ r.rhs.take i, q.2 ≠ some a) ∧ used.getD i false = true := by
  unfold codeTail
  rcases p with ⟨x, _ | a⟩
  · simp
  · simp only [Option.some.injEq, List.append_eq_nil_iff, forall_eq']
    constructor
    · rintro ⟨h1, h2⟩
      refine ⟨fun hi => ?_, ?_⟩
      · rw [if_pos hi, List.append_eq_nil_iff] at h1
        constructor
        · intro h; rw [if_pos h] at h1; simp at h1
        · intro q hq h
          have : (r.rhs.take i).any (fun q => q.2 == some a) = true := by rw [List.any_eq_true]; exact ⟨q, hq, by simp [h]⟩
          rw [if_pos this] at h1
          simp at h1
      · by_contra h
        rw [if_neg h] at h2
        simp at h2
    · rintro ⟨h1, h2⟩
      rw [if_pos h2]
      refine ⟨?_, rfl⟩
      split
      · rename_i hi
        obtain ⟨g1, g2⟩ := h1 hi
        rw [if_neg g1, if_neg]
        · rfl
        · intro h
          rw [List.any_eq_true] at h
          obtain ⟨q, hq, e⟩ := h
          exact g2 q hq (by simpa using e)
      · rfl

theorem uses_lhs (L : Labels) (ps : List Piece) : UsesLabel L ps .lhs ↔ ∃ a, L.lhs = some a ∧ Occurs ps a := by
  unfold UsesLabel Labels.ref Occurs
  constructor
  · rintro ⟨x, h1, h2⟩
    split at h2
    · rename_i h; exact ⟨x, h, h1⟩
    · split at h2 <;> simp at h2
  · rintro ⟨a, h1, h2⟩
    exact ⟨a, h2, by rw [if_pos h1]⟩

theorem uses_rhs (L : Labels) (ps : List Piece) (i : Nat) : UsesLabel L ps (.rhs i) ↔
    ∃ a, L.rhs[i]? = some (some a) ∧ L.lhs ≠ some a ∧ (∀ j < i, L.rhs[j]? ≠ some (some a)) ∧ Occurs ps a := by
  unfold UsesLabel Labels.ref Occurs
  constructor
  · rintro ⟨x, h1, h2⟩
    split at h2
    · simp at h2
    · rename_i hl
      split at h2
      · rename_i hm
        simp only [Option.some.injEq, Ref.rhs.injEq] at h2
        have hlt := List.idxOf_lt_length_of_mem hm
        refine ⟨x, ?_, hl, ?_, h1⟩
        · rw [← h2, List.getElem?_eq_getElem hlt, List.getElem_idxOf hlt]
        · intro j hj e
          have hj' : j < L.rhs.idxOf (some x) := by omega
          have := List.not_of_lt_findIdx (p := (· == some x)) (xs := L.rhs) (i := j) hj'
          obtain ⟨hjl, e⟩ := List.getElem?_eq_some_iff.mp e
          simp [e] at this
      · simp at h2
  · rintro ⟨a, h1, h2, h3, h4⟩
    refine ⟨a, h4, ?_⟩
    have hm : some a ∈ L.rhs := List.mem_of_getElem? h1
    rw [if_neg h2, if_pos hm]
    simp only [Option.some.injEq, Ref.rhs.injEq]
    have hlt := List.idxOf_lt_length_of_mem hm
    have hg := List.getElem_idxOf hlt
    rcases Nat.lt_trichotomy (L.rhs.idxOf (some a)) i with h | h | h
    · exact absurd (by rw [List.getElem?_eq_getElem hlt, hg]) (h3 _ h)
    · exact h
    · have := List.not_of_lt_findIdx (p := (· == some a)) (xs := L.rhs) (i := i) h
      obtain ⟨hjl, e⟩ := List.getElem?_eq_some_iff.mp h1
      simp [e] at this

/-- There is no message if and only if the labels are used as they must be. -/
theorem C75_errors_partial (hi : r.labels.Idents) (hd : Divides r.labels.comment r.source ps) (hb : ¬ LabelBeforeMark r.labels ps)
    (hf : ∀ p ∈ r.rhs, p.2.isSome → (s.refDtnum p.1).isSome) (ht : translateCode s r = some t) :
    t.errs = [] ↔ Proper r.labels ps (∀ p, r.rhs.head? = some p → s.dtnum r.lhs = s.refField p.1) := by
  obtain ⟨st', rfl, h2⟩ := translated hi hd hb hf ht
  obtain ⟨e, he1, he2⟩ := h2.errs
  have hd0 : (r.begin s).dontUseRhs0 = false := rfl
  rw [hd0, env_labels, noBad_iff] at he2
  have hl0 := h2.lhsused
  have hu0 := h2.used
  rw [env_labels] at hl0 hu0
  have hbl : (r.begin s).lhsused = sameLabel r := rfl
  have hbu : (r.begin s).used = (List.replicate r.rhs.length false).set 0 (sameLabel r) := rfl
  rw [hbl, uses_lhs] at hl0
  rw [hbu] at hu0
  have hrhs : ∀ i : Nat, ∀ a : List Nat, r.labels.rhs[i]? = some (some a) ↔ ∃ p, r.rhs[i]? = some p ∧ p.2 = some a := by
    intro i a
    simp [RRule.labels]
  have hhead : r.labels.rhs.head? = r.labels.rhs[0]? := by rw [List.head?_eq_getElem?]
  have hsame : sameLabel r = true ↔ ∃ a, r.lhsalias = some a ∧ r.labels.rhs[0]? = some (some a) := by
    unfold sameLabel
    rw [← hhead]
    have : r.labels.rhs.head? = r.rhs.head?.map Prod.snd := by simp [RRule.labels]
    rw [this, Bool.and_eq_true, beq_iff_eq]
    constructor
    · rintro ⟨h1, h2⟩
      obtain ⟨a, ha⟩ := Option.isSome_iff_exists.mp h1
      exact ⟨a, ha, by rw [h2, ha]⟩
    · rintro ⟨a, h1, h2⟩
      exact ⟨by rw [h1]; rfl, by rw [h1, h2]⟩
  have hlhs : r.labels.lhs = r.lhsalias := rfl
  have hused : ∀ i < r.rhs.length, st'.used.getD i false = true ↔ (i = 0 ∧ sameLabel r = true) ∨ UsesLabel r.labels ps (.rhs i) := by
    intro i hi'
    rw [hu0 i (by simpa using hi')]
    have : ((List.replicate r.rhs.length false).set 0 (sameLabel r)).getD i false = true ↔ i = 0 ∧ sameLabel r = true := by
      rw [List.getD_eq_getElem?_getD, List.getElem?_set]
      by_cases h0 : i = 0
      · subst h0; simp [hi']
      · simp [Ne.symm h0, h0, List.getElem?_replicate, hi']
    rw [this]
  have hfin : (r.finish s (r.isLocal ps) st').errs = [] ↔ (r.begin s).errs = [] ∧ e = [] ∧ (∀ a, r.lhsalias = some a → st'.lhsused = true) ∧
      ∀ i p, r.rhs[i]? = some p → (codeTail s r st'.used i p).1 = [] := by
    simp only [RRule.finish, List.append_eq_nil_iff, he1]
    have g1 : r.lhsErrs st'.lhsused = [] ↔ ∀ a, r.lhsalias = some a → st'.lhsused = true := by
      unfold RRule.lhsErrs
      rcases r.lhsalias with _ | a
      · simp
      · cases st'.lhsused <;> simp
    have g2 : (r.rhs.zipIdx.map fun p => codeTail s r st'.used p.2 p.1).flatMap Prod.fst = [] ↔ ∀ i p, r.rhs[i]? = some p → (codeTail s r st'.used i p).1 = [] := by
      rw [List.flatMap_eq_nil_iff]
      simp only [List.mem_map, forall_exists_index, and_imp, forall_apply_eq_imp_iff₂]
      constructor
      · intro h i p hp
        exact h (p, i) (List.mem_zipIdx_iff_getElem?.mpr hp)
      · intro h a hm
        exact h a.2 a.1 (List.mem_zipIdx_iff_getElem?.mp hm)
    rw [g1, g2]
    tauto
  rw [hfin]
  constructor
  · rintro ⟨k1, k2, k3, k4⟩
    have k4 : ∀ i p, r.rhs[i]? = some p → ∀ a, p.2 = some a → (0 < i → r.lhsalias ≠ some a ∧ ∀ q ∈ r.rhs.take i, q.2 ≠ some a) ∧ st'.used.getD i false = true :=
      fun i p hp => (codeTail_errs st'.used i p).mp (k4 i p hp)
    have hdist : ∀ (i j : Nat) (a : List Nat), r.labels.rhs[i]? = some (some a) → r.labels.rhs[j]? = some (some a) → i = j := by
      have haux : ∀ (i j : Nat) (a : List Nat), r.labels.rhs[i]? = some (some a) → r.labels.rhs[j]? = some (some a) → ¬ j < i := by
        intro i j a h1 h2 hlt
        obtain ⟨p, hp, hpa⟩ := (hrhs i a).mp h1
        obtain ⟨q, hq, hqa⟩ := (hrhs j a).mp h2
        refine ((k4 i p hp a hpa).1 (by omega)).2 q ?_ hqa
        apply List.mem_of_getElem? (i := j)
        rw [List.getElem?_take_of_lt hlt, hq]
      intro i j a h1 h2
      have := haux i j a h1 h2
      have := haux j i a h2 h1
      omega
    refine ⟨?_, ?_, hdist, ?_, ?_⟩
    · intro a ha
      rcases hl0.mp (k3 a ha) with h | ⟨b, hb1, hb2⟩
      · obtain ⟨b, hb1, hb2⟩ := hsame.mp h
        rw [← hlhs, ha] at hb1
        simp only [Option.some.injEq] at hb1
        subst hb1
        exact .inr (by rw [hhead, hb2])
      · rw [ha] at hb1
        simp only [Option.some.injEq] at hb1
        subst hb1
        exact .inl hb2
    · intro a ha
      obtain ⟨i, hi'⟩ := List.mem_iff_getElem?.mp ha
      obtain ⟨p, hp, hpa⟩ := (hrhs i a).mp hi'
      have hil : i < r.rhs.length := (List.getElem?_eq_some_iff.mp hp).1
      rcases (hused i hil).mp (k4 i p hp a hpa).2 with ⟨rfl, h⟩ | h
      · obtain ⟨b, hb1, hb2⟩ := hsame.mp h
        rw [hi'] at hb2
        simp only [Option.some.injEq] at hb2
        subst hb2
        exact .inr hb1
      · obtain ⟨b, hb1, _, _, hb2⟩ := (uses_rhs _ _ _).mp h
        rw [hi'] at hb1
        simp only [Option.some.injEq] at hb1
        subst hb1
        exact .inl hb2
    · intro i a ha hi'
      obtain ⟨p, hp, hpa⟩ := (hrhs i a).mp hi'
      have h0 : i = 0 := by
        by_contra h
        exact ((k4 i p hp a hpa).1 (by omega)).1 ha
      refine ⟨h0, ?_⟩
      subst h0
      have hs : sameLabel r = true := hsame.mpr ⟨a, ha, hi'⟩
      intro q hq
      rcases hr : r.rhs with _ | ⟨⟨x, y⟩, l⟩
      · rw [hr] at hq; simp at hq
      · rw [hr] at hq
        simp only [List.head?_cons, Option.some.injEq] at hq
        subst hq
        by_contra hne
        unfold RRule.begin at k1
        simp only [hr] at k1
        rw [if_pos ⟨hs, hne⟩] at k1
        simp at k1
    · intro u v a e' ha hoc
      have hmk : .mark ∈ ps := by rw [e']; simp
      obtain ⟨m', em, _⟩ := hd.marked.mp hmk
      obtain ⟨a', b', h1', h2', hab, _⟩ := comment_form _ _ em
      rw [h2'] at ha
      simp only [Option.some.injEq] at ha
      subst ha
      refine (he2.mp k2).2 u v e' ((uses_rhs _ _ _).mpr ⟨b', ?_, ?_, by simp, hoc⟩)
      · rw [← hhead, h2']
      · rw [h1']; simpa using hab
  · intro hp
    refine ⟨?_, ?_, ?_, ?_⟩
    · unfold RRule.begin
      simp only
      rcases hr : r.rhs with _ | ⟨⟨x, y⟩, l⟩
      · rfl
      · simp only
        rw [if_neg]
        rintro ⟨hs, hne⟩
        obtain ⟨a, ha1, ha2⟩ := hsame.mp hs
        exact hne ((hp.first 0 a ha1 ha2).2 (x, y) (by rw [hr]; rfl))
    · rw [he2]
      refine ⟨by simp, ?_⟩
      intro u v e' hus
      obtain ⟨a, h1, _, _, h4⟩ := (uses_rhs _ _ _).mp hus
      exact hp.after u v a e' (by rw [hhead, h1]) h4
    · intro a ha
      rw [hl0]
      rcases hp.lhs a ha with h | h
      · exact .inr ⟨a, ha, h⟩
      · exact .inl (hsame.mpr ⟨a, ha, by rw [← hhead, h]⟩)
    · intro i p hp'
      rw [codeTail_errs]
      intro a hpa
      have hia : r.labels.rhs[i]? = some (some a) := (hrhs i a).mpr ⟨p, hp', hpa⟩
      have hil : i < r.rhs.length := (List.getElem?_eq_some_iff.mp hp').1
      refine ⟨fun h0 => ⟨fun hl => ?_, fun q hq hqa => ?_⟩, ?_⟩
      · have := (hp.first i a hl hia).1
        omega
      · obtain ⟨j, hj⟩ := List.mem_iff_getElem?.mp hq
        have hji : j < i := by
          have := (List.getElem?_eq_some_iff.mp hj).1
          simp at this; omega
        rw [List.getElem?_take_of_lt hji] at hj
        have := hp.distinct i j a hia ((hrhs j a).mpr ⟨q, hj, hqa⟩)
        omega
      · rw [hused i hil]
        by_cases hl : r.lhsalias = some a
        · have h0 := (hp.first i a hl hia).1
          subst h0
          exact .inl ⟨rfl, hsame.mpr ⟨a, hl, hia⟩⟩
        · refine .inr ((uses_rhs _ _ _).mpr ⟨a, hia, hl, ?_, ?_⟩)
          · intro j hj hja
            have := hp.distinct i j a hia hja
            omega
          · rcases hp.rhs a (List.mem_of_getElem? hia) with h | h
            · exact h
            · exact absurd h hl

/-- the calls of destructors for those symbols, with the given numbers, that have no label -/
def destroyCalls (s : RState) (r : RRule) (is : List Nat) : List Nat :=
  is.flatMap fun i => match r.rhs[i]? with
    | some (x, none) => if s.hasDestructor x then destroy (s.refIndex x) r.rhs.length i else []
    | _ => []

theorem codeTail_calls (used : List Bool) (i : Nat) (p : RhsRef × Option (List Nat)) (hp : r.rhs[i]? = some p) :
    (codeTail s r used i p).2 = if 0 < i then destroyCalls s r [i] else [] := by
  unfold codeTail destroyCalls
  rcases p with ⟨x, _ | a⟩
  · simp only [List.flatMap_cons, List.flatMap_nil, List.append_nil, hp]
    by_cases h0 : 0 < i
    · simp only [h0, true_and, if_true]
      rw [destroy_eq]
    · simp [h0]
  · simp [hp]

/-- What is put around the code.  Each symbol without a label is destroyed once: the first before the code, which may overwrite its entry, and the others behind it;
labelled symbols are not.  If the value of the left side is in a variable, it is copied at last, when the value of the first symbol is no longer
needed; this is so if both have labels, these are different, and there is no comment. -/
theorem C75_around_partial (hi : r.labels.Idents) (hd : Divides r.labels.comment r.source ps) (hb : ¬ LabelBeforeMark r.labels ps)
    (hf : ∀ p ∈ r.rhs, p.2.isSome → (s.refDtnum p.1).isSome) (ht : translateCode s r = some t) :
    t.pre = destroyCalls s r ((List.range r.rhs.length).take 1) ∧
    t.suffix = destroyCalls s r ((List.range r.rhs.length).drop 1) ++
      (if t.lhsLocal then text "  " ++ minor r.rhs.length 0 (s.dtnum r.lhs) ++ text " = " ++ text "yylhsminor.yy" ++ num (s.dtnum r.lhs) ++ text ";\n" else []) ∧
    (t.lhsLocal = true ↔ r.labels.comment ≠ none ∧ .mark ∉ ps) ∧
    (t.noCode = true ↔ r.code = none ∧ t.pre = [] ∧ t.suffix = []) ∧
    t.line = if r.code = none then r.ruleline else r.line := by
  obtain ⟨st', rfl, h2⟩ := translated hi hd hb hf ht
  refine ⟨?_, ?_, ?_, ?_, ?_⟩
  · simp only [RRule.finish, destroyCalls]
    rcases hr : r.rhs with _ | ⟨⟨x, _ | a⟩, l⟩
    · rfl
    · simp only [List.length_cons, List.range_succ_eq_map, List.take_succ_cons, List.take_zero, List.flatMap_cons, List.flatMap_nil, List.append_nil, List.getElem?_cons_zero]
      rw [← destroy_eq]
      congr 2
    · simp [List.range_succ_eq_map]
  · simp only [RRule.finish]
    congr 1
    · have hz : ∀ (l : List (RhsRef × Option (List Nat))) (k : Nat), (∀ j p, l[j]? = some p → r.rhs[k + j]? = some p) →
          ((l.zipIdx k).map fun p => codeTail s r st'.used p.2 p.1).flatMap Prod.snd = (List.range' k l.length).flatMap fun i => if 0 < i then destroyCalls s r [i] else [] := by
        intro l
        induction l with
        | nil => intro k _; rfl
        | cons p l ih =>
          intro k hk
          simp only [List.zipIdx_cons, List.map_cons, List.flatMap_cons, List.length_cons, List.range'_succ]
          rw [codeTail_calls _ _ _ (by simpa using hk 0 p rfl), ih (k + 1) (fun j q hq => by
            have := hk (j + 1) q (by simpa using hq)
            rw [← this]; congr 1; omega)]
      rw [hz r.rhs 0 (fun j p hp => by simpa using hp), ← List.range_eq_range']
      unfold destroyCalls
      cases r.rhs.length with
      | zero => rfl
      | succ n =>
        rw [List.range_succ_eq_map]
        simp only [List.flatMap_cons, Nat.lt_irrefl, if_false, List.nil_append, List.drop_succ_cons, List.drop_zero, List.flatMap_map]
        simp
    · cases r.isLocal ps with
      | false => rfl
      | true =>
        simp only [Bool.not_true, Bool.false_eq_true, if_false, if_true, RRule.env]
        have := minor_eq r.rhs.length 0 (s.dtnum r.lhs)
        rw [← this, ← decimal_num]
        have e1 : text "  " = [32, 32] := by decide
        have e2 : text " = " = [32, 61, 32] := by decide
        have e3 : text "yylhsminor.yy" = yylhsminor ++ [46, 121, 121] := by decide
        have e4 : text ";\n" = [59, 10] := by decide
        rw [e1, e2, e3, e4]
        have e5 : (1 - (r.rhs.length : Int)) = ((0 : Nat) : Int) - (r.rhs.length : Int) + 1 := by push_cast; omega
        rw [e5, dotYY]
        simp
  · simp only [RRule.finish, RRule.isLocal, Bool.and_eq_true, Option.isSome_iff_ne_none, Bool.not_eq_true', List.contains_eq_mem, decide_eq_false_iff_not, ne_eq]
  · simp only [RRule.finish, Bool.and_eq_true, Option.isNone_iff_eq_none, List.isEmpty_iff, and_assoc]
  · simp only [RRule.finish]
    rcases r.code with _ | c <;> simp

/-! ### the printed text -/

theorem lineMacro_directive (n : Nat) (file : List Nat) : lineMacro n file = Verif.Spec.GFile.directive n file := by
  simp only [lineMacro, Verif.Spec.GFile.directive, decimal_eq, List.append_assoc]
  rfl

theorem newlines_count (t : List Nat) : newlines t = t.count 10 := by
  rw [newlines, List.count, List.countP_eq_length_filter]

theorem text_append (a b : String) : text (a ++ b) = text a ++ text b := by simp [text]

theorem digits_no_newline (n : Nat) : (text (toString n)).count 10 = 0 := by
  rw [List.count_eq_zero, ← decimal_eq]
  intro h
  simp only [decimal, List.mem_map] at h
  obtain ⟨c, hc, e⟩ := h
  have := Nat.isDigit_of_mem_toDigits (by omega) (by omega) hc
  simp only [Char.isDigit, Bool.and_eq_true, decide_eq_true_eq] at this
  have h1 : (48 : UInt32).toNat ≤ c.val.toNat := this.1
  have h2 : c.val.toNat = 10 := e
  rw [h2] at h1
  simp at h1

theorem directive_count (n : Nat) (file : List Nat) (h : 10 ∉ file) : (Verif.Spec.GFile.directive n file).count 10 = 1 := by
  unfold Verif.Spec.GFile.directive
  simp only [List.count_append, digits_no_newline]
  have h1 : (file.flatMap fun c => if c = 92 then [92, 92] else [c]).count 10 = 0 := by
    rw [List.count_eq_zero, List.mem_flatMap]
    rintro ⟨c, hc, hm⟩
    split at hm
    · simp at hm
    · simp only [List.mem_singleton] at hm; exact h (hm ▸ hc)
  rw [h1]
  decide

/-- The text printed for a rule.  The code is after a directive with its line in the grammar file; behind it a directive gives the number that the next line has
in the output, if the text begins on line `l`.  The line number that is kept is right at the end. -/
theorem C75_lines (file out : List Nat) (t : Trans) (l : Nat) (hfile : 10 ∉ file) (hout : 10 ∉ out) :
    let before := (if t.pre = [] then [] else text "{" ++ t.pre) ++ Verif.Spec.GFile.directive t.line file ++ text "{" ++ t.code ++ text "}\n"
    (emitCode false file out t l).1 = before ++ Verif.Spec.GFile.directive (l + before.count 10 + 1) out ++ t.suffix ++ (if t.pre = [] then [] else text "}\n") ∧
    (emitCode true file out t l).1 = (if t.pre = [] then [] else text "{" ++ t.pre) ++ text "{" ++ t.code ++ text "}\n" ++ t.suffix ++ (if t.pre = [] then [] else text "}\n") ∧
    ∀ b, (emitCode b file out t l).2 = l + (emitCode b file out t l).1.count 10 := by
  have e1 : text "{" = [123] := by decide
  have e2 : text "}\n" = [125, 10] := by decide
  simp only [e1, e2]
  have hc1 := directive_count t.line file hfile
  refine ⟨?_, ?_, ?_⟩
  · simp only [emitCode, Bool.false_eq_true, if_false, lineMacro_directive, newlines_count]
    have : (if t.pre = [] then l else l + t.pre.count 10) + 1 + t.code.count 10 + 1 + 1 =
        l + ((if t.pre = [] then [] else [123] ++ t.pre) ++ Verif.Spec.GFile.directive t.line file ++ [123] ++ t.code ++ [125, 10]).count 10 + 1 := by
      simp only [List.count_append, hc1]
      by_cases h : t.pre = []
      · simp [h]; omega
      · simp [h]; omega
    rw [this]
    simp
  · simp [emitCode]
  · intro b
    cases b with
    | false =>
      simp only [emitCode, Bool.false_eq_true, if_false, lineMacro_directive, newlines_count, List.count_append, hc1, directive_count _ out hout]
      by_cases h : t.pre = []
      · simp [h]; omega
      · simp [h]; omega
    | true =>
      simp only [emitCode, if_true, newlines_count, List.count_append]
      by_cases h : t.pre = []
      · simp [h]; omega
      · simp [h]; omega

theorem same_iff (a b : Trans) : a.same b = true ↔ a.code = b.code ∧ a.pre = b.pre ∧ a.suffix = b.suffix := by
  simp [Trans.same, and_assoc]

theorem actionCases_spec : ∀ (l : List (Trans × Nat)) (done : List Nat), (l.map Prod.snd).Nodup →
    (∀ p ∈ l, p.2 ∈ done → ∀ q ∈ l, q.1.same p.1 = true → q.2 ∈ done) →
    (∀ p ∈ l, p.1.noCode = false → p.2 ∈ done ∨ ∃ c ∈ actionCases l done, p.2 ∈ c.1) ∧
    ((actionCases l done).flatMap Prod.fst).Nodup ∧ (∀ c ∈ actionCases l done, ∀ i ∈ c.1, i ∉ done) ∧
    ∀ c ∈ actionCases l done, ∀ i ∈ c.1, ∃ p ∈ l, p.2 = i ∧ p.1.same c.2 = true := by
  intro l
  induction l with
  | nil => intro done _ _; simp [actionCases]
  | cons p l ih =>
    intro done hn hd
    have hn' : (l.map Prod.snd).Nodup := by simp at hn; simpa using hn.2
    have hpl : ∀ q ∈ l, q.2 ≠ p.2 := by
      intro q hq e
      simp only [List.map_cons, List.nodup_cons, List.mem_map] at hn
      exact hn.1 ⟨q, hq, e⟩
    have hd' : ∀ p ∈ l, p.2 ∈ done → ∀ q ∈ l, q.1.same p.1 = true → q.2 ∈ done :=
      fun p hp h q hq => hd p (by simp [hp]) h q (by simp [hq])
    have hinj : ∀ q ∈ l, ∀ q' ∈ l, q.2 = q'.2 → q = q' := fun q hq q' hq' e => List.inj_on_of_nodup_map hn' hq hq' e
    rw [actionCases]
    by_cases h1 : p.2 ∈ done
    · rw [if_pos h1]
      obtain ⟨a1, a2, a3, a4⟩ := ih done hn' hd'
      refine ⟨?_, a2, a3, fun c hc i hi => ?_⟩
      · intro q hq hc
        rcases List.mem_cons.mp hq with rfl | hq
        · exact .inl h1
        · exact a1 q hq hc
      · obtain ⟨q, hq, h⟩ := a4 c hc i hi
        exact ⟨q, by simp [hq], h⟩
    · rw [if_neg h1]
      by_cases h2 : p.1.noCode = true
      · rw [if_pos h2]
        obtain ⟨a1, a2, a3, a4⟩ := ih done hn' hd'
        refine ⟨?_, a2, a3, fun c hc i hi => ?_⟩
        · intro q hq hc
          rcases List.mem_cons.mp hq with rfl | hq
          · simp [h2] at hc
          · exact a1 q hq hc
        · obtain ⟨q, hq, h⟩ := a4 c hc i hi
          exact ⟨q, by simp [hq], h⟩
      · rw [if_neg h2]
        dsimp only
        have hoth : ∀ i, i ∈ (l.filter fun q => q.1.same p.1).map Prod.snd ↔ ∃ q ∈ l, q.1.same p.1 = true ∧ q.2 = i := by
          intro i; simp only [List.mem_map, List.mem_filter, and_assoc]
        obtain ⟨a1, a2, a3, a4⟩ := ih (done ++ p.2 :: (l.filter fun q => q.1.same p.1).map Prod.snd) hn' (by
          intro q hq h q' hq' hsame
          rw [List.mem_append, List.mem_cons, hoth] at h ⊢
          rcases h with h | h | ⟨q2, hq2, h3, h4⟩
          · exact .inl (hd' q hq h q' hq' hsame)
          · exact absurd h (hpl q hq)
          · have := hinj q2 hq2 q hq h4
            subst this
            refine .inr (.inr ⟨q', hq', ?_, rfl⟩)
            rw [same_iff] at hsame h3 ⊢
            exact ⟨hsame.1.trans h3.1, hsame.2.1.trans h3.2.1, hsame.2.2.trans h3.2.2⟩)
        refine ⟨?_, ?_, ?_, ?_⟩
        · intro q hq hc
          rcases List.mem_cons.mp hq with rfl | hq
          · exact .inr ⟨_, List.mem_cons_self, List.mem_cons_self⟩
          · rcases a1 q hq hc with h | ⟨c, hc', h⟩
            · rw [List.mem_append] at h
              rcases h with h | h
              · exact .inl h
              · exact .inr ⟨_, List.mem_cons_self, h⟩
            · exact .inr ⟨c, by simp [hc'], h⟩
        · rw [List.flatMap_cons, List.nodup_append]
          refine ⟨?_, a2, ?_⟩
          · dsimp only
            rw [List.nodup_cons]
            refine ⟨fun h => ?_, ?_⟩
            · obtain ⟨q, hq, _, e⟩ := (hoth _).mp h
              exact hpl q hq e
            · exact hn'.sublist (List.filter_sublist.map _)
          · intro i hi j hj e
            subst e
            rw [List.mem_flatMap] at hj
            obtain ⟨c, hc, hj⟩ := hj
            exact a3 c hc i hj (by rw [List.mem_append]; exact .inr hi)
        · intro c hc i hi
          rcases List.mem_cons.mp hc with rfl | hc
          · rcases List.mem_cons.mp hi with rfl | hi
            · exact h1
            · obtain ⟨q, hq, h3, rfl⟩ := (hoth _).mp hi
              intro hdone
              refine h1 (hd q (by simp [hq]) hdone p (by simp) ?_)
              rw [same_iff] at h3 ⊢
              exact ⟨h3.1.symm, h3.2.1.symm, h3.2.2.symm⟩
          · intro h
            exact a3 c hc i hi (by rw [List.mem_append]; exact .inl h)
        · intro c hc i hi
          rcases List.mem_cons.mp hc with rfl | hc
          · rcases List.mem_cons.mp hi with rfl | hi
            · exact ⟨p, by simp, rfl, by rw [same_iff]; exact ⟨rfl, rfl, rfl⟩⟩
            · obtain ⟨q, hq, h3, h4⟩ := (hoth _).mp hi
              exact ⟨q, by simp [hq], h4, h3⟩
          · obtain ⟨q, hq, h⟩ := a4 c hc i hi
            exact ⟨q, by simp [hq], h⟩

/-- The switch: a rule with anything to do has exactly one case, and the text printed there is that of the rule, up to its line in the grammar file. -/
theorem C75_cases (l : List (Trans × Nat)) (hn : (l.map Prod.snd).Nodup) :
    (∀ t i, (t, i) ∈ l → t.noCode = false → ∃ c ∈ actionCases l [], i ∈ c.1) ∧
    ((actionCases l []).flatMap Prod.fst).Nodup ∧
    ∀ c ∈ actionCases l [], ∀ i ∈ c.1, ∃ t, (t, i) ∈ l ∧ t.code = c.2.code ∧ t.pre = c.2.pre ∧ t.suffix = c.2.suffix := by
  obtain ⟨a1, a2, _, a4⟩ := actionCases_spec l [] hn (by simp)
  refine ⟨?_, a2, ?_⟩
  · intro t i h hc
    rcases a1 (t, i) h hc with h | h
    · simp at h
    · exact h
  · intro c hc i hi
    obtain ⟨⟨t, j⟩, h1, rfl, h3⟩ := a4 c hc i hi
    exact ⟨t, h1, (same_iff _ _).mp h3⟩

/-- three rules; the first and the last have the same code, the second has none -/
example : actionCases [(⟨text " f(); ", 1, false, [], [], false, []⟩, 0), (⟨text "\n", 2, true, [], [], false, []⟩, 1), (⟨text " f(); ", 3, false, [], [], false, []⟩, 2)] [] =
    [([0, 2], ⟨text " f(); ", 1, false, [], [], false, []⟩)] := by decide

/-- the text for a rule, from line 100 on -/
example : emitCode false (text "g.y") (text "g.c") ⟨text " f();\n g(); ", 7, false, text "  d();\n", text "  e();\n", false, []⟩ 100 =
    (text "{  d();\n#line 7 \"g.y\"\n{ f();\n g(); }\n#line 105 \"g.c\"\n  e();\n}\n", 107) := by decide +kernel

end Verif.Lemon
