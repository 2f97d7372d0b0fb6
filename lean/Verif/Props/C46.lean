import Verif.Proofs.LemonPreBody
/-
C46: conditional compilation keeps exactly the selected text.  C47: evaluation of conditions.
C64: unbalanced conditionals are reported.
-/
set_option autoImplicit false
namespace Verif.Lemon

/-! ## C46 -/

/-- Whatever the text: if preprocessing succeeds, the text keeps its length and its line breaks, and
every other byte is kept or becomes a space. -/
theorem C46_bytes (m m' : Macros) (z z' : List Nat) (h : preprocess m z = .ok (z', m')) :
    z'.length = z.length ∧
    ∀ i < z.length, (z'.getD i 0 = 10 ↔ z.getD i 0 = 10) ∧ (z'.getD i 0 = z.getD i 0 ∨ z'.getD i 0 = 32) := by
  unfold preprocess ppLoop at h
  split at h
  · cases h
  · rename_i p hp
    split at h
    · cases h
      rw [List.range_eq_range'] at hp
      have hk := ppLoop_kept _ _ _ _ hp (fun h => by simp at h)
      simp only at hk
      refine ⟨(kept_length hk).symm, fun i hi => ⟨(kept_nl hk i).symm, ?_⟩⟩
      have : ∀ {x y : List Nat}, List.Forall₂ KeptByte x y → ∀ i < x.length, y.getD i 0 = x.getD i 0 ∨ y.getD i 0 = 32 := by
        intro x y hxy
        induction hxy with
        | nil => intro i hi; simp at hi
        | cons h1 _ ih =>
          intro i hi
          cases i with
          | zero =>
            rcases h1 with rfl | ⟨_, rfl⟩
            · exact Or.inl rfl
            · exact Or.inr rfl
          | succ i => simpa using ih i (by simpa using hi)
      exact this hk i hi
    · cases h

/-- A text made of properly nested conditionals: exactly the lines of the conditionals and the branches
not taken are blanked, and the options whose names had to be looked up are marked as used.  Partial:
a last line `%endif` without a line break is not in the scope of `EndLine`, see `C46_violated`. -/
theorem C46_selected_partial (m : Macros) (b : Body) (out : List Nat) (us : List (List Nat))
    (hp : b.Proper) (hb : Broken b.lines) (hk : Keeps m.names b out us) :
    ∃ m', preprocess m b.raw = .ok (out, m') ∧ m'.names = m.names ∧ MarkedBy m.names us m.used m'.used := by
  obtain ⟨sl, hf⟩ := body_in hk (s := ⟨[], [], 0, 1, 1, m⟩) rfl hp hb.shape rfl rfl
  refine ⟨m.mark us, ?_, mark_names us m, mark_marked us m⟩
  unfold Body.raw
  rw [preprocess_lines m _ hb, hf]
  simp

/-- `%ifdef A`, `x`, `%else`, `y`, `%endif`, `z` -/
def exBody : Body :=
  .ifElse [37, 105, 102, 100, 101, 102, 32, 65, 10] (.text [120, 10] .nil) [37, 101, 108, 115, 101, 10] (.text [121, 10] .nil) [37, 101, 110, 100, 105, 102, 10] (.text [122, 10] .nil)

theorem exIf : IfLine false [65] [37, 105, 102, 100, 101, 102, 32, 65, 10] :=
  ⟨_, [10], Or.inr (Or.inl ⟨rfl, rfl⟩), rfl, by decide, Or.inr rfl⟩

theorem exA (defs : List (List Nat)) : Means defs .condition [65] (decide ([65] ∈ defs)) [[65]] :=
  .only [] [65] [] _ _ (fun _ h => by cases h) (.name [65] ⟨65, [], rfl, by unfold Letter; omega, fun _ h => by cases h⟩)
    (fun _ h => by cases h)

theorem exBody_proper : exBody.Proper := by
  refine ⟨⟨_, _, exIf⟩, ⟨plain_of (by decide) (by decide) (by decide), trivial⟩, ⟨10, [], rfl, by intro c hc; simp at hc; omega⟩,
    ⟨plain_of (by decide) (by decide) (by decide), trivial⟩, ⟨10, [], rfl, by intro c hc; simp at hc; omega⟩,
    plain_of (by decide) (by decide) (by decide), trivial⟩

theorem exBody_broken : Broken exBody.lines :=
  ⟨Or.inl ⟨[37, 105, 102, 100, 101, 102, 32, 65], rfl, by decide⟩, Or.inl ⟨[120], rfl, by decide⟩,
    Or.inl ⟨[37, 101, 108, 115, 101], rfl, by decide⟩, Or.inl ⟨[121], rfl, by decide⟩,
    Or.inl ⟨[37, 101, 110, 100, 105, 102], rfl, by decide⟩, Or.inl ⟨[122], rfl, by decide⟩, trivial⟩

/-- the hypotheses are met, with the macro defined and without it -/
example : Keeps [[65]] exBody [32, 32, 32, 32, 32, 32, 32, 32, 10, 120, 10, 32, 32, 32, 32, 32, 10, 32, 10, 32, 32, 32, 32, 32, 32, 10, 122, 10] [[65]] :=
  .ifElseYes _ _ _ _ _ _ false true [65] [120, 10] [122, 10] [[65]] [] [] exIf (exA [[65]]) rfl
    (.text _ _ [] [] .nil) (.text _ _ [] [] .nil)

example : Keeps [] exBody [32, 32, 32, 32, 32, 32, 32, 32, 10, 32, 10, 32, 32, 32, 32, 32, 10, 121, 10, 32, 32, 32, 32, 32, 32, 10, 122, 10] [[65]] :=
  .ifElseNo _ _ _ _ _ _ false false [65] [121, 10] [122, 10] [[65]] [] [] exIf (exA []) rfl
    (.text _ _ [] [] .nil) (.text _ _ [] [] .nil)

example : preprocess ⟨[[65]], [false]⟩ exBody.raw = .ok ([32, 32, 32, 32, 32, 32, 32, 32, 10, 120, 10, 32, 32, 32, 32, 32, 10, 32, 10, 32, 32, 32, 32, 32, 32, 10, 122, 10], ⟨[[65]], [true]⟩) := by
  decide +kernel

/-- A last line `%endif` that is not followed by a line break is not recognized: the conditional counts
as unterminated, or the line remains in the text. -/
theorem C46_violated : ∃ b : Body, b.Proper ∧ Broken b.lines ∧ b.raw.getLast? = some 10 ∧
    (∃ out, preprocess ⟨[], []⟩ b.raw = .ok (out, ⟨[], []⟩) ∧
      preprocess ⟨[], []⟩ b.raw.dropLast = .error (.unterminated 1)) ∧
    (∃ out, preprocess ⟨[[65]], [false]⟩ b.raw = .ok (out ++ blanked [37, 101, 110, 100, 105, 102, 10], ⟨[[65]], [true]⟩) ∧
      preprocess ⟨[[65]], [false]⟩ b.raw.dropLast = .ok (out ++ [37, 101, 110, 100, 105, 102], ⟨[[65]], [true]⟩)) := by
  refine ⟨.ifEnd [37, 105, 102, 100, 101, 102, 32, 65, 10] (.text [120, 10] .nil) [37, 101, 110, 100, 105, 102, 10] .nil, ?_, ?_, by decide, ⟨[32, 32, 32, 32, 32, 32, 32, 32, 10, 32, 10, 32, 32, 32, 32, 32, 32, 10], by decide +kernel, by decide +kernel⟩,
    ⟨[32, 32, 32, 32, 32, 32, 32, 32, 10, 120, 10], by decide +kernel, by decide +kernel⟩⟩
  · exact ⟨⟨_, _, exIf⟩, ⟨plain_of (by decide) (by decide) (by decide), trivial⟩,
      ⟨10, [], rfl, by intro c hc; simp at hc; omega⟩, trivial⟩
  · exact ⟨Or.inl ⟨[37, 105, 102, 100, 101, 102, 32, 65], rfl, by decide⟩, Or.inl ⟨[120], rfl, by decide⟩,
      Or.inl ⟨[37, 101, 110, 100, 105, 102], rfl, by decide⟩, trivial⟩

/-- The name defined by an option `-DNAME=VALUE` is `NAME`, as for `-DNAME`. -/
theorem C46_define (m : Macros) (n v : List Nat) (h : 61 ∉ n) :
    m.define (n ++ 61 :: v) = m.define n ∧ (m.define n).names = m.names ++ [n] ∧ (m.define n).used = m.used ++ [false] := by
  have h1 : ∀ r : List Nat, (r = [] ∨ r.head? = some 61) → defineName (n ++ r) = n := by
    intro r hr
    unfold defineName
    induction n with
    | nil =>
      rcases hr with rfl | hr
      · rfl
      · cases r with
        | nil => rfl
        | cons c r => simp only [List.head?_cons, Option.some.injEq] at hr; subst hr; rfl
    | cons c n ih =>
      have hc : c ≠ 61 := fun h' => h (by simp [h'])
      rw [List.cons_append, List.takeWhile_cons, if_pos (by simpa using hc), ih fun h' => h (by simp [h'])]
  have e1 := h1 (61 :: v) (Or.inr rfl)
  have e2 := h1 [] (Or.inl rfl)
  rw [List.append_nil] at e2
  unfold Macros.define
  rw [e1, e2]
  exact ⟨rfl, rfl, rfl⟩

example : (Macros.mk [] []).define [65, 61, 49] = ⟨[[65]], [false]⟩ := by decide

/-! ## C47 -/

/-- A well-formed condition has its value, and exactly the options whose names had to be looked up are
marked as used. -/
theorem C47_value (m : Macros) (s : List Nat) (b : Bool) (us : List (List Nat)) (h : Means m.names .condition s b us) :
    ∃ m', evalBool m s = .ok (b, m') ∧ m'.names = m.names ∧ MarkedBy m.names us m.used m'.used :=
  ⟨m.mark us, evalBool_means h, mark_names us m, mark_marked us m⟩

/-- what a name means -/
theorem exName (defs : List (List Nat)) (c : Nat) (h : Letter c) : Means defs .operand [c] (decide ([c] ∈ defs)) [[c]] :=
  .name [c] ⟨c, [], rfl, h, fun _ h => by cases h⟩

/-- `A && B || !(C)` is `A && (B || !C)`: false with only `C` defined, and then only `A` is looked up -/
example : Means [[67]] .condition [65, 32, 38, 38, 32, 66, 32, 124, 124, 32, 33, 40, 67, 41] false [[65]] := by
  have hb : Blank [32] := by intro c hc; simp at hc; omega
  have h0 : Blank [] := by intro c hc; cases hc
  have hA := exName [[67]] 65 (by unfold Letter; omega)
  have hB := exName [[67]] 66 (by unfold Letter; omega)
  have hC := exName [[67]] 67 (by unfold Letter; omega)
  exact .and [] [65] [32] [32, 66, 32, 124, 124, 32, 33, 40, 67, 41] false false [[65]] [[66], [67]] h0 hA hb
    (.or [32] [66] [32] [32, 33, 40, 67, 41] false false [[66]] [[67]] hb hB hb
      (.only [32] [33, 40, 67, 41] [] false [[67]] hb
        (.not [] [40, 67, 41] true [[67]] h0 (.paren [67] true [[67]] (.only [] [67] [] true [[67]] h0 hC h0))) h0))

example : evalBool ⟨[[67]], [false]⟩ [65, 32, 38, 38, 32, 66, 32, 124, 124, 32, 33, 40, 67, 41] = .ok (false, ⟨[[67]], [false]⟩) := by decide +kernel

/-- Which texts are accepted as conditions, and their values: those of `Taken`; all others are reported.
Partial: besides the well-formed conditions these are malformed ones, see `C47_violated`. -/
theorem C47_accepted_partial (m : Macros) (s : List Nat) (b : Bool) :
    (∃ m', evalBool m s = .ok (b, m')) ↔ ∃ us, Taken m.names false s b us := by
  constructor
  · rintro ⟨m', h⟩
    obtain ⟨us, ht, _⟩ := ev_sound (s.length + 1) m s false b m' 0 (by omega) h
    exact ⟨us, ht⟩
  · rintro ⟨us, h⟩
    exact ⟨_, ev_taken (s.length + 1) m s false b us 0 (by omega) h⟩

/-- `A B` is reported: it is not even `Taken` -/
example : ¬ ∃ b us, Taken [[65], [66]] false [65, 32, 66] b us := by
  rintro ⟨b, h⟩
  obtain ⟨m', h⟩ := (C47_accepted_partial ⟨[[65], [66]], [false, false]⟩ _ b).2 h
  have : evalBool ⟨[[65], [66]], [false, false]⟩ [65, 32, 66] = .error 2 := by decide +kernel
  rw [this] at h
  cases h

/-- The position reported for a malformed condition is that of a character of it which is no white
space. -/
theorem C47_position (m : Macros) (s : List Nat) (e : Nat) (h : evalBool m s = .error e) :
    ∃ pre c post, s = pre ++ c :: post ∧ e = pre.length ∧ ¬ Blank [c] := by
  obtain ⟨pre, c, post, rfl, rfl, hc⟩ := ev_error (s.length + 1) m s 0 e false false true (by omega) h
  refine ⟨pre, c, post, rfl, by simp, fun hb => ?_⟩
  rw [(isSpace_iff c).2 (hb c (by simp))] at hc
  cases hc

/-- Malformed conditions that are accepted: nothing at all, a lone `!`, a parenthesis that is not closed,
an operator without a right operand, and anything behind an operand that decides. -/
theorem C47_violated :
    (∀ m s, (s = [] ∨ s = [33] ∨ s = [40] ∨ s = [40, 41]) → evalBool m s = .ok (false, m)) ∧
    evalBool ⟨[[65]], [true]⟩ [65, 38, 38] = .ok (true, ⟨[[65]], [true]⟩) ∧
    evalBool ⟨[[65]], [true]⟩ [65, 124, 124, 41] = .ok (true, ⟨[[65]], [true]⟩) ∧
    (∀ s, (s = [] ∨ s = [33] ∨ s = [40] ∨ s = [40, 41] ∨ s = [65, 38, 38] ∨ s = [65, 124, 124, 41]) →
      ∀ defs b us, ¬ Means defs .condition s b us) := by
  refine ⟨?_, by decide +kernel, by decide +kernel, ?_⟩
  · rintro m s (rfl | rfl | rfl | rfl) <;> rfl
  · rintro s (rfl | rfl | rfl | rfl | rfl | rfl) defs b us h
    · obtain ⟨c, hc, _⟩ := h.letter
      cases hc
    · obtain ⟨c, hc, hl⟩ := h.letter
      unfold Letter at hl; simp at hc; omega
    · obtain ⟨c, hc, hl⟩ := h.letter
      unfold Letter at hl; simp at hc; omega
    · obtain ⟨c, hc, hl⟩ := h.letter
      unfold Letter at hl; simp at hc; omega
    · exact h.last.2 rfl
    · have hn := closer_append h.taken.1 0 [41]
      revert hn
      decide

/-- Any other malformed condition is reported with the number of its line, unless it is in a branch not
taken; no more than the line is shown. -/
theorem C47_line (m : Macros) (b : Body) (rest : List (List Nat)) (o cond out : List Nat) (us : List (List Nat)) (neg : Bool)
    (hp : b.Proper) (hb : Broken (b.lines ++ o :: rest)) (hk : Keeps m.names b out us) (ho : IfLine neg cond o)
    (he : ∀ v us, ¬ Taken m.names false (32 :: cond) v us) :
    ∃ shown ≤ cond.length + 1, preprocess m (b.raw ++ o ++ rest.flatten) = .error (.syntax (1 + b.raw.count 10) shown) := by
  have hs : ∀ l ∈ b.lines, LineShape l := fun l hl => hb.shape l (by simp [hl])
  obtain ⟨sl, hf⟩ := body_in hk (s := ⟨[], [], 0, 1, 1, m⟩) rfl hp hs rfl rfl
  have : b.raw ++ o ++ rest.flatten = (b.lines ++ o :: rest).flatten := by simp [Body.raw]
  cases hv : evalBool (m.mark us) (32 :: cond) with
  | ok y =>
    obtain ⟨v, m'⟩ := y
    obtain ⟨us', ht⟩ := (C47_accepted_partial (m.mark us) _ v).1 ⟨m', hv⟩
    rw [mark_names] at ht
    exact absurd ht (he v us')
  | error e =>
    obtain ⟨pre, c, post, h1, h2, _⟩ := C47_position _ _ _ hv
    refine ⟨e + 1, ?_, ?_⟩
    · have := congrArg List.length h1
      simp at this
      omega
    · rw [this, preprocess_lines m _ hb, foldlM_ok hf, List.foldlM_cons, step_if_error ho rfl hv]
      rfl

/-- the hypotheses are met: `z`, `%if )` -/
example : ∃ shown ≤ 2, preprocess ⟨[], []⟩ ([122, 10] ++ [37, 105, 102, 32, 41, 10] ++ []) = .error (.syntax 2 shown) :=
  C47_line ⟨[], []⟩ (.text [122, 10] .nil) [] [37, 105, 102, 32, 41, 10] [41] [122, 10] [] false
    ⟨plain_of (by decide) (by decide) (by decide), trivial⟩
    ⟨Or.inl ⟨[122], rfl, by decide⟩, Or.inl ⟨[37, 105, 102, 32, 41], rfl, by decide⟩, trivial⟩
    (.text _ _ [] [] .nil) ⟨_, [10], Or.inl ⟨rfl, rfl⟩, rfl, by decide, Or.inr rfl⟩
    (by
      intro v us h
      obtain ⟨m', h⟩ := (C47_accepted_partial ⟨[], []⟩ _ v).2 ⟨us, h⟩
      have : evalBool ⟨[], []⟩ [32, 41] = .error 1 := by decide +kernel
      rw [this] at h
      cases h)

/-! ## C64 -/

/-- A conditional that is not taken and never closed is reported with the number of its line.  Partial:
other unbalanced conditionals are not reported, see `C64_violated`. -/
theorem C64_unterminated_partial (m : Macros) (b b' : Body) (o cond out : List Nat) (us us' : List (List Nat)) (neg v : Bool)
    (hp : b.Proper) (hp' : b'.Proper) (hb : Broken (b.lines ++ o :: b'.lines)) (hk : Keeps m.names b out us)
    (ho : IfLine neg cond o) (hv : Means m.names .condition cond v us') (hx : (v ^^ neg) = false) :
    preprocess m (b.raw ++ o ++ b'.raw) = .error (.unterminated (1 + b.raw.count 10)) := by
  have hs : ∀ l ∈ b.lines, LineShape l := fun l hl => hb.shape l (by simp [hl])
  have hs' : ∀ l ∈ b'.lines, LineShape l := fun l hl => hb.shape l (by simp [hl])
  obtain ⟨sl, hf⟩ := body_in hk (s := ⟨[], [], 0, 1, 1, m⟩) rfl hp hs rfl rfl
  have h1 := step_if_eval (s := ⟨[] ++ out, [], 0, 1 + b.raw.count 10, sl, m.mark us⟩) ho rfl
    (evalBool_means (us := us') (b := v) (by rw [mark_names]; exact hv.blank))
  rw [hx, if_neg (by simp)] at h1
  obtain ⟨x, _, hf'⟩ := body_out (b := b') (s := ⟨[] ++ out, blanked o, 1, 1 + b.raw.count 10 + o.count 10, 1 + b.raw.count 10, (m.mark us).mark us'⟩)
    hp' hs' (by simp)
  have : b.raw ++ o ++ b'.raw = (b.lines ++ o :: b'.lines).flatten := by simp [Body.raw]
  rw [this, preprocess_lines m _ hb, foldlM_ok hf, foldlM_cons_ok h1, hf']
  simp

/-- the hypotheses are met: `z`, `%ifdef A`, `x` without `A` -/
example : preprocess ⟨[], []⟩ ([122, 10] ++ [37, 105, 102, 100, 101, 102, 32, 65, 10] ++ [120, 10]) = .error (.unterminated 2) :=
  C64_unterminated_partial ⟨[], []⟩ (.text [122, 10] .nil) (.text [120, 10] .nil) [37, 105, 102, 100, 101, 102, 32, 65, 10] [65] [122, 10] [] [[65]] false false
    ⟨plain_of (by decide) (by decide) (by decide), trivial⟩ ⟨plain_of (by decide) (by decide) (by decide), trivial⟩
    ⟨Or.inl ⟨[122], rfl, by decide⟩, Or.inl ⟨[37, 105, 102, 100, 101, 102, 32, 65], rfl, by decide⟩, Or.inl ⟨[120], rfl, by decide⟩, trivial⟩
    (.text _ _ [] [] .nil) exIf (exA []) rfl

/-- A conditional that is taken and never closed, an `%endif` and two `%else` without a conditional: none
is reported. -/
theorem C64_violated :
    preprocess ⟨[[65]], [false]⟩ ([37, 105, 102, 100, 101, 102, 32, 65, 10] ++ [120, 10]) = .ok ([32, 32, 32, 32, 32, 32, 32, 32, 10, 120, 10], ⟨[[65]], [true]⟩) ∧
    preprocess ⟨[], []⟩ ([120, 10] ++ [37, 101, 110, 100, 105, 102, 10]) = .ok ([120, 10, 32, 32, 32, 32, 32, 32, 10], ⟨[], []⟩) ∧
    preprocess ⟨[], []⟩ ([37, 101, 108, 115, 101, 10] ++ [120, 10] ++ [37, 101, 108, 115, 101, 10] ++ [121, 10]) = .ok ([32, 32, 32, 32, 32, 10, 32, 10, 32, 32, 32, 32, 32, 10, 121, 10], ⟨[], []⟩) :=
  ⟨by decide +kernel, by decide +kernel, by decide +kernel⟩

end Verif.Lemon
