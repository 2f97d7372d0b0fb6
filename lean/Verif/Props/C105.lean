import Verif.Proofs.ByaccOpts
/-
C105: byacc's long options.
-/
set_option autoImplicit false
namespace Verif.Byacc
open Op Verif.Spec.YOpts

/-- Exactly which arguments are replaced, and by what: `--name` by the short option, and `--name=val` by the short option with `val` after it, where `name` is
the beginning of the name of an option (the first of them counts), unless the last `name.length` characters of the whole argument begin with `--`. -/
theorem C105_long (a b : List Nat) (h0 : 0 ∉ a) :
    mapLong a = .arg b ↔ Short a b := by
  have e2 : (txt "--").length = 2 := by decide
  have key : ∀ name val : List Nat, (txt "--" ++ name ++ 61 :: val).length - name.length = val.length + 3 := by
    intro name val; simp [e2]; omega
  constructor
  · intro h
    by_cases hp : txt "--" <+: a
    · rcases split_arg a hp with rfl | ⟨name, rfl, hn, hq⟩ | ⟨name, val, rfl, hq⟩
      · exact absurd h (by rw [show mapLong (txt "--") = .last by decide]; nofun)
      · have hz : 0 ∉ name := fun q => h0 (by simp [q])
        rw [mapLong_plain name hn hq hz] at h
        cases hf : longOpts.find? (fun o => strnEq name.length o.name (name ++ [])) with
        | none => rw [hf] at h; exact absurd h nofun
        | some o =>
          obtain ⟨r, hr, rfl⟩ := (find_abbrev name [] (by simpa using hz) o).1 hf
          rw [hf] at h
          dsimp only at h
          rw [mapTo_plain _ name hn (opt_ne name r hr)] at h
          exact .inl ⟨name, r, rfl, hn, hq, hr, by cases h; rfl⟩
      · have hz : 0 ∉ val := fun q => h0 (by simp [q])
        have hz2 : 0 ∉ name ++ 61 :: val := fun q => h0 (by rw [List.append_assoc]; exact List.mem_append_right _ q)
        rw [mapLong_arg name val hq hz] at h
        by_cases hv : val = []
        · simp [hv] at h
        · rw [if_neg hv] at h
          cases hf : longOpts.find? (fun o => strnEq name.length o.name (name ++ 61 :: val)) with
          | none => simp [hf] at h
          | some o =>
            obtain ⟨r, hr, rfl⟩ := (find_abbrev name (61 :: val) hz2 o).1 hf
            rw [hf] at h
            dsimp only at h
            by_cases ha : (ofRow r).arg = true
            · rw [if_pos ha, mapTo_arg _ name val hz (opt_ne name r hr)] at h
              by_cases hd : txt "--" <+: (txt "--" ++ name ++ 61 :: val).drop (val.length + 3)
              · rw [if_pos hd] at h; exact absurd h nofun
              · rw [if_neg hd] at h
                exact .inr ⟨name, val, ⟨r, rfl, hq, hv, hr, ha, by cases h; rfl⟩, by rw [key]; exact hd⟩
            · simp [ha] at h
    · have : strnEq 2 a (Rd.str "--") = false := by
        cases hh : strnEq 2 a (Rd.str "--")
        · rfl
        · exact absurd ((strnEq_dashes a).1 hh) hp
      simp [mapLong, this] at h
  · rintro (⟨name, r, rfl, hn, hq, hr, rfl⟩ | ⟨name, val, ⟨r, rfl, hq, hv, hr, ha, rfl⟩, hd⟩)
    · have hz : 0 ∉ name := fun q => h0 (by simp [q])
      rw [mapLong_plain name hn hq hz, (find_abbrev name [] (by simpa using hz) (ofRow r)).2 ⟨r, hr, rfl⟩]
      dsimp only
      rw [mapTo_plain _ name hn (opt_ne name r hr)]
      rfl
    · have hz : 0 ∉ val := fun q => h0 (by simp [q])
      have hz2 : 0 ∉ name ++ 61 :: val := fun q => h0 (by rw [List.append_assoc]; exact List.mem_append_right _ q)
      rw [mapLong_arg name val hq hz, if_neg hv, (find_abbrev name (61 :: val) hz2 (ofRow r)).2 ⟨r, hr, rfl⟩]
      dsimp only
      rw [if_pos (show (ofRow r).arg = true from ha), mapTo_arg _ name val hz (opt_ne name r hr), if_neg (by rw [key] at hd; exact hd)]
      rfl

/-- An argument is left as it is exactly when it does not begin with `--`, and `--` alone ends the options. -/
theorem C105_same (a : List Nat) (h0 : 0 ∉ a) :
    (mapLong a = .same ↔ ¬ txt "--" <+: a) ∧ (mapLong a = .last ↔ a = txt "--") := by
  by_cases hp : txt "--" <+: a
  · rcases split_arg a hp with rfl | ⟨name, rfl, hn, hq⟩ | ⟨name, val, rfl, hq⟩
    · decide
    · have hz : 0 ∉ name := fun q => h0 (by simp [q])
      have hne : ¬ txt "--" ++ name = txt "--" := by simpa using hn
      rw [mapLong_plain name hn hq hz]
      cases hf : longOpts.find? (fun o => strnEq name.length o.name (name ++ [])) with
      | none => simp [hn]
      | some o =>
        obtain ⟨r, hr, rfl⟩ := (find_abbrev name [] (by simpa using hz) o).1 hf
        dsimp only
        rw [mapTo_plain _ name hn (opt_ne name r hr)]
        simp [hn]
    · have hz : 0 ∉ val := fun q => h0 (by simp [q])
      have hz2 : 0 ∉ name ++ 61 :: val := fun q => h0 (by rw [List.append_assoc]; exact List.mem_append_right _ q)
      have hne : ¬ txt "--" ++ name ++ 61 :: val = txt "--" := by
        intro q; have := congrArg List.length q; simp at this
      have hs : mapLong (txt "--" ++ name ++ 61 :: val) = .invalid ∨ ∃ b, mapLong (txt "--" ++ name ++ 61 :: val) = .arg b := by
        rw [mapLong_arg name val hq hz]
        by_cases hv : val = []
        · simp [hv]
        · rw [if_neg hv]
          cases hf : longOpts.find? (fun o => strnEq name.length o.name (name ++ 61 :: val)) with
          | none => simp
          | some o =>
            obtain ⟨r, hr, rfl⟩ := (find_abbrev name (61 :: val) hz2 o).1 hf
            dsimp only
            by_cases ha : (ofRow r).arg = true
            · rw [if_pos ha, mapTo_arg _ name val hz (opt_ne name r hr)]
              split
              · exact .inl rfl
              · exact .inr ⟨_, rfl⟩
            · rw [if_neg ha]; exact .inl rfl
      rcases hs with hs | ⟨b, hs⟩ <;> rw [hs] <;> simp [hne, hp]
  · have : strnEq 2 a (Rd.str "--") = false := by
      cases hh : strnEq 2 a (Rd.str "--")
      · rfl
      · exact absurd ((strnEq_dashes a).1 hh) hp
    have h1 : mapLong a = .same := by simp [mapLong, this]
    rw [h1]
    refine ⟨⟨fun _ => hp, fun _ => rfl⟩, ⟨nofun, ?_⟩⟩
    rintro rfl
    exact absurd List.prefix_rfl hp

/-- The whole loop over the arguments. -/
theorem C105_args (as bs : List (List Nat)) (h0 : ∀ a ∈ as, 0 ∉ a) : mapArgs as = some bs ↔ Args as bs := by
  induction as generalizing bs with
  | nil =>
    constructor
    · intro h; cases h; exact .nil
    · intro h; cases h; rfl
  | cons a as ih =>
    have ha := h0 a (by simp)
    have ih := fun bs => ih bs fun x hx => h0 x (by simp [hx])
    obtain ⟨s1, s2⟩ := C105_same a ha
    constructor
    · intro h
      unfold mapArgs at h
      cases hm : mapLong a with
      | same =>
        simp only [hm, Option.map_eq_some_iff] at h
        obtain ⟨cs, hc, rfl⟩ := h
        exact .keep a as cs (s1.1 hm) ((ih cs).1 hc)
      | last =>
        simp only [hm, Option.some.injEq] at h
        rw [← h, s2.1 hm]
        exact .stop as
      | arg b =>
        simp only [hm, Option.map_eq_some_iff] at h
        obtain ⟨cs, hc, rfl⟩ := h
        exact .long a b as cs ((C105_long a b ha).1 hm) ((ih cs).1 hc)
      | invalid => simp [hm] at h
    · intro h
      unfold mapArgs
      cases h with
      | stop => rw [s2.2 rfl]
      | keep _ _ cs hk hc => rw [s1.2 hk]; simp [(ih cs).2 hc]
      | long _ b _ cs hk hc => rw [(C105_long a b ha).2 hk]; simp [(ih cs).2 hc]

theorem Op.drop_dashes (name val : List Nat) (hn : ∃ r ∈ table, name <+: txt r.1) (hv : ¬ txt "--" <:+: val) :
    ¬ txt "--" <+: (name ++ 61 :: val).drop (val.length + 1) := by
  have e2 : txt "--" = [45, 45] := by decide
  have hne : ¬ txt "--" <:+: name := by
    obtain ⟨r, hr, hp⟩ := hn
    have : ∀ r ∈ table, ¬ txt "--" <:+: txt r.1 := by decide +kernel
    exact fun q => this r hr (q.trans hp.isInfix)
  intro h
  by_cases hl : val.length + 1 ≤ name.length
  · rw [List.drop_append_of_le_length hl] at h
    generalize ht : name.drop (val.length + 1) = t at h
    have hs : t <:+ name := ht ▸ List.drop_suffix _ _
    match t, hs, h with
    | [], _, h => rw [e2] at h; simp [List.cons_prefix_cons] at h
    | [c], _, h => rw [e2] at h; simp [List.cons_prefix_cons] at h
    | c :: d :: t, hs, h =>
      rw [e2] at h
      simp only [List.cons_append, List.cons_prefix_cons, List.nil_prefix, and_true] at h
      refine hne (List.IsInfix.trans ?_ hs.isInfix)
      rw [e2, ← h.1, ← h.2]
      exact ⟨[], t, by simp⟩
  · have : (name ++ 61 :: val).drop (val.length + 1) <:+ val := by
      have e : name ++ 61 :: val = (name ++ [61]) ++ val := by simp
      rw [e, List.drop_append, List.drop_eq_nil_of_le (by simp; omega)]
      simpa using List.drop_suffix _ _
    exact hv (h.isInfix.trans this.isInfix)

/-- An argument that nowhere has `--` in it is always taken. -/
theorem C105_taken (name val a b : List Nat) (h0 : 0 ∉ a) (h : WithArg name val a b) (hv : ¬ txt "--" <:+: val) : mapLong a = .arg b := by
  refine (C105_long a b h0).2 (.inr ⟨name, val, h, ?_⟩)
  obtain ⟨r, rfl, hq, hv0, ⟨pre, post, ht, hp, -⟩, -⟩ := h
  have e2 : txt "--" = [45, 45] := by decide
  have key : (txt "--" ++ name ++ 61 :: val).length - name.length = 2 + (val.length + 1) := by simp [e2]; omega
  have hd : (txt "--" ++ name ++ 61 :: val).drop 2 = name ++ 61 :: val := by
    rw [List.append_assoc, List.drop_left' (by decide)]
  rw [key, ← List.drop_drop, hd]
  exact drop_dashes name val ⟨r, by rw [ht]; simp, hp⟩ hv

/-- Every option can be given by its full name. -/
theorem C105_names (r : String × Bool × Char) (h : r ∈ table) : mapLong (txt "--" ++ txt r.1) = .arg [45, r.2.2.toNat] := by
  revert r; decide

example : mapArgs [txt "--output=foo.c", txt "-v", txt "--gr", txt "--", txt "--x"] =
    some [txt "-ofoo.c", txt "-v", txt "-g", txt "--", txt "--x"] := by decide

/-- `--output=my--name` is a long option with an argument, but it is rejected: after the argument has been moved down, the test for an unknown option looks at
what was left of the old text behind it. -/
theorem C105_dashes_violated : ¬ ∀ name val a b : List Nat, 0 ∉ a → WithArg name val a b → mapLong a = .arg b := by
  intro h
  have := h (txt "output") (txt "my--name") (txt "--output=my--name") (txt "-omy--name") (by decide)
    ⟨("output", true, 'o'), by decide, by decide, by decide, ⟨table.take 12, table.drop 13, by decide, by decide, by decide⟩, rfl, by decide⟩
  exact absurd this (by decide)

/-- An option without a name, `--=x`, is taken as `-Hx`. -/
theorem C105_empty_violated : ¬ ∀ name val b : List Nat, mapLong (txt "--" ++ name ++ 61 :: val) = .arg b → name ≠ [] := by
  intro h
  exact h [] (txt "x") (txt "-Hx") (by decide) rfl

/-- An abbreviation that fits several options is not rejected: `--na` is taken as `--naked` though it also begins `--name-prefix`. -/
theorem C105_ambiguous_violated : ¬ ∀ name b : List Nat, mapLong (txt "--" ++ name) = .arg b →
    ∀ r ∈ table, ∀ r' ∈ table, name <+: txt r.1 → name <+: txt r'.1 → r = r' := by
  intro h
  exact absurd (h (txt "na") (txt "-n") (by decide) ("naked", false, 'n') (by decide) ("name-prefix", true, 'p') (by decide) (by decide) (by decide))
    (by decide)

end Verif.Byacc
