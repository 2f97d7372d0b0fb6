import Verif.Byacc.Opts
import Verif.Spec.ByaccOpts
set_option autoImplicit false
namespace Verif.Byacc.Op
open Verif.Spec.YOpts

theorem strnEq_iff (n : Nat) (x y : List Nat) (hx : 0 ∉ x) (hy : 0 ∉ y) (hn : n ≤ y.length) :
    strnEq n x y = true ↔ y.take n <+: x := by
  induction n generalizing x y with
  | zero => simp [strnEq]
  | succ n ih =>
    cases y with
    | nil => simp at hn
    | cons b y =>
      have hb : b ≠ 0 := fun e => hy (by simp [e])
      cases x with
      | nil => simp [strnEq, Ne.symm hb]
      | cons a x =>
        have ha : a ≠ 0 := fun e => hx (by simp [e])
        simp only [List.mem_cons, not_or] at hx hy
        have := ih x y hx.2 hy.2 (by simpa using hn)
        simp only [strnEq, List.headD_cons, List.tail_cons, List.take_succ_cons, List.cons_prefix_cons, ha, if_false]
        by_cases e : a = b
        · simp [e, this]
        · simp [e, Ne.symm e]

/-- `strncmp(s, "--", 2)` on a piece of memory -/
theorem strnEq_dashes (s : List Nat) : strnEq 2 s (Rd.str "--") = true ↔ txt "--" <+: s := by
  have e1 : Rd.str "--" = [45, 45] := by decide
  have e2 : txt "--" = [45, 45] := by decide
  rw [e1, e2]
  match s with
  | [] => simp [strnEq]
  | [a] => by_cases h : a = 45 <;> simp [strnEq, h, List.cons_prefix_cons]; try (intro e; omega)
  | a :: b :: s =>
    by_cases h : a = 45
    · by_cases h2 : b = 45 <;> simp [strnEq, h, h2, List.cons_prefix_cons]; try (intro e; omega)
    · simp [strnEq, h, List.cons_prefix_cons]; try (intro e; omega)

/-- Copying down: `b = p ++ q ++ v ++ [0]`, with `i = p.length`, `j + 1 = (p ++ q).length` and `q` not empty. -/
theorem copyArg_eq (v : List Nat) : ∀ (f : Nat) (p q : List Nat), 0 ∉ v → v.length < f → q ≠ [] →
    ∀ b i j, b = p ++ q ++ v ++ [0] → i = p.length → j + 1 = p.length + q.length →
    copyArg f b i j = (p ++ v ++ 0 :: ((q ++ v ++ [0]).drop (v.length + 1)), p.length + v.length + 1) := by
  induction v with
  | nil =>
    intro f p q hv hf hq b i j hb hi hj
    obtain ⟨f, rfl⟩ : ∃ g, f = g + 1 := ⟨f - 1, by simp at hf; omega⟩
    obtain ⟨c, q, rfl⟩ := List.exists_cons_of_ne_nil hq
    have h0 : b.getD (j + 1) 0 = 0 := by
      rw [hb, hj]; simp [List.getD_eq_getElem?_getD]
    rw [copyArg, if_pos h0, hb, hi]
    simp
  | cons c v ih =>
    intro f p q hv hf hq b i j hb hi hj
    obtain ⟨f, rfl⟩ : ∃ g, f = g + 1 := ⟨f - 1, by simp at hf; omega⟩
    obtain ⟨d, q, rfl⟩ := List.exists_cons_of_ne_nil hq
    simp only [List.mem_cons, not_or] at hv
    have h0 : b.getD (j + 1) 0 = c := by
      rw [hb, hj]; simp [List.getD_eq_getElem?_getD]
    rw [copyArg, h0, if_neg (Ne.symm hv.1)]
    have := ih f (p ++ [c]) (q ++ [c]) hv.2 (by simpa using hf) (by simp) (b.set i c) (i + 1) (j + 1)
      (by rw [hb, hi]; simp) (by simp [hi]) (by simp at hj ⊢; omega)
    rw [this]
    simp
    omega

def ofRow (r : String × Bool × Char) : LongOpt := ⟨txt r.1, r.2.1, r.2.2.toNat⟩

theorem longOpts_eq : longOpts = table.map ofRow := by decide

theorem noNul : ∀ r ∈ table, 0 ∉ txt r.1 := by decide

theorem find_table (p : LongOpt → Bool) (l : List (String × Bool × Char)) :
    (l.map ofRow).find? p = (l.find? fun r => p (ofRow r)).map ofRow := by
  induction l with
  | nil => rfl
  | cons r l ih =>
    rw [List.map_cons, List.find?_cons, List.find?_cons]
    cases p (ofRow r) <;> simp [ih]

theorem find_abbrev (name rest : List Nat) (h0 : 0 ∉ name ++ rest) (o : LongOpt) :
    longOpts.find? (fun o => strnEq name.length o.name (name ++ rest)) = some o ↔ ∃ r, Abbrev name r ∧ o = ofRow r := by
  have e : ∀ r ∈ table, strnEq name.length (ofRow r).name (name ++ rest) = decide (name <+: txt r.1) := by
    intro r hr
    have := strnEq_iff name.length (txt r.1) (name ++ rest) (noNul r hr) h0 (by simp)
    rw [List.take_left'  rfl] at this
    by_cases h : name <+: txt r.1
    · rw [decide_eq_true h]; exact this.2 h
    · rw [decide_eq_false h]
      cases hb : strnEq name.length (ofRow r).name (name ++ rest)
      · rfl
      · exact absurd (this.1 hb) h
  rw [longOpts_eq, find_table]
  have e2 : (table.find? fun r => strnEq name.length (ofRow r).name (name ++ rest)) = table.find? fun r => decide (name <+: txt r.1) := by
    have gen : ∀ l : List (String × Bool × Char), (∀ r ∈ l, strnEq name.length (ofRow r).name (name ++ rest) = decide (name <+: txt r.1)) →
        (l.find? fun r => strnEq name.length (ofRow r).name (name ++ rest)) = l.find? fun r => decide (name <+: txt r.1) := by
      intro l hl
      induction l with
      | nil => rfl
      | cons r l ih =>
        rw [List.find?_cons, List.find?_cons, hl r (by simp), ih (fun x hx => hl x (by simp [hx]))]
    exact gen table e
  rw [e2, Option.map_eq_some_iff]
  constructor
  · rintro ⟨r, hr, rfl⟩
    rw [List.find?_eq_some_iff_append] at hr
    obtain ⟨h1, pre, post, h2, h3⟩ := hr
    exact ⟨r, ⟨pre, post, h2, by simpa using h1, fun p hp => by simpa using h3 p hp⟩, rfl⟩
  · rintro ⟨r, ⟨pre, post, h2, h1, h3⟩, rfl⟩
    refine ⟨r, ?_, rfl⟩
    rw [List.find?_eq_some_iff_append]
    exact ⟨by simpa using h1, pre, post, h2, fun p hp => by simpa using h3 p hp⟩

theorem takeWhile_nul (a b : List Nat) (h : 0 ∉ a) : (a ++ 0 :: b).takeWhile (· ≠ 0) = a := by
  rw [List.takeWhile_append_of_pos (by intro x hx; simp; rintro rfl; exact h hx)]
  simp

theorem mapTo_plain (o : LongOpt) (name : List Nat) (hn : name ≠ []) (ho : o.opt ≠ 0) :
    mapTo o (txt "--" ++ name ++ [0]) none = .arg [45, o.opt] := by
  obtain ⟨c, name, rfl⟩ := List.exists_cons_of_ne_nil hn
  have e2 : txt "--" = [45, 45] := by decide
  have e1 : Rd.str "--" = [45, 45] := by decide
  simp [mapTo, e2, e1, strnEq, ho]

theorem mapTo_arg (o : LongOpt) (name val : List Nat) (hv : 0 ∉ val) (ho : o.opt ≠ 0) :
    mapTo o (txt "--" ++ name ++ 61 :: val ++ [0]) (some (name.length + 2)) =
      if txt "--" <+: (txt "--" ++ name ++ 61 :: val).drop (val.length + 3) then .invalid else .arg (45 :: o.opt :: val) := by
  have e2 : txt "--" = [45, 45] := by decide
  have hb : (((txt "--" ++ name ++ 61 :: val ++ [0]).set 0 45).set 1 o.opt).set 2 0 = [45, o.opt] ++ ((name ++ [61]).set 0 0) ++ val ++ [0] := by
    rw [e2]
    cases name <;> simp
  have hc := copyArg_eq val ((txt "--" ++ name ++ 61 :: val ++ [0]).length) [45, o.opt] ((name ++ [61]).set 0 0) hv (by simp; omega) (by cases name <;> simp)
    _ 2 (name.length + 2) rfl rfl (by simp; omega)
  unfold mapTo
  dsimp only
  rw [hb]
  have hl : ([45, o.opt] ++ ((name ++ [61]).set 0 0) ++ val ++ [0]).length = (txt "--" ++ name ++ 61 :: val ++ [0]).length := by rw [e2]; simp; omega
  rw [hl, hc]
  dsimp only
  have ht : ([45, o.opt] ++ val ++ 0 :: (((name ++ [61]).set 0 0) ++ val ++ [0]).drop (val.length + 1)).takeWhile (· ≠ 0) = 45 :: o.opt :: val := by
    rw [takeWhile_nul _ _ (by simp [ho.symm, hv])]; rfl
  rw [ht]
  have hd : ([45, o.opt] ++ val ++ 0 :: (((name ++ [61]).set 0 0) ++ val ++ [0]).drop (val.length + 1)).drop (([45, o.opt] : List Nat).length + val.length + 1) =
      (txt "--" ++ name ++ 61 :: val).drop (val.length + 3) ++ [0] := by
    have l1 : ([45, o.opt] ++ val ++ 0 :: (((name ++ [61]).set 0 0) ++ val ++ [0]).drop (val.length + 1)) =
        (([45, o.opt] ++ val) ++ [0]) ++ (((name ++ [61]).set 0 0) ++ val ++ [0]).drop (val.length + 1) := by simp
    rw [l1, List.drop_left' (by simp; omega), e2]
    cases name with
    | nil => simp
    | cons c name =>
      simp only [List.cons_append, List.set_cons_zero, List.drop_succ_cons, List.nil_append, List.append_assoc]
      have l2 : name ++ 61 :: (val ++ [0]) = (name ++ 61 :: val) ++ [0] := by simp
      rw [l2, List.drop_append_of_le_length (by simp; omega)]
  rw [hd]
  have hp : ∀ s : List Nat, txt "--" <+: s ++ [0] ↔ txt "--" <+: s := by
    intro s
    rw [e2]
    match s with
    | [] => simp
    | [a] => simp [List.cons_prefix_cons]
    | a :: b :: s => simp [List.cons_prefix_cons]
  by_cases h : txt "--" <+: (txt "--" ++ name ++ 61 :: val).drop (val.length + 3)
  · rw [if_pos ((strnEq_dashes _).2 ((hp _).2 h)), if_pos h]
  · rw [if_neg (fun q => h ((hp _).1 ((strnEq_dashes _).1 q))), if_neg h]

theorem opt_ne (name : List Nat) (r : String × Bool × Char) (h : Abbrev name r) : (ofRow r).opt ≠ 0 := by
  obtain ⟨pre, post, h, -⟩ := h
  have : ∀ r ∈ table, (ofRow r).opt ≠ 0 := by decide
  exact this r (by rw [h]; simp)

/-- every argument that begins with `--` is `--`, `--name` or `--name=val` -/
theorem split_arg (a : List Nat) (h : txt "--" <+: a) :
    a = txt "--" ∨ (∃ name, a = txt "--" ++ name ∧ name ≠ [] ∧ 61 ∉ name) ∨ ∃ name val, a = txt "--" ++ name ++ 61 :: val ∧ 61 ∉ name := by
  obtain ⟨t, rfl⟩ := h
  by_cases h1 : 61 ∈ t
  · right; right
    obtain ⟨n, v, rfl, hn⟩ := List.eq_append_cons_of_mem h1
    exact ⟨n, v, by simp, hn⟩
  · cases t with
    | nil => left; simp
    | cons c t => right; left; exact ⟨c :: t, rfl, by simp, h1⟩

theorem idxOf_app (p v : List Nat) (h : 61 ∉ p) : (p ++ 61 :: v).idxOf? 61 = some p.length := by
  induction p with
  | nil => simp [List.idxOf?_cons]
  | cons c p ih =>
    simp only [List.mem_cons, not_or] at h
    have hc : (c == 61) = false := by simpa using Ne.symm h.1
    rw [List.cons_append, List.idxOf?_cons, hc, ih h.2]
    simp

theorem idxOf_eq (name val : List Nat) (h : 61 ∉ name) : (txt "--" ++ name ++ 61 :: val).idxOf? 61 = some (name.length + 2) := by
  have e2 : txt "--" = [45, 45] := by decide
  rw [idxOf_app _ _ (by rw [e2]; simp [h]), e2]
  simp

theorem idxOf_none (name : List Nat) (h : 61 ∉ name) : (txt "--" ++ name).idxOf? 61 = none := by
  have e2 : txt "--" = [45, 45] := by decide
  rw [e2, List.idxOf?, List.findIdx?_eq_none_iff]
  intro x hx
  simp at hx
  rcases hx with rfl | hx
  · decide
  · simp; rintro rfl; exact h hx

/-- `--name` -/
theorem mapLong_plain (name : List Nat) (hn : name ≠ []) (h : 61 ∉ name) (h0 : 0 ∉ name) :
    mapLong (txt "--" ++ name) = match longOpts.find? (fun o => strnEq name.length o.name (name ++ [])) with
      | none => .invalid
      | some o => mapTo o (txt "--" ++ name ++ [0]) none := by
  have e2 : (txt "--").length = 2 := by decide
  unfold mapLong
  rw [(strnEq_dashes _).2 (List.prefix_append _ _), idxOf_none name h]
  have hl : ¬ (txt "--" ++ name).length = 2 := by
    rw [List.length_append, e2]; have := List.length_pos_iff.2 hn; omega
  simp only [hl, if_false, Bool.not_true, Option.isSome_none, Bool.false_and, Option.getD_none, List.drop_left' e2, Bool.false_eq_true]
  rw [List.length_append, e2, Nat.add_sub_cancel_left, List.append_nil]
  cases longOpts.find? (fun o => strnEq name.length o.name name) <;> rfl

/-- `--name=val` -/
theorem mapLong_arg (name val : List Nat) (h : 61 ∉ name) (h0 : 0 ∉ val) :
    mapLong (txt "--" ++ name ++ 61 :: val) = if val = [] then .invalid else
      match longOpts.find? (fun o => strnEq name.length o.name (name ++ 61 :: val)) with
      | none => .invalid
      | some o => if o.arg = true then mapTo o (txt "--" ++ name ++ 61 :: val ++ [0]) (some (name.length + 2)) else .invalid := by
  have e2 : (txt "--").length = 2 := by decide
  unfold mapLong
  rw [(strnEq_dashes _).2 ⟨name ++ 61 :: val, by simp⟩, idxOf_eq name val h]
  have hl : ¬ (txt "--" ++ name ++ 61 :: val).length = 2 := by
    simp [e2]
  have hd : (txt "--" ++ name ++ 61 :: val).drop 2 = name ++ 61 :: val := by
    rw [List.append_assoc, List.drop_left' e2]
  have hg : ((txt "--" ++ name ++ 61 :: val).getD (name.length + 2 + 1) 0 = 0) ↔ val = [] := by
    have : (txt "--" ++ name ++ 61 :: val) = (txt "--" ++ name ++ [61]) ++ val := by simp
    rw [this, List.getD_eq_getElem?_getD, List.getElem?_append_right (by simp [e2]; omega)]
    have : name.length + 2 + 1 - (txt "--" ++ name ++ [61]).length = 0 := by simp [e2]; omega
    rw [this]
    cases val with
    | nil => simp
    | cons c v => simp; rintro rfl; simp at h0
  simp only [hl, if_false, Bool.not_true, Option.isSome_some, Bool.true_and, Option.getD_some, hd, Bool.false_eq_true, Nat.add_sub_cancel]
  by_cases hv : val = []
  · rw [if_pos hv, if_pos]
    simp only [Bool.or_eq_true, beq_iff_eq]
    exact .inr (hg.2 hv)
  · rw [if_neg hv, if_neg]
    · cases longOpts.find? (fun o => strnEq name.length o.name (name ++ 61 :: val)) with
      | none => rfl
      | some o => cases h : o.arg <;> simp [h]
    · simp only [Bool.or_eq_true, beq_iff_eq]
      rintro (q | q)
      · omega
      · exact hv (hg.1 q)

end Verif.Byacc.Op
