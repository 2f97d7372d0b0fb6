import Verif.Proofs.NakedMeaning
/-
Auxiliary facts: tokens, precedences and language of the grammar without its actions.
-/
set_option autoImplicit false
namespace Verif.Byacc.Rd
open Spec Spec.YText
open Classical

theorem declUses_append (a b : List Decl) : ∀ pre, declUses pre (a ++ b) = declUses pre a ++ declUses (pre ++ a) b := by
  induction a with
  | nil => intro pre; simp [declUses]
  | cons d a ih => intro pre; rw [List.cons_append, declUses, declUses, ih]; simp

theorem levels_tokDecls (ts : List (List Nat)) : levels (tokDecls ts) = 0 := by
  unfold levels tokDecls
  rw [List.length_eq_zero_iff, List.filter_eq_nil_iff]
  intro d hd
  obtain ⟨n, -, rfl⟩ := List.mem_map.1 hd
  simp

theorem declUses_tok (l : List (List Nat)) : ∀ pre, declUses pre (l.map fun n => Decl.tokens .TOKEN none [(asSym n, none)]) =
    l.map fun n => Use.token (asSym n) .TOKEN (levels pre) none none := by
  induction l with
  | nil => intro pre; rfl
  | cons n l ih =>
    intro pre
    have h0 : levels (pre ++ [Decl.tokens .TOKEN none [(asSym n, none)]]) = levels pre := by
      rw [levels_append]; simp [levels]
    rw [List.map_cons, declUses, ih, h0]
    simp [Decl.uses, h0]

/-- the kind of a level -/
noncomputable def lvlKind (us : List Use) (ts : List (List Nat)) (k : Nat) : Assoc := (lvl us ts k).head?.elim .TOKEN (kindOf us)

noncomputable def gUses (us : List Use) (ts : List (List Nat)) (j : Nat) : List Nat → List Use
  | [] => []
  | k :: ks => (lvl us ts k).map (fun n => .token (asSym n) (lvlKind us ts k) (j + 1) none none) ++ gUses us ts (j + 1) ks

theorem declUses_lvls (us : List Use) (ts : List (List Nat)) (ks : List Nat) (h : ∀ k ∈ ks, lvlKind us ts k ≠ .TOKEN) : ∀ pre,
    declUses pre (ks.map (lvlDecl us ts)) = gUses us ts (levels pre) ks := by
  induction ks with
  | nil => intro pre; rfl
  | cons k ks ih =>
    intro pre
    have h0 : levels (pre ++ [lvlDecl us ts k]) = levels pre + 1 := by
      rw [levels_append]
      congr 1
      have := h k (by simp)
      unfold levels lvlDecl
      unfold lvlKind at this
      simp [this]
    rw [List.map_cons, declUses, ih (fun j hj => h j (by simp [hj])), h0, gUses]
    congr 1
    have e : ∀ (a : Assoc) (items : List (Sym × Option Nat)) (p : List Decl), Decl.uses p (.tokens a none items) = items.map fun y => Use.token y.1 a (levels (p ++ [.tokens a none items])) none y.2 := fun _ _ _ => rfl
    unfold lvlDecl at h0 ⊢
    rw [e, h0, List.map_map]
    rfl

theorem gUses_mem (us : List Use) (ts : List (List Nat)) (ks : List Nat) (u : Use) : ∀ j, u ∈ gUses us ts j ks ↔
    ∃ i k, ks[i]? = some k ∧ ∃ n ∈ lvl us ts k, u = .token (asSym n) (lvlKind us ts k) (j + i + 1) none none := by
  induction ks with
  | nil => intro j; simp [gUses]
  | cons k ks ih =>
    intro j
    rw [gUses, List.mem_append, ih]
    constructor
    · rintro (h | ⟨i, k', h1, n, h2, rfl⟩)
      · obtain ⟨n, hn, rfl⟩ := List.mem_map.1 h
        exact ⟨0, k, rfl, n, hn, rfl⟩
      · exact ⟨i + 1, k', by simpa using h1, n, h2, by congr 1; omega⟩
    · rintro ⟨i, k', h1, n, h2, rfl⟩
      cases i with
      | zero =>
        simp only [List.getElem?_cons_zero, Option.some.injEq] at h1
        subst h1
        exact .inl (List.mem_map.2 ⟨n, h2, rfl⟩)
      | succ i => exact .inr ⟨i, k', by simpa using h1, n, h2, by congr 1; omega⟩

/-- what is known about a file that was read -/
structure Nk (F : File) (t : List Nat) : Prop where
  at_ : FileAt F t
  ok : F.Ok
  goal : IsLhs F.uses F.goal
  bytes : YText.Bytes t
  dollar : ∀ n ∈ names F.uses, dollar n = true → Hid n

section
variable {F : File} {t : List Nat}

theorem Nk.names (h : Nk F t) : ∀ a ∈ F.alts, ∃ m, a.lhs = .name m := by
  intro a ha
  cases hl : a.lhs with
  | name m => exact ⟨m, rfl⟩
  | lit s =>
    exfalso
    have h1 : IsLhs F.uses a.lhs.key := (file_alts h.at_ a ha).1
    refine h.ok.2 _ h1 ?_
    obtain ⟨x, hx, hk⟩ := h1
    cases x with
    | name n =>
      exfalso
      have hw := uses_written h.at_ _ hx
      obtain ⟨t, u, hw⟩ := hw
      rw [hl] at hk
      exact name_notLit hw s hk
    | lit s' => exact .inr ⟨_, hx, hk, .inr ⟨s', if_pos hk⟩⟩

theorem Nk.alts (h : Nk F t) : (nakedFile F).alts = F.alts.map bare := naked_alts F h.names

theorem Nk.notDollar (h : Nk F t) {n : List Nat} (hn : n ∈ YText.names F.uses) (hh : ¬ Hid n) : Byacc.dollar n = false := by
  cases hd : Byacc.dollar n with
  | false => rfl
  | true => exact absurd (h.dollar n hn hd) hh

theorem Nk.first (h : Nk F t) : Byacc.dollar F.first = false := by
  obtain ⟨-, ⟨t, u, hf⟩, -⟩ := file_named h.at_
  refine h.notDollar ((mem_names _ _).2 (.inr ⟨.lhs (.name F.first), by unfold File.uses; simp, rfl⟩)) ?_
  rintro ⟨k, hk⟩
  exact name_notHidden hf k hk

theorem Nk.isLhs (h : Nk F t) (n : List Nat) : IsLhs (nakedFile F).uses n ↔ IsLhs F.uses n := by
  rw [isLhs_alts, isLhs_alts, h.alts]
  simp [bare]

theorem toksFrom_src (as : List Alt) : ∀ prev, ∀ x, RTok.sym x ∈ toksFrom prev as ∨ RTok.lhs x ∈ toksFrom prev as ∨ RTok.prec x ∈ toksFrom prev as →
    ∃ a ∈ as, x = a.lhs ∨ El.sym x ∈ a.rhs ∨ El.prec x ∈ a.rhs := by
  induction as with
  | nil => intro prev x h; simp [toksFrom] at h
  | cons a as ih =>
    intro prev x h
    rw [toksFrom] at h
    have hsrc : ∀ y, (y = RTok.sym x ∨ y = .lhs x ∨ y = .prec x) → y ∈ elToks a → El.sym x ∈ a.rhs ∨ El.prec x ∈ a.rhs := by
      intro y hy hm
      unfold elToks at hm
      rcases List.mem_append.1 hm with hm | hm
      · obtain ⟨z, hz, rfl⟩ := List.mem_map.1 hm
        rcases hy with e | e | e
        · cases e; exact .inl (symList_mem hz)
        · cases e
        · cases e
      · obtain ⟨z, hz, rfl⟩ := List.mem_map.1 hm
        have hz : precNamed a.rhs = some z := by simpa using hz
        rcases hy with e | e | e
        · cases e
        · cases e
        · cases e; exact .inr (named_mem hz)
    have key : ∀ y, (y = RTok.sym x ∨ y = .lhs x ∨ y = .prec x) → y ∈ (if innerActions a.rhs = 0 ∧ a.lhs.key = prev then RTok.bar else .lhs a.lhs) :: (elToks a ++ toksFrom a.lhs.key as) →
        ∃ b ∈ a :: as, x = b.lhs ∨ El.sym x ∈ b.rhs ∨ El.prec x ∈ b.rhs := by
      intro y hy hm
      rcases List.mem_cons.1 hm with e | hm
      · split at e
        · subst e; rcases hy with e | e | e <;> cases e
        · subst e
          rcases hy with e | e | e
          · cases e
          · cases e; exact ⟨a, by simp, .inl rfl⟩
          · cases e
      · rcases List.mem_append.1 hm with hm | hm
        · exact ⟨a, by simp, .inr (hsrc y hy hm)⟩
        · obtain ⟨b, hb, h⟩ := ih a.lhs.key x (by rcases hy with rfl | rfl | rfl <;> simp [hm])
          exact ⟨b, by simp [hb], h⟩
    rcases h with h | h | h
    · exact key _ (.inl rfl) h
    · exact key _ (.inr (.inl rfl)) h
    · exact key _ (.inr (.inr rfl)) h

theorem naked_toks_src (F : File) (x : Sym) (h : RTok.sym x ∈ (nakedFile F).toks ∨ RTok.lhs x ∈ (nakedFile F).toks ∨ RTok.prec x ∈ (nakedFile F).toks) :
    ∃ a ∈ F.alts, x = a.lhs ∨ El.sym x ∈ a.rhs ∨ El.prec x ∈ a.rhs := by
  refine toksFrom_src F.alts (txt "$accept") x ?_
  unfold nakedFile at h
  rcases h with h | h | h
  · exact .inl (List.mem_of_mem_tail h)
  · exact .inr (.inl (List.mem_of_mem_tail h))
  · exact .inr (.inr (List.mem_of_mem_tail h))

theorem naked_noActs (F : File) : NoActs (nakedFile F).toks := by
  intro x hx
  exact toksFrom_noActs _ _ x (List.mem_of_mem_tail hx)

theorem Nk.level (h : Nk F t) {k : Nat} (hk : 1 ≤ k) {n : List Nat} (hn : n ∈ lvl F.uses (tokenNames F.uses) k) : n ∈ tokenNames F.uses ∧ ∃ a, Spec.YText.precOf F.uses n = some (k, a) ∧ a ≠ .TOKEN := by
  obtain ⟨h1, h2⟩ := List.mem_filter.1 hn
  have h2 : levelOf F.uses n = k := by simpa using h2
  refine ⟨h1, ?_⟩
  unfold levelOf at h2
  cases hp : Spec.YText.precOf F.uses n with
  | none => rw [hp] at h2; simp at h2; omega
  | some p =>
    obtain ⟨j, a⟩ := p
    rw [hp] at h2
    simp at h2
    subst h2
    exact ⟨a, rfl, (precOf_file hp).2.2.1⟩

theorem Nk.lvlKind (h : Nk F t) {k : Nat} {n : List Nat} {a : Assoc} (hk : 1 ≤ k) (hn : n ∈ lvl F.uses (tokenNames F.uses) k)
    (hp : Spec.YText.precOf F.uses n = some (k, a)) : lvlKind F.uses (tokenNames F.uses) k = a := by
  unfold Rd.lvlKind
  cases hl : lvl F.uses (tokenNames F.uses) k with
  | nil => rw [hl] at hn; cases hn
  | cons m ms =>
    obtain ⟨-, b, hb, -⟩ := h.level hk (n := m) (by rw [hl]; simp)
    simp only [List.head?_cons, Option.elim_some]
    unfold kindOf
    rw [hb]
    exact level_kind hb hp

theorem mem_lvls {us : List Use} {ts : List (List Nat)} {n k : Nat} : k ∈ lvlsOf us ts n ↔ (1 ≤ k ∧ k ≤ n) ∧ lvl us ts k ≠ [] := by
  unfold lvlsOf
  rw [List.mem_filter, List.mem_range'_1]
  simp only [decide_eq_true_eq]
  constructor
  · rintro ⟨h1, h2⟩; exact ⟨by omega, h2⟩
  · rintro ⟨h1, h2⟩; exact ⟨by omega, h2⟩

theorem Nk.kinds (h : Nk F t) : ∀ k ∈ lvlsOf F.uses (tokenNames F.uses) (levels F.all), Rd.lvlKind F.uses (tokenNames F.uses) k ≠ .TOKEN := by
  intro k hk
  obtain ⟨h1, h2⟩ := mem_lvls.1 hk
  obtain ⟨n, hn⟩ := List.exists_mem_of_ne_nil _ h2
  obtain ⟨-, a, ha, hne⟩ := h.level h1.1 hn
  rw [h.lvlKind h1.1 hn ha]
  exact hne

/-- the places at which symbols are named -/
theorem Nk.uses (h : Nk F t) : (nakedFile F).uses =
    ((tokenNames F.uses).filter fun n => decide (n ≠ txt "error")).map (fun n => Use.token (asSym n) .TOKEN 0 none none) ++
      (gUses F.uses (tokenNames F.uses) 0 (lvlsOf F.uses (tokenNames F.uses) (levels F.all)) ++
        (.plain (.name F.goal) :: .lhs (.name F.first) :: ruleUses (.name F.first) false 0 (nakedFile F).toks)) := by
  have e0 : (nakedFile F).uses = declUses [] ((nakedFile F).decls ++ (nakedFile F).early) ++ .lhs (.name F.first) :: ruleUses (.name F.first) false 0 (nakedFile F).toks := rfl
  have e1 : (nakedFile F).decls ++ (nakedFile F).early = tokDecls (tokenNames F.uses) ++ ((lvlsOf F.uses (tokenNames F.uses) (levels F.all)).map (lvlDecl F.uses (tokenNames F.uses)) ++ [.start F.goal]) := by
    simp [nakedFile]
  rw [e0, e1, declUses_append, declUses_append, declUses_lvls _ _ _ h.kinds, List.nil_append, levels_tokDecls]
  unfold tokDecls
  rw [declUses_tok]
  have e2 : levels [] = 0 := rfl
  rw [e2]
  simp [declUses, Decl.uses]

theorem Nk.hidden (h : Nk F t) (n : List Nat) : hiddenOf (nakedFile F).uses n = none := by
  unfold hiddenOf
  rw [List.findSome?_eq_none_iff]
  intro u hu
  have : ∀ k l, u ≠ .hidden k l := by
    rintro k l rfl
    rw [h.uses] at hu
    simp only [List.mem_append, List.mem_map, List.mem_cons, reduceCtorEq, and_false, exists_false, false_or] at hu
    rcases hu with hu | hu
    · obtain ⟨i, k', -, n, -, e⟩ := (gUses_mem _ _ _ _ _).1 hu
      cases e
    · rcases ruleUses_src _ _ _ _ _ hu with ⟨x, e, -⟩ | ⟨x, e, -⟩ | ⟨-, h' | ⟨b, ps, h'⟩⟩
      · cases e
      · cases e
      · cases h'
      · exact naked_noActs F _ h' b ps rfl
  cases u with
  | hidden k l => exact absurd rfl (this k l)
  | _ => rfl

theorem Nk.terminal (h : Nk F t) (n : List Nat) : Terminal (nakedFile F).uses n ↔ ¬ IsLhs F.uses n := by
  unfold Terminal
  rw [h.isLhs]
  simp [h.hidden]

theorem Nk.error (h : Nk F t) : Terminal F.uses (txt "error") := by
  have : IsToken F.uses (txt "error") := .inl rfl
  exact ⟨fun hl => h.ok.2 _ hl this, token_notHidden h.at_ _ this⟩

theorem firsts_append (xs ys : List (List Nat)) (h : xs.Nodup) : firsts (xs ++ ys) = xs ++ (firsts ys).filter fun n => decide (n ∉ xs) := by
  induction xs with
  | nil => simp
  | cons x xs ih =>
    have h1 := List.nodup_cons.1 h
    rw [List.cons_append, firsts, ih h1.2, List.filter_append, List.cons_append]
    congr 2
    · rw [List.filter_eq_self]
      intro a ha
      simp only [decide_eq_true_eq]
      rintro rfl; exact h1.1 ha
    · rw [List.filter_filter]
      congr 1
      funext n
      by_cases h2 : n = x <;> by_cases h3 : n ∈ xs <;> simp [h2, h3]

theorem tokenNames_error (h : Nk F t) : ∃ T, tokenNames F.uses = txt "error" :: T := by
  unfold tokenNames YText.names
  rw [firsts, List.filter_cons_of_pos (by simpa using h.error)]
  exact ⟨_, rfl⟩

theorem Nk.sym_cases (h : Nk F t) {n : List Nat} (hn : n ∈ YText.names F.uses) (hh : ¬ Hid n) : IsLhs F.uses n ∨ n ∈ tokenNames F.uses := by
  by_cases hl : IsLhs F.uses n
  · exact .inl hl
  · refine .inr (List.mem_filter.2 ⟨hn, ?_⟩)
    simp only [decide_eq_true_eq]
    refine ⟨hl, ?_⟩
    by_contra hc
    exact hh ((hid_hidden h.at_ hn).2 hc)

/-- the tokens are the same, in the same order -/
theorem Nk.tokens (h : Nk F t) : tokenNames (nakedFile F).uses = tokenNames F.uses := by
  obtain ⟨T, hT⟩ := tokenNames_error h
  have hnd : (txt "error" :: T).Nodup := by rw [← hT]; exact tokenNames_nodup _
  have hmem : ∀ n ∈ tokenNames F.uses, Terminal F.uses n := by
    intro n hn
    simpa using (List.mem_filter.1 hn).2
  have e : txt "error" :: (nakedFile F).uses.map Use.key = tokenNames F.uses ++
      (gUses F.uses (tokenNames F.uses) 0 (lvlsOf F.uses (tokenNames F.uses) (levels F.all)) ++
        (.plain (.name F.goal) :: .lhs (.name F.first) :: ruleUses (.name F.first) false 0 (nakedFile F).toks)).map Use.key := by
    rw [h.uses, List.map_append, List.map_map]
    have : ((tokenNames F.uses).filter fun n => decide (n ≠ txt "error")).map (Use.key ∘ fun n => Use.token (asSym n) .TOKEN 0 none none) = T := by
      have e1 : (Use.key ∘ fun n => Use.token (asSym n) .TOKEN 0 none none) = id := by
        funext n; exact asSym_key n
      rw [e1, List.map_id, hT, List.filter_cons_of_neg (by simp), List.filter_eq_self]
      intro n hn
      simp only [decide_eq_true_eq]
      rintro rfl
      exact (List.nodup_cons.1 hnd).1 hn
    rw [this, ← List.cons_append, ← hT]
  unfold tokenNames YText.names
  rw [e, firsts_append _ _ (tokenNames_nodup _), List.filter_append]
  have h1 : ((tokenNames F.uses).filter fun n => decide (Terminal (nakedFile F).uses n)) = tokenNames F.uses := by
    rw [List.filter_eq_self]
    intro n hn
    simp only [decide_eq_true_eq]
    exact (h.terminal n).2 (hmem n hn).1
  rw [h1]
  have h2 : ∀ l : List (List Nat), (∀ n ∈ l, n ∈ tokenNames F.uses ∨ IsLhs F.uses n) →
      (((firsts l).filter fun n => decide (n ∉ tokenNames F.uses)).filter fun n => decide (Terminal (nakedFile F).uses n)) = [] := by
    intro l hl
    rw [List.filter_filter, List.filter_eq_nil_iff]
    intro n hn
    simp only [Bool.and_eq_true, decide_eq_true_eq, not_and]
    intro h3
    rcases hl n ((mem_firsts _ _).1 hn) with h4 | h4
    · simp [h4]
    · exact absurd h4 ((h.terminal n).1 h3)
  rw [h2]
  · rw [List.append_nil]; rfl
  · intro n hn
    obtain ⟨u, hu, rfl⟩ := List.mem_map.1 hn
    rcases List.mem_append.1 hu with hu | hu
    · obtain ⟨i, k, -, m, hm, rfl⟩ := (gUses_mem _ _ _ _ _).1 hu
      refine .inl ?_
      change (asSym m).key ∈ _
      rw [asSym_key]
      exact (List.mem_filter.1 hm).1
    · rcases List.mem_cons.1 hu with rfl | hu
      · exact .inr h.goal
      · rcases List.mem_cons.1 hu with rfl | hu
        · exact .inr ((isLhs_file F _).2 (.inl rfl))
        · have key : ∀ x, (RTok.sym x ∈ (nakedFile F).toks ∨ RTok.lhs x ∈ (nakedFile F).toks ∨ RTok.prec x ∈ (nakedFile F).toks) →
              x.key ∈ tokenNames F.uses ∨ IsLhs F.uses x.key := by
            intro x hx
            obtain ⟨a, ha, hx⟩ := naked_toks_src F x hx
            obtain ⟨k1, k2⟩ := file_keys F a ha
            obtain ⟨g1, g2⟩ := alts_good h.at_ h.bytes a ha
            rcases hx with rfl | hx
            · exact .inr (file_alts h.at_ a ha).1
            · obtain ⟨⟨t', u', hs⟩, -⟩ := g2 x hx
              exact (h.sym_cases (k2 x hx) (fun ⟨k, hk⟩ => symAt_notHidden hs k hk)).symm
          rcases ruleUses_src _ _ _ _ _ hu with ⟨x, rfl, hx | hx⟩ | ⟨x, rfl, hx⟩ | ⟨-, h' | ⟨b, ps, h'⟩⟩
          · exact key x (.inl hx)
          · exact key x (.inr (.inr hx))
          · exact key x (.inr (.inl hx))
          · cases h'
          · exact absurd rfl (naked_noActs F _ h' b ps)

end

end Verif.Byacc.Rd
