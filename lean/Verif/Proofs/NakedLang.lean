import Verif.Proofs.NakedUses
/-
Auxiliary facts: the grammar without its actions is read again, as a grammar of the same language.
-/
set_option autoImplicit false
namespace Verif.Byacc.Rd
open Spec Spec.YText
open Classical

theorem getLast_const {α : Type} {l : List α} {p : α} (h : ∀ y ∈ l, y = p) (hne : l ≠ []) : l.getLast? = some p := by
  rw [List.getLast?_eq_some_getLast hne, h _ (List.getLast_mem hne)]

theorem idxOf_lt {l : List Nat} (h : l.Pairwise (· < ·)) {a b : Nat} (ha : a ∈ l) (hb : b ∈ l) : l.idxOf a < l.idxOf b ↔ a < b := by
  induction l with
  | nil => cases ha
  | cons x l ih =>
    obtain ⟨h1, h2⟩ := List.pairwise_cons.1 h
    rcases List.mem_cons.1 ha with rfl | ha' <;> rcases List.mem_cons.1 hb with rfl | hb'
    · simp
    · have := h1 b hb'
      rw [List.idxOf_cons_self, List.idxOf_cons_ne _ (by omega)]
      simp [this]
    · have := h1 a ha'
      rw [List.idxOf_cons_self, List.idxOf_cons_ne _ (by omega)]
      constructor
      · intro h; omega
      · intro h; omega
    · have e1 := h1 a ha'
      have e2 := h1 b hb'
      rw [List.idxOf_cons_ne _ (by omega), List.idxOf_cons_ne _ (by omega)]
      have := ih h2 ha' hb'
      omega

section
variable {F : File} {t : List Nat}

theorem Nk.token_of_prec (h : Nk F t) {n : List Nat} {k : Nat} {a : Assoc} (hp : Spec.YText.precOf F.uses n = some (k, a)) :
    n ∈ lvl F.uses (tokenNames F.uses) k ∧ k ∈ lvlsOf F.uses (tokenNames F.uses) (levels F.all) := by
  obtain ⟨h1, h2, h3, h4⟩ := precOf_file hp
  have hT : n ∈ tokenNames F.uses := by
    refine List.mem_filter.2 ⟨?_, ?_⟩
    · rcases h4 with rfl | ⟨u, hu, rfl, -⟩
      · exact (mem_names _ _).2 (.inl rfl)
      · exact (mem_names _ _).2 (.inr ⟨u, hu, rfl⟩)
    · simp only [decide_eq_true_eq]
      exact ⟨fun hl => h.ok.2 _ hl h4, token_notHidden h.at_ _ h4⟩
  have hL : n ∈ lvl F.uses (tokenNames F.uses) k := by
    refine List.mem_filter.2 ⟨hT, ?_⟩
    unfold levelOf
    rw [hp]; simp
  exact ⟨hL, mem_lvls.2 ⟨⟨h1, h2⟩, List.ne_nil_of_mem hL⟩⟩

theorem lvls_sorted (us : List Use) (ts : List (List Nat)) (n : Nat) : (lvlsOf us ts n).Pairwise (· < ·) := by
  unfold lvlsOf
  refine List.Pairwise.filter _ ?_
  exact List.pairwise_lt_range'

/-- the precedence of a token: its place among the levels in use -/
theorem Nk.prec (h : Nk F t) (n : List Nat) : Spec.YText.precOf (nakedFile F).uses n =
    (Spec.YText.precOf F.uses n).map fun p => ((lvlsOf F.uses (tokenNames F.uses) (levels F.all)).idxOf p.1 + 1, p.2) := by
  have hmem : ∀ p, p ∈ ((nakedFile F).uses.filterMap fun u => match u with | .token x a level _ _ => if x.key = n ∧ a ≠ .TOKEN then some (level, a) else none | _ => none) ↔
      ∃ k a, Spec.YText.precOf F.uses n = some (k, a) ∧ p = ((lvlsOf F.uses (tokenNames F.uses) (levels F.all)).idxOf k + 1, a) := by
    intro p
    constructor
    · intro hp
      obtain ⟨u, hu, he⟩ := List.mem_filterMap.1 hp
      rw [h.uses] at hu
      rcases List.mem_append.1 hu with hu | hu
      · obtain ⟨m, -, rfl⟩ := List.mem_map.1 hu
        simp at he
      rcases List.mem_append.1 hu with hu | hu
      · obtain ⟨i, k, hi, m, hm, rfl⟩ := (gUses_mem _ _ _ _ _).1 hu
        simp only [asSym_key] at he
        have hk := mem_lvls.1 (List.mem_of_getElem? hi)
        obtain ⟨hT, a, ha, hne⟩ := h.level hk.1.1 hm
        rw [h.lvlKind hk.1.1 hm ha] at he
        by_cases e : m = n
        · subst e
          rw [if_pos ⟨rfl, hne⟩] at he
          cases he
          refine ⟨k, a, ha, ?_⟩
          have hnd : (lvlsOf F.uses (tokenNames F.uses) (levels F.all)).Nodup := (lvls_sorted _ _ _).imp (fun h => by omega)
          obtain ⟨hi1, hi2⟩ := List.getElem?_eq_some_iff.1 hi
          rw [← hi2, hnd.idxOf_getElem]
          simp
        · rw [if_neg (fun c => e c.1)] at he
          cases he
      · exfalso
        rcases List.mem_cons.1 hu with rfl | hu
        · cases he
        rcases List.mem_cons.1 hu with rfl | hu
        · cases he
        rcases ruleUses_src _ _ _ _ _ hu with ⟨x, rfl, -⟩ | ⟨x, rfl, -⟩ | ⟨⟨_, _, rfl⟩, -⟩ <;> cases he
    · rintro ⟨k, a, hp, rfl⟩
      obtain ⟨h1, h2⟩ := h.token_of_prec hp
      have hk := mem_lvls.1 h2
      refine List.mem_filterMap.2 ⟨.token (asSym n) a ((lvlsOf F.uses (tokenNames F.uses) (levels F.all)).idxOf k + 1) none none, ?_, ?_⟩
      · rw [h.uses]
        refine List.mem_append_right _ (List.mem_append_left _ ?_)
        refine (gUses_mem _ _ _ _ _).2 ⟨(lvlsOf F.uses (tokenNames F.uses) (levels F.all)).idxOf k, k, ?_, n, h1, ?_⟩
        · exact List.getElem?_idxOf h2
        · rw [h.lvlKind hk.1.1 h1 hp]; simp
      · simp only [asSym_key]
        rw [if_pos ⟨trivial, (precOf_file hp).2.2.1⟩]
  change (List.filterMap _ _).getLast? = _
  cases hp : Spec.YText.precOf F.uses n with
  | none =>
    rw [Option.map_none, List.getLast?_eq_none_iff, List.eq_nil_iff_forall_not_mem]
    intro p hp'
    obtain ⟨k, a, hc, -⟩ := (hmem p).1 hp'
    rw [hp] at hc; cases hc
  | some p =>
    obtain ⟨k, a⟩ := p
    refine getLast_const ?_ ?_
    · intro y hy
      obtain ⟨k', a', hc, rfl⟩ := (hmem y).1 hy
      rw [hp] at hc; cases hc; rfl
    · exact List.ne_nil_of_mem ((hmem _).2 ⟨k, a, hp, rfl⟩)

theorem Nk.kind (h : Nk F t) (n : List Nat) : kindOf (nakedFile F).uses n = kindOf F.uses n := by
  unfold kindOf
  rw [h.prec]
  cases Spec.YText.precOf F.uses n <;> rfl

theorem Nk.order (h : Nk F t) (n m : List Nat) : levelOf (nakedFile F).uses n < levelOf (nakedFile F).uses m ↔ levelOf F.uses n < levelOf F.uses m := by
  unfold levelOf
  rw [h.prec, h.prec]
  cases hn : Spec.YText.precOf F.uses n with
  | none =>
    cases hm : Spec.YText.precOf F.uses m with
    | none => simp
    | some q =>
      obtain ⟨k, a⟩ := q
      have := (precOf_file hm).1
      simp only [Option.map_none, Option.map_some, Option.elim_none, Option.elim_some]
      omega
  | some p =>
    obtain ⟨j, b⟩ := p
    cases hm : Spec.YText.precOf F.uses m with
    | none => 
      have := (precOf_file hn).1
      simp only [Option.map_none, Option.map_some, Option.elim_none, Option.elim_some]
      omega
    | some q =>
      obtain ⟨k, a⟩ := q
      have := idxOf_lt (lvls_sorted F.uses (tokenNames F.uses) (levels F.all)) (h.token_of_prec hn).2 (h.token_of_prec hm).2
      simp only [Option.map_some, Option.elim_some]
      omega

theorem Nk.noPrec (h : Nk F t) (n : List Nat) : levelOf (nakedFile F).uses n = 0 ↔ levelOf F.uses n = 0 := by
  unfold levelOf
  rw [h.prec]
  cases hn : Spec.YText.precOf F.uses n with
  | none => simp
  | some p =>
    obtain ⟨j, b⟩ := p
    have := (precOf_file hn).1
    simp only [Option.map_some, Option.elim_some]
    omega

/-! The file is accepted -/

theorem Nk.goal_eq : (nakedFile F).goal = F.goal := by
  have : startOf (nakedFile F).all = some F.goal := by
    unfold startOf File.all nakedFile
    simp
  unfold File.goal at this ⊢
  rw [this]; rfl

theorem Nk.noStart {d : Decl} (hd : d ∈ tokDecls (tokenNames F.uses) ++ (lvlsOf F.uses (tokenNames F.uses) (levels F.all)).map (lvlDecl F.uses (tokenNames F.uses))) :
    ∃ a, ∃ items : List (List Nat), d = .tokens a none (items.map fun n => (asSym n, none)) ∧ ∀ n ∈ items, n ∈ tokenNames F.uses := by
  rcases List.mem_append.1 hd with hd | hd
  · obtain ⟨n, hn, rfl⟩ := List.mem_map.1 hd
    exact ⟨.TOKEN, [n], rfl, by simpa using (List.mem_filter.1 hn).1⟩
  · obtain ⟨k, hk, rfl⟩ := List.mem_map.1 hd
    exact ⟨_, _, rfl, fun n hn => (List.mem_filter.1 hn).1⟩

theorem Nk.ok' (h : Nk F t) : (nakedFile F).Ok := by
  have hgood := tokens_good h.at_ h.bytes
  refine ⟨?_, ?_⟩
  · intro pre d post e
    have e : tokDecls (tokenNames F.uses) ++ (lvlsOf F.uses (tokenNames F.uses) (levels F.all)).map (lvlDecl F.uses (tokenNames F.uses)) ++ [.start F.goal] = pre ++ d :: post := by
      rw [← e]; simp [File.all, nakedFile]
    have hX := @Nk.noStart F
    generalize tokDecls (tokenNames F.uses) ++ (lvlsOf F.uses (tokenNames F.uses) (levels F.all)).map (lvlDecl F.uses (tokenNames F.uses)) = X at e hX
    rcases List.eq_nil_or_concat post with rfl | ⟨post', s, rfl⟩
    · obtain ⟨rfl, e2⟩ := List.append_inj' e rfl
      cases e2
      change ¬ IsToken (declUses [] X) F.goal
      have hg := h.goal
      rintro (hc | ⟨u, hu, hk, hc⟩)
      · rw [hc] at hg
        exact h.error.1 hg
      · obtain ⟨d, hd, p, hu⟩ := declUses_mem _ _ u hu
        obtain ⟨a, items, rfl, hit⟩ := hX hd
        obtain ⟨y, hy, rfl⟩ := List.mem_map.1 (show u ∈ (items.map fun n => (asSym n, Option.none)).map _ from hu)
        obtain ⟨n, hn, rfl⟩ := List.mem_map.1 hy
        change (asSym n).key = F.goal at hk
        rw [asSym_key] at hk
        subst hk
        have : Terminal F.uses F.goal := by simpa using (List.mem_filter.1 (hit _ hn)).2
        exact this.1 hg
    · rw [List.concat_eq_append] at e
      have e' : X ++ [.start F.goal] = (pre ++ d :: post') ++ [s] := by rw [e]; simp
      obtain ⟨rfl, -⟩ := List.append_inj' e' rfl
      obtain ⟨a, items, rfl, hit⟩ := hX (show d ∈ pre ++ d :: post' by simp)
      change ∀ y ∈ items.map fun n => (asSym n, Option.none), startOf pre ≠ some y.1.key
      intro y hy hc
      unfold startOf at hc
      obtain ⟨d', hd', he⟩ := List.mem_filterMap.1 (List.mem_of_getLast? hc)
      obtain ⟨a', items', rfl, -⟩ := hX (show d' ∈ _ by simp [hd'])
      cases he
  · intro n hl htok
    have hl' := (h.isLhs n).1 hl
    have key : ∀ u ∈ (nakedFile F).uses, u.key = n → ((∃ x a level tag code, u = .token x a level tag code) ∨ ∃ s, u.lit? n = some s) → False := by
      intro u hu hk hc
      rcases hc with ⟨x, a, level, tag, code, rfl⟩ | ⟨s, hs⟩
      · have hT : n ∈ tokenNames F.uses := by
          rw [h.uses] at hu
          rcases List.mem_append.1 hu with hu | hu
          · obtain ⟨m, hm, e⟩ := List.mem_map.1 hu
            cases e
            change (asSym m).key = n at hk
            rw [asSym_key] at hk
            subst hk
            exact (List.mem_filter.1 hm).1
          rcases List.mem_append.1 hu with hu | hu
          · obtain ⟨i, k, -, m, hm, e⟩ := (gUses_mem _ _ _ _ _).1 hu
            cases e
            change (asSym m).key = n at hk
            rw [asSym_key] at hk
            subst hk
            exact (List.mem_filter.1 hm).1
          · exfalso
            rcases List.mem_cons.1 hu with e | hu
            · cases e
            rcases List.mem_cons.1 hu with e | hu
            · cases e
            rcases ruleUses_src _ _ _ _ _ hu with ⟨x, e, -⟩ | ⟨x, e, -⟩ | ⟨⟨_, _, e⟩, -⟩ <;> cases e
        have : Terminal F.uses n := by simpa using (List.mem_filter.1 hT).2
        exact this.1 hl'
      · obtain ⟨a, ha, hk'⟩ := (isLhs_alts F n).1 hl'
        obtain ⟨m, hm⟩ := h.names a ha
        obtain ⟨⟨t', u', hs'⟩, -⟩ := (alts_good h.at_ h.bytes a ha).1
        rw [hm] at hs' hk'
        have hnl : n = litName s := by
          unfold Use.lit? at hs
          split at hs
          all_goals first
            | cases hs; done
            | (split at hs
               · rename_i hkey; cases hs; exact hkey.symm
               · cases hs)
        exact name_notLit hs' s (by rw [← hnl]; exact hk')
    rcases htok with rfl | ⟨u, hu, hk, hc⟩
    · exact h.error.1 hl'
    · exact key u hu hk hc

/-! The same language -/

theorem Nk.sub (h : Nk F t) {β w : List (List Nat)} (hs : Stands F β w) : Stands (nakedFile F) β w := by
  induction hs with
  | nil => exact .nil
  | token n β w ht _ ih => exact .token n β w ((h.terminal n).2 ht.1) ih
  | rule a β w w' ha _ _ ih1 ih2 =>
    refine Stands.rule (F := nakedFile F) (bare a) β w w' ?_ ?_ ih2
    · rw [h.alts]; exact List.mem_map_of_mem ha
    · rw [symsOf_bare]; exact ih1

theorem Nk.sup (h : Nk F t) {β w : List (List Nat)} (hs : Stands (nakedFile F) β w) : (∀ n ∈ β, ¬ Hid n) → Stands F β w := by
  induction hs with
  | nil => intro _; exact .nil
  | token n β w ht _ ih =>
    intro hh
    refine .token n β w ⟨(h.terminal n).1 ht, ?_⟩ (ih fun m hm => hh m (by simp [hm]))
    by_contra hc
    exact hh n (by simp) (hiddenOf_some hc)
  | rule a β w w' ha _ _ ih1 ih2 =>
    intro hh
    rw [h.alts] at ha
    obtain ⟨b, hb, rfl⟩ := List.mem_map.1 ha
    refine .rule b β w w' hb ?_ (ih2 fun m hm => hh m (by simp [hm]))
    have ih1 := ih1
    rw [symsOf_bare] at ih1
    refine ih1 ?_
    intro n hn
    rw [symList_keys] at hn
    obtain ⟨x, hx, rfl⟩ := List.mem_map.1 hn
    exact (file_alts h.at_ b hb).2.2 x (symList_mem hx)

theorem Nk.goalGood (h : Nk F t) : Good (.name F.goal) ∧ ¬ Hid F.goal := by
  obtain ⟨⟨t', u', hg⟩, -⟩ := goal_notToken h.at_ h.ok
  exact ⟨⟨⟨t', u', hg⟩, trivial⟩, fun ⟨k, hk⟩ => name_notHidden hg k hk⟩

theorem Nk.sentence (h : Nk F t) (w : List (List Nat)) : (nakedFile F).Sentence w ↔ F.Sentence w := by
  unfold File.Sentence
  rw [Nk.goal_eq]
  exact ⟨fun hs => h.sup hs (by simpa using h.goalGood.2), h.sub⟩

/-! Together -/

theorem Nk.text (h : Nk F t) : nText F = nTokens (tokenNames F.uses) ++ (List.range' 1 (levels F.all)).flatMap (nLevel F.uses (tokenNames F.uses)) ++ txt "\n%start " ++ F.goal ++ [10] ++
    txt "\n%%\n\n" ++ (nAlts F.uses 3 (txt "$accept") F.alts ++ txt "\t;\n") := by
  unfold nText File.rules
  rw [nRules_alts]
  · simp
  · intro a ha
    obtain ⟨h1, h2, h3⟩ := file_alts h.at_ a ha
    obtain ⟨k1, k2⟩ := file_keys F a ha
    exact ⟨h.notDollar k1 h2, fun x hx => h.notDollar (k2 x (.inl hx)) (h3 x hx)⟩
  · intro j _ hc
    have := congrArg (fun l : List Nat => l.getD 1 0) hc
    revert this
    unfold hiddenKey
    simp [txt]

theorem Nk.reads (h : Nk F t) (file : List Nat) : 0 ∉ nText F ∧ GivenText file (nText F) (nText F) ∧ FileAt (nakedFile F) (nText F) := by
  have hT := tokens_good h.at_ h.bytes
  have hA := alts_good h.at_ h.bytes
  have hg := h.goalGood.1
  rw [h.text]
  obtain ⟨h1, h2⟩ := lined_given (lined_text F hT hg hA) file
  refine ⟨h1, h2, naked_fileAt F hT hg hA h.first ?_⟩
  intro n hn hl
  unfold levelOf kindOf at *
  cases hp : Spec.YText.precOf F.uses n with
  | none => rw [hp] at hl; exact absurd rfl hl
  | some p =>
    obtain ⟨k, a⟩ := p
    have := (precOf_file hp).2.2.1
    simp only [Option.elim_some]
    cases a <;> simp_all

end

end Verif.Byacc.Rd
