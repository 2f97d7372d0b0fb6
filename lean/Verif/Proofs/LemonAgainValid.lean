import Verif.Props.C119
import Verif.Proofs.ToLemonMeaning
/-
Helper lemmas for C119: the file printed by option `-g` is valid.
-/
set_option autoImplicit false
namespace Verif.Lemon
open Verif.Spec.GFile Verif.Spec.Words Verif.Spec.Again
open Verif.Spec.Sql hiding letter
open Verif.Byacc.Rd (ValidFrom validFrom_append valid_of_from validFrom_all lprecOf_none sinceRule_rule)

variable {o : Opts} {items : List Verif.Spec.GFile.Item} {s : RState}

theorem fallback_none (pre : List Verif.Spec.GFile.Item) (X : Word) (h : ∀ F Xs, .fallback (F :: Xs) ∈ pre → X ∉ Xs) : fallbackOf pre X = none := by
  unfold fallbackOf
  rw [List.findSome?_eq_none_iff]
  intro it hi
  cases it with
  | fallback Xs =>
    cases Xs with
    | nil => rfl
    | cons F Xs => exact if_neg (h F Xs hi)
  | _ => rfl

theorem runs_flat (f : Word → Option Word) : ∀ l : List Word, (fallbackRuns f l).flatMap Prod.snd = l.filter fun X => (f X).isSome
  | [] => rfl
  | X :: l => by
    have ih := runs_flat f l
    rw [fallbackRuns]
    cases hX : f X with
    | none => simpa [hX] using ih
    | some F =>
      rw [List.filter_cons_of_pos (by simp [hX]), ← ih]
      cases fallbackRuns f l with
      | nil => rfl
      | cons g gs =>
        obtain ⟨F', Ys⟩ := g
        simp only
        split <;> simp

theorem valid_runs : ∀ (gs : List (Word × List Word)) (pre : List Verif.Spec.GFile.Item), (gs.flatMap Prod.snd).Nodup → (∀ g ∈ gs, Upper g.1 ∧ ∀ X ∈ g.2, Upper X) →
    (∀ F Xs, .fallback (F :: Xs) ∈ pre → ∀ X ∈ Xs, X ∉ gs.flatMap Prod.snd) → ValidFrom o pre (gs.map fun g => .fallback (g.1 :: g.2))
  | [], _, _, _, _ => trivial
  | g :: gs, pre, hn, hu, hp => by
    rw [List.flatMap_cons, List.nodup_append'] at hn
    refine ⟨⟨?_, ?_, ?_⟩, ?_⟩
    · intro X hX
      rcases List.mem_cons.1 hX with rfl | hX
      · exact (hu g (by simp)).1
      · exact (hu g (by simp)).2 X hX
    · exact hn.1
    · intro X hX
      refine fallback_none _ _ fun F Xs hi hm => hp F Xs hi X hm ?_
      rw [List.flatMap_cons]
      exact List.mem_append_left _ hX
    · refine valid_runs gs _ hn.2.1 (fun g' hg => hu g' (by simp [hg])) ?_
      intro F Xs hi X hX hm
      rcases List.mem_append.1 hi with hi | hi
      · exact hp F Xs hi X hX (by rw [List.flatMap_cons]; exact List.mem_append_right _ hm)
      · rw [List.mem_singleton] at hi
        injection hi with hi
        injection hi with h1 h2
        subst h2
        exact hn.2.2 hX hm

theorem level_some {j : Nat} {it : Verif.Spec.GFile.Item} (h : level o items j = some it) :
    ∃ X l p, it = .prec p.2 (X :: l) ∧ precOf o items X = some p ∧ (tokens o items).filter (fun X => (precOf o items X).map Prod.fst = some j) = X :: l := by
  unfold level at h
  split at h
  · cases h
  · next X l hf =>
    obtain ⟨p, hp, rfl⟩ := Option.map_eq_some_iff.1 h
    exact ⟨X, l, p, rfl, hp, hf⟩

theorem valid_again_levels (hv : Valid o items) : ∀ (js : List Nat) (pre : List Verif.Spec.GFile.Item), js.Nodup →
    (∀ a Xs, .prec a Xs ∈ pre → ∀ X ∈ Xs, ∀ j ∈ js, (precOf o items X).map Prod.fst ≠ some j) → ValidFrom o pre (js.filterMap (level o items))
  | [], _, _, _ => trivial
  | j :: js, pre, hn, hp => by
    obtain ⟨hn1, hn2⟩ := List.nodup_cons.1 hn
    rw [List.filterMap_cons]
    cases hl : level o items j with
    | none => exact valid_again_levels hv js pre hn2 fun a Xs hi X hX k hk => hp a Xs hi X hX k (by simp [hk])
    | some it =>
      obtain ⟨X, l, p, rfl, hX, hf⟩ := level_some hl
      have hm : ∀ Y ∈ X :: l, Y ∈ tokens o items ∧ (precOf o items Y).map Prod.fst = some j := by
        intro Y hY
        rw [← hf] at hY
        have := List.mem_filter.1 hY
        exact ⟨this.1, by simpa using this.2⟩
      refine ⟨⟨⟨precOf_declared hv hX, fun Y hY => ((mem_tokens Y).1 (hm Y hY).1).2⟩, fun _ => ⟨?_, ?_⟩⟩, ?_⟩
      · rw [← hf]
        exact ((nodup_names o items).filter _).filter _
      · intro Y hY
        refine lprecOf_none _ _ _ fun a Xs hi hYm => ?_
        exact hp a Xs hi Y hYm j (by simp) (hm Y hY).2
      · refine valid_again_levels hv js _ hn2 ?_
        intro a Xs hi Y hY k hk
        rcases List.mem_append.1 hi with hi | hi
        · exact hp a Xs hi Y hY k (by simp [hk])
        · rw [List.mem_singleton] at hi
          injection hi with h1 h2
          subst h2
          rw [(hm Y hY).2]
          intro e
          cases e
          exact hn1 hk

theorem wildcards_none (pre : List Verif.Spec.GFile.Item) (h : ∀ Xs, .wildcard Xs ∉ pre) : wildcards pre = [] := by
  unfold wildcards
  rw [List.flatMap_eq_nil_iff]
  intro it hi
  cases it with
  | wildcard Xs => exact absurd hi (h Xs)
  | _ => rfl

theorem isClass_more {pre post : List Verif.Spec.GFile.Item} {x : Word} (h : isClass pre x = true) : isClass (pre ++ post) x = true := by
  unfold isClass at *
  rw [List.any_append, h]
  rfl

theorem writtenOut_form (hv : Valid o items) {l : Word} {a : Option Word} {rhs : List Elem} {line : Nat} (hr : .rule l a rhs line ∈ items) {e : Elem} (he : e ∈ rhs)
    (hc : choices items e ≠ []) : Verif.Spec.GFile.Letter (writtenOut items e).name ∧ (∀ X ∈ (writtenOut items e).alts, Upper X) ∧ ((writtenOut items e).alts ≠ [] → Upper (writtenOut items e).name) := by
  obtain ⟨pre, post, e1⟩ := List.append_of_mem hr
  obtain ⟨⟨-, -, hform⟩, -, hallow⟩ := hv pre _ post e1
  obtain ⟨hn, hposts⟩ := hform e he
  have hallow := hallow e he
  cases hch : choices items e with
  | nil => exact absurd hch hc
  | cons x xs =>
    obtain ⟨h1, h2⟩ := writtenOut_alts hch
    rw [h1, h2]
    by_cases hk : isClass items e.name = true
    · rw [choices, if_pos hk] at hch
      have hu : ∀ X ∈ x :: xs, Upper X := fun X hX => ((mem_tokens (o := o) X).1 (members_tokens hv e.name X (by rw [hch]; exact hX))).2
      exact ⟨.inl (hu x (by simp)), fun X hX => hu X (by simp [hX]), fun _ => hu x (by simp)⟩
    · rw [choices, if_neg hk] at hch
      injection hch with h3 h4
      subst h3 h4
      refine ⟨hn, ?_, ?_⟩
      · intro X hX
        obtain ⟨p, hp, hX⟩ := List.mem_filterMap.1 hX
        have := hposts p hp
        cases p with
        | alt sep Y =>
          cases hX
          exact this.2
        | label b => cases hX
      · intro hne
        refine (hallow hne).resolve_right fun h => hk ?_
        rw [e1]
        exact isClass_more h

theorem valid_bare (hv : Valid o items) (hc : ∀ p ∈ parts items, ∀ e ∈ rhsOf p.1, choices items e ≠ []) :
    ∀ (ps : List (Verif.Spec.GFile.Item × List Verif.Spec.GFile.Item)) (pre : List Verif.Spec.GFile.Item), (∀ p ∈ ps, p ∈ parts items) → ValidFrom o pre (ps.flatMap (bare o items))
  | [], _, _ => trivial
  | p :: ps, pre, hp => by
    rw [List.flatMap_cons, validFrom_append]
    refine ⟨?_, valid_bare hv hc ps _ fun q hq => hp q (by simp [hq])⟩
    have hm := hp p (by simp)
    have hr := parts_isRule _ _ hm
    have hsub := parts_sub _ _ hm
    have hmem := parts_mem hm
    have hcp := hc p hm
    obtain ⟨it, rest⟩ := p
    cases it <;> simp [Item.isRule] at hr
    next l a rhs line =>
    simp only [rhsOf] at hcp hmem
    obtain ⟨pre', post', e1⟩ := List.append_of_mem hmem
    obtain ⟨⟨hlow, -, -⟩, hlen, -⟩ := hv pre' _ post' e1
    refine ⟨⟨⟨hlow, by simp, ?_⟩, ?_, ?_⟩, ?_⟩
    · intro e' he'
      obtain ⟨e, he, rfl⟩ := List.mem_map.1 he'
      obtain ⟨h1, h2, -⟩ := writtenOut_form hv hmem he (hcp e he)
      refine ⟨h1, ?_⟩
      intro q hq
      obtain ⟨X, hX, rfl⟩ := List.mem_map.1 (show q ∈ (choices items e).tail.map fun X => Post.alt 124 X from hq)
      refine ⟨.inl rfl, h2 X ?_⟩
      exact List.mem_filterMap.2 ⟨_, hq, rfl⟩
    · simpa [rhsOf] using hlen
    · intro e' he' hne
      obtain ⟨e, he, rfl⟩ := List.mem_map.1 he'
      exact .inl ((writtenOut_form hv hmem he (hcp e he)).2.2 hne)
    · cases hx : (if o.ignorePrec then none else rest.findSome? Item.markOf) with
      | none => trivial
      | some x =>
        refine ⟨⟨?_, ⟨_, List.mem_append_right _ (List.mem_singleton.2 rfl), rfl⟩, fun _ => ?_⟩, trivial⟩
        · split at hx
          · cases hx
          · obtain ⟨it, hit, hx⟩ := List.exists_of_findSome?_eq_some hx
            have := valid_form hv it (hsub it hit)
            cases it <;> simp [Item.markOf] at hx
            subst hx
            exact this
        · rw [sinceRule_rule _ _ rfl]
          rfl

theorem again_valid (hv : Valid o items) {S : Word} (hS : items.findSome? Item.lhsOf = some S) (hc : ∀ p ∈ parts items, ∀ e ∈ rhsOf p.1, choices items e ≠ []) : Valid o (again o items S) := by
  refine valid_of_from ?_
  unfold again
  rw [validFrom_append, validFrom_append, validFrom_append, validFrom_append, validFrom_append]
  refine ⟨⟨⟨⟨⟨?_, ?_⟩, ?_⟩, ?_⟩, ?_⟩, ?_⟩
  · split
    · trivial
    · exact ⟨⟨fun X hX => ((mem_tokens X).1 hX).2, trivial⟩, trivial⟩
  · refine valid_runs _ _ ?_ ?_ ?_
    · rw [runs_flat]
      exact ((nodup_names o items).filter _).filter _
    · intro g hg
      obtain ⟨h1, h2⟩ := runs_tokens _ _ g hg
      obtain ⟨Y, hY⟩ := List.exists_mem_of_ne_nil _ h2
      exact ⟨((mem_tokens (o := o) _).1 (fallback_tokens hv (h1 Y hY).2).2).2, fun X hX => ((mem_tokens X).1 (h1 X hX).1).2⟩
    · intro F Xs hi
      simp only [List.nil_append] at hi
      split at hi <;> simp at hi
  · refine valid_again_levels hv _ _ List.nodup_range ?_
    intro a Xs hi
    simp only [List.nil_append, List.mem_append, List.mem_map] at hi
    rcases hi with hi | hi
    · split at hi <;> simp at hi
    · simp at hi
  · cases hw : (wildcards items).head? with
    | none => trivial
    | some W =>
      refine ⟨⟨?_, ?_⟩, trivial⟩
      · intro X hX
        rw [List.mem_singleton.1 hX]
        exact ((mem_tokens (o := o) _).1 (wildcards_token hv W (List.mem_of_head? hw))).2
      · have : ∀ l : List Verif.Spec.GFile.Item, (∀ Xs, .wildcard Xs ∉ l) → (wildcards l).length + [W].length ≤ 1 := by
          intro l hl
          rw [wildcards_none l hl]
          simp
        refine this _ ?_
        intro Xs hi
        simp only [List.nil_append, List.mem_append, List.mem_map, List.mem_filterMap] at hi
        rcases hi with (hi | hi) | ⟨j, -, hi⟩
        · split at hi <;> simp at hi
        · simp at hi
        · obtain ⟨X, l, p, h, -⟩ := level_some hi
          cases h
  · refine ⟨⟨⟨by decide, ?_⟩, trivial⟩, trivial⟩
    obtain ⟨it, hi, hx⟩ := List.exists_of_findSome?_eq_some hS
    have := valid_form hv it hi
    cases it <;> simp [Item.lhsOf] at hx
    subst hx
    exact .inl (.inr this.1)
  · exact valid_bare hv hc _ _ fun p hp => hp

/-! Numbers of lines -/

theorem is_unnumbered : ∀ (P : List (Option Nat × Word)) (ws : List (Nat × Word)), (∀ p ∈ P, p.1 = none) → ws.map Prod.snd = P.map Prod.snd → List.Forall₂ Is P ws
  | [], ws, _, h => by rw [List.map_nil, List.map_eq_nil_iff] at h; rw [h]; exact .nil
  | p :: P, [], _, h => by simp at h
  | p :: P, w :: ws, hp, h => by
    rw [List.map_cons, List.map_cons] at h
    injection h with h1 h2
    refine .cons ⟨h1, ?_⟩ (is_unnumbered P ws (fun q hq => hp q (by simp [hq])) h2)
    intro l hl
    rw [hp p (by simp)] at hl
    cases hl

theorem is_last (P : List (Option Nat × Word)) (x : Word) (ws : List (Nat × Word)) (hp : ∀ p ∈ P, p.1 = none) {line : Nat} (h : ws.map Prod.snd = (P ++ [(some line, x)]).map Prod.snd) :
    ∃ n, List.Forall₂ Is (P ++ [(some n, x)]) ws := by
  rw [List.map_append] at h
  obtain ⟨ws1, ws2, rfl, h1, h2⟩ := List.map_eq_append_iff.1 h
  obtain ⟨w, ws3, rfl, h3, h4⟩ := List.map_eq_cons_iff.1 h2
  rw [List.map_nil, List.map_eq_nil_iff] at h4
  subst h4
  refine ⟨w.1, List.rel_append (is_unnumbered P ws1 hp h1) (.cons ⟨h3, ?_⟩ .nil)⟩
  intro l hl
  injection hl

theorem elem_any (e : Elem) : ∀ p ∈ e.words, p.1 = none := by
  intro p hp
  rw [Elem.words, List.mem_cons, List.mem_flatMap] at hp
  rcases hp with rfl | ⟨q, -, hp⟩
  · rfl
  · cases q <;> simp [Post.words, any] at hp
    · rw [hp]
    · rcases hp with rfl | rfl | rfl <;> rfl

theorem item_lines (it : Verif.Spec.GFile.Item) (ws : List (Nat × Word)) (h : ws.map Prod.snd = it.words.map Prod.snd) : ∃ it', List.Forall₂ Is it'.words ws ∧ unlined it' = unlined it := by
  have ha : ∀ it : Verif.Spec.GFile.Item, (∀ p ∈ it.words, p.1 = none) → ws.map Prod.snd = it.words.map Prod.snd → ∃ it', List.Forall₂ Is it'.words ws ∧ unlined it' = unlined it :=
    fun it hn h => ⟨it, is_unnumbered _ _ hn h, rfl⟩
  cases it with
  | rule l a rhs line =>
    obtain ⟨n, hn⟩ := is_last _ (text ".") ws (by
      intro p hp
      rw [List.mem_append] at hp
      rcases hp with hp | hp
      · cases a <;> simp [any] at hp
        · rcases hp with rfl | rfl <;> rfl
        · rcases hp with rfl | rfl | rfl | rfl | rfl <;> rfl
      · obtain ⟨e, -, hp⟩ := List.mem_flatMap.1 hp
        exact elem_any e p hp) h
    exact ⟨.rule l a rhs n, hn, rfl⟩
  | code t line =>
    obtain ⟨n, hn⟩ := is_last [] _ ws (by simp) h
    exact ⟨.code t n, hn, rfl⟩
  | arg k a line =>
    obtain ⟨n, hn⟩ := is_last [any (text "%"), any (text k)] _ ws (by simp [any]) h
    exact ⟨.arg k a n, hn, rfl⟩
  | destructor X a line =>
    obtain ⟨n, hn⟩ := is_last [any (text "%"), any (text "destructor"), any X] _ ws (by simp [any]) h
    exact ⟨.destructor X a n, hn, rfl⟩
  | type X a line =>
    obtain ⟨n, hn⟩ := is_last [any (text "%"), any (text "type"), any X] _ ws (by simp [any]) h
    exact ⟨.type X a n, hn, rfl⟩
  | mark X => exact ha _ (by simp [Item.words, any]) h
  | yaccPrec => exact ha _ (by simp [Item.words, any]) h
  | prec a Xs => exact ha _ (by intro p hp; simp [Item.words, any] at hp; rcases hp with rfl | rfl | ⟨X, -, rfl⟩ | rfl <;> rfl) h
  | fallback Xs => exact ha _ (by intro p hp; simp [Item.words, any] at hp; rcases hp with rfl | rfl | ⟨X, -, rfl⟩ | rfl <;> rfl) h
  | token Xs => exact ha _ (by intro p hp; simp [Item.words, any] at hp; rcases hp with rfl | rfl | ⟨X, -, rfl⟩ | rfl <;> rfl) h
  | wildcard Xs => exact ha _ (by intro p hp; simp [Item.words, any] at hp; rcases hp with rfl | rfl | ⟨X, -, rfl⟩ | rfl <;> rfl) h
  | tokenClass c Xs =>
    refine ha _ ?_ h
    intro p hp
    simp only [Item.words, any, List.mem_append, List.mem_map, List.mem_cons, List.not_mem_nil, or_false] at hp
    rcases hp with ((rfl | rfl | rfl) | ⟨X, -, rfl⟩) | rfl <;> rfl

theorem file_lines : ∀ (l : List Verif.Spec.GFile.Item) (ws : List (Nat × Word)), ws.map Prod.snd = fileWords l → ∃ l', IsFile l' ws ∧ l'.map unlined = l.map unlined
  | [], ws, h => by
    rw [show fileWords [] = [] from rfl, List.map_eq_nil_iff] at h
    subst h
    exact ⟨[], .nil, rfl⟩
  | it :: l, ws, h => by
    rw [fileWords, List.flatMap_cons, List.map_append] at h
    obtain ⟨ws1, ws2, rfl, h1, h2⟩ := List.map_eq_append_iff.1 h
    obtain ⟨it', h3, h4⟩ := item_lines it ws1 h1
    obtain ⟨l', h5, h6⟩ := file_lines l ws2 h2
    refine ⟨it' :: l', ?_, by rw [List.map_cons, List.map_cons, h4, h6]⟩
    rw [IsFile, List.flatMap_cons]
    exact List.rel_append h3 h5

theorem unlined_mentions (it : Verif.Spec.GFile.Item) : mentions o (unlined it) = mentions o it := by cases it <;> rfl
theorem unlined_isRule (it : Verif.Spec.GFile.Item) : (unlined it).isRule = it.isRule := by cases it <;> rfl

theorem unlined_names (l : List Verif.Spec.GFile.Item) : names o (l.map unlined) = names o l := by
  rw [names, names, List.flatMap_map]
  simp only [unlined_mentions]

theorem unlined_isClass (l : List Verif.Spec.GFile.Item) (x : Word) : isClass (l.map unlined) x = isClass l x := by
  unfold isClass
  rw [List.any_map]
  congr 1
  funext it
  cases it <;> rfl

theorem unlined_precs (l : List Verif.Spec.GFile.Item) : precs (l.map unlined) = precs l := by
  unfold precs
  rw [List.filterMap_map]
  congr 1
  funext it
  cases it <;> rfl

theorem unlined_precOf (l : List Verif.Spec.GFile.Item) (x : Word) : precOf o (l.map unlined) x = precOf o l x := by
  unfold precOf
  rw [unlined_precs]

theorem unlined_fallback (l : List Verif.Spec.GFile.Item) (x : Word) : fallbackOf (l.map unlined) x = fallbackOf l x := by
  unfold fallbackOf
  rw [List.findSome?_map]
  congr 1
  funext it
  cases it <;> rfl

theorem unlined_type (l : List Verif.Spec.GFile.Item) (x : Word) : typeOf (l.map unlined) x = typeOf l x := by
  unfold typeOf
  rw [List.findSome?_map]
  congr 1
  funext it
  cases it <;> rfl

theorem unlined_wildcards (l : List Verif.Spec.GFile.Item) : wildcards (l.map unlined) = wildcards l := by
  unfold wildcards
  rw [List.flatMap_map]
  congr 1
  funext it
  cases it <;> rfl

theorem unlined_since (l : List Verif.Spec.GFile.Item) : sinceRule (l.map unlined) = (sinceRule l).map unlined := by
  unfold sinceRule
  rw [← List.map_reverse, List.takeWhile_map, List.map_reverse]
  congr 3
  funext it
  simp [unlined_isRule]

theorem unlined_mark (l : List Verif.Spec.GFile.Item) : (l.map unlined).findSome? Item.markOf = l.findSome? Item.markOf := by
  rw [List.findSome?_map]
  congr 1
  funext it
  cases it <;> rfl

theorem unlined_code (l : List Verif.Spec.GFile.Item) : (l.map unlined).findSome? Item.codeOf = none ↔ l.findSome? Item.codeOf = none := by
  rw [List.findSome?_eq_none_iff, List.findSome?_eq_none_iff]
  simp only [List.mem_map, forall_exists_index, and_imp, forall_apply_eq_imp_iff₂]
  refine forall₂_congr fun it _ => ?_
  cases it <;> simp [unlined, Item.codeOf]

theorem unlined_ex (l : List Verif.Spec.GFile.Item) : (∃ i ∈ l.map unlined, i.isRule = true) ↔ ∃ i ∈ l, i.isRule = true := by
  simp [unlined_isRule]

theorem unlined_allowed (pre : List Verif.Spec.GFile.Item) (it : Verif.Spec.GFile.Item) : (unlined it).Allowed o (pre.map unlined) ↔ it.Allowed o pre := by
  cases it <;> simp only [unlined, Item.Allowed, unlined_isClass, unlined_since, unlined_mark, unlined_code, unlined_ex, unlined_precOf, unlined_type, unlined_fallback, unlined_wildcards, unlined_names]

theorem unlined_form (it : Verif.Spec.GFile.Item) : (unlined it).Form ↔ it.Form := by cases it <;> rfl

theorem unlined_valid (l : List Verif.Spec.GFile.Item) : Valid o (l.map unlined) ↔ Valid o l := by
  constructor
  · rintro h pre it post rfl
    have := h (pre.map unlined) (unlined it) (post.map unlined) (by simp)
    exact ⟨(unlined_form it).1 this.1, (unlined_allowed pre it).1 this.2⟩
  · intro h pre it post e
    obtain ⟨pre', l2, rfl, rfl, e2⟩ := List.map_eq_append_iff.1 e
    obtain ⟨it', post', rfl, rfl, rfl⟩ := List.map_eq_cons_iff.1 e2
    have := h pre' it' post' rfl
    exact ⟨(unlined_form it').2 this.1, (unlined_allowed pre' it').2 this.2⟩

theorem valid_lines {l l' : List Verif.Spec.GFile.Item} (h : l'.map unlined = l.map unlined) (hv : Valid o l) : Valid o l' := by
  rw [← unlined_valid, h, unlined_valid]
  exact hv

theorem stands_lines {l l' : List Verif.Spec.GFile.Item} (h : l'.map unlined = l.map unlined) {es : List Elem} {w : List Word} (hs : Stands l es w) : Stands l' es w := by
  induction hs with
  | nil => exact .nil
  | token he hX _ ih => exact .token he hX ih
  | cls he hX _ ih =>
    next e es X w _ =>
    have h1 : isClass l' e.name = isClass l e.name := by rw [← unlined_isClass, h, unlined_isClass]
    refine .cls (by rwa [h1]) ?_ ih
    have h2 : ∀ l : List Verif.Spec.GFile.Item, membersOf (l.map unlined) e.name = membersOf l e.name := by
      intro l
      unfold membersOf
      rw [unlined_isClass, List.flatMap_map]
      congr 2
      funext it
      cases it <;> rfl
    rwa [← h2, h, h2]
  | rule hr _ _ ih1 ih2 =>
    next e es rhs a line v w _ _ =>
    have hm : unlined (.rule e.name a rhs line) ∈ l'.map unlined := by
      rw [h]
      exact List.mem_map_of_mem hr
    obtain ⟨it, hi, e1⟩ := List.mem_map.1 hm
    cases it <;> simp [unlined] at e1
    next l a' rhs' line' =>
    obtain ⟨rfl, rfl, rfl⟩ := e1
    exact .rule hi ih1 ih2

end Verif.Lemon
