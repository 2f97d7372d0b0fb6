import Verif.Proofs.ByaccMeaningGram
import Verif.Spec.ByaccGrammar
import Verif.Props.C21
import Verif.Props.C78
/-
Auxiliary facts: the grammar the reader makes of a file.
-/
set_option autoImplicit false
namespace Verif.Byacc.Rd
open Spec.YText
open Spec (Elem)
open Classical

/-! The start symbol -/

theorem startOf_notToken (ds : List Decl) (hok : ∀ pre d post, ds = pre ++ d :: post → DeclOk pre d) (hn : ∀ d ∈ ds, Decl.named d) (n : List Nat)
    (h : startOf ds = some n) : (∃ t u, SymAt (.name n) t u) ∧ ¬ IsToken (declUses [] ds) n := by
  induction ds using List.reverseRecOn generalizing n with
  | nil => cases h
  | append_singleton ds d ih =>
    have hok' : ∀ pre d' post, ds = pre ++ d' :: post → DeclOk pre d' := fun pre d' post e => hok pre d' (post ++ [d]) (by rw [e]; simp)
    have hd := hok ds d [] rfl
    have hnd := hn d (by simp)
    have hn' : ∀ d ∈ ds, Decl.named d := fun d hd => hn d (by simp [hd])
    have hsame : (∀ m, d ≠ .start m) → startOf ds = some n := by
      intro hne
      unfold startOf at h ⊢
      rw [getLast_filterMap_snoc] at h
      cases d with
      | start m => exact absurd rfl (hne m)
      | _ => simpa using h
    rw [declUses_snoc]
    have other : (∀ u ∈ d.uses ds, ¬ Use.tok u n) → (∃ t u, SymAt (.name n) t u) ∧ ¬ IsToken (declUses [] ds) n →
        (∃ t u, SymAt (.name n) t u) ∧ ¬ IsToken (declUses [] ds ++ d.uses ds) n := by
      rintro h1 ⟨h2, h3⟩
      refine ⟨h2, ?_⟩
      rintro (h4 | ⟨u, h4, h5, h6⟩)
      · exact h3 (.inl h4)
      · rcases List.mem_append.1 h4 with h4 | h4
        · exact h3 (.inr ⟨u, h4, h5, h6⟩)
        · exact h1 u h4 ⟨h5, h6⟩
    cases d with
    | tokens a tag items =>
      have h0 := hsame (by intro m; simp)
      refine other ?_ (ih hok' hn' n h0)
      intro u hu ht
      simp only [Decl.uses, List.mem_map] at hu
      obtain ⟨y, hy, rfl⟩ := hu
      exact hd y hy (by rw [h0]; exact congrArg some ht.1.symm)
    | types tag xs =>
      have h0 := hsame (by intro m; simp)
      have hi := ih hok' hn' n h0
      refine other ?_ hi
      intro u hu ht
      simp only [Decl.uses, List.mem_map] at hu
      obtain ⟨y, hy, rfl⟩ := hu
      rcases ht.2 with ⟨x, a, level, tag, code, e⟩ | ⟨s, e⟩
      · cases e
      · obtain ⟨⟨t, u, hx⟩, -⟩ := hi
        exact name_notLit hx s (lit_key _ _ _ e).1
    | start m =>
      have hm : m = n := by
        unfold startOf at h
        rw [getLast_filterMap_snoc] at h
        simpa using h
      subst hm
      refine other ?_ ⟨hnd, hd⟩
      intro u hu ht
      simp only [Decl.uses, List.mem_singleton] at hu
      subst hu
      rcases ht.2 with ⟨x, a, level, tag, code, e⟩ | ⟨s, e⟩
      · cases e
      · cases e
    | _ =>
      have h0 := hsame (by intro m; simp)
      refine other ?_ (ih hok' hn' n h0)
      intro u hu
      cases hu

/-! The numbers of the symbols -/

theorem indices_at (g gi : Nat) (T : List Nat → Prop) (v : List Nat → Int) (gn : List Nat) (ks : List (List Nat)) : ∀ (pos i k : Nat), ks.Nodup →
    (∀ j n, ks[j]? = some n → (pos + j = g ↔ n = gn)) → ∀ n ∈ ks,
    (indices g gi (ks.map fun n => ⟨decide (T n), v n⟩) pos i k)[ks.idxOf n]? =
      some (if T n then i + (ks.filter fun n => decide (T n)).idxOf n else if n = gn then gi
        else k + (ks.filter fun n => decide (¬ T n ∧ n ≠ gn)).idxOf n) := by
  induction ks with
  | nil => intro _ _ _ _ _ n hn; cases hn
  | cons m ks ih =>
    intro pos i k hnd hg n hn
    have hm := hg 0 m rfl
    rw [List.nodup_cons] at hnd
    have hg' : ∀ j n, ks[j]? = some n → (pos + 1 + j = g ↔ n = gn) := by
      intro j n hj
      have := hg (j + 1) n (by simpa using hj)
      rw [← this]
      constructor <;> intro h <;> omega
    rw [List.map_cons, indices]
    by_cases hmn : n = m
    · subst hmn
      rw [List.idxOf_cons_self]
      by_cases ht : T n
      · rw [if_pos (by simpa using ht), if_pos ht, List.filter_cons_of_pos (by simpa using ht), List.idxOf_cons_self]; rfl
      · rw [if_neg (by simpa using ht), if_neg ht]
        by_cases hgn : n = gn
        · rw [if_pos (by simpa using hm.2 hgn), if_pos hgn]; rfl
        · rw [if_neg (fun h => hgn (hm.1 (by simpa using h))), if_neg hgn, List.filter_cons_of_pos (by simp [ht, hgn]), List.idxOf_cons_self]; rfl
    · have hn' : n ∈ ks := by simpa [hmn] using hn
      rw [List.idxOf_cons_ne _ (Ne.symm hmn)]
      by_cases ht : T m
      · rw [if_pos (by simpa using ht), List.getElem?_cons_succ, ih (pos + 1) (i + 1) k hnd.2 hg' n hn',
          List.filter_cons_of_pos (by simpa using ht), List.filter_cons_of_neg (by simp [ht]), List.idxOf_cons_ne _ (Ne.symm hmn)]
        split
        · congr 1; omega
        · rfl
      · rw [if_neg (by simpa using ht)]
        by_cases hgm : m = gn
        · rw [if_pos (by simpa using hm.2 hgm), List.getElem?_cons_succ, ih (pos + 1) i k hnd.2 hg' n hn',
            List.filter_cons_of_neg (by simpa using ht), List.filter_cons_of_neg (by simp [hgm])]
        · rw [if_neg (fun h => hgm (hm.1 (by simpa using h))), List.getElem?_cons_succ, ih (pos + 1) i (k + 1) hnd.2 hg' n hn',
            List.filter_cons_of_neg (by simpa using ht), List.filter_cons_of_pos (by simp [ht, hgm]), List.idxOf_cons_ne _ (Ne.symm hmn)]
          split
          · rfl
          · split
            · rfl
            · congr 1; omega

/-- the symbols as numbered -/
noncomputable def psyms (us : List Use) : List PSym := (names us).map fun n => ⟨decide (Terminal us n), (codeGiven us n).elim UNDEFINED fun c => (c : Int)⟩

theorem filter_psyms (us : List Use) : (psyms us).filter (·.isTerm) =
    (tokenNames us).map fun n => ⟨true, (codeGiven us n).elim UNDEFINED fun c => (c : Int)⟩ := by
  unfold psyms tokenNames
  rw [List.filter_map]
  refine List.map_congr_left ?_
  intro n hn
  have : Terminal us n := by simpa using (List.mem_filter.1 hn).2
  simp [this]

theorem idxOf_getElem (ks : List (List Nat)) (hn : ks.Nodup) (j : Nat) (n : List Nat) (h : ks[j]? = some n) : ks.idxOf n = j := by
  obtain ⟨hj, rfl⟩ := List.getElem?_eq_some_iff.1 h
  exact List.Nodup.idxOf_getElem hn j hj

theorem index_number (us : List Use) (goal n : List Nat) (hg : goal ∈ names us) (hn : n ∈ names us) :
    (packSymbols (psyms us) ((names us).idxOf goal)).index[(names us).idxOf n]? = some (symNumber us goal n) := by
  have hnt : ((psyms us).filter (·.isTerm)).length = (tokenNames us).length := by rw [filter_psyms, List.length_map]
  have := indices_at ((names us).idxOf goal) ((tokenNames us).length + 1 + 1) (Terminal us) (fun n => (codeGiven us n).elim UNDEFINED fun c => (c : Int)) goal
    (names us) 0 1 ((tokenNames us).length + 1 + 2) (names_nodup us) (by
      intro j m hj
      rw [Nat.zero_add]
      constructor
      · intro h
        have e := idxOf_getElem _ (names_nodup us) j m hj
        exact idxOf_inj' (List.mem_of_getElem? hj) (by rw [e, h])
      · rintro rfl
        exact (idxOf_getElem _ (names_nodup us) j m hj).symm) n hn
  unfold packSymbols
  simp only [hnt]
  unfold psyms
  rw [this]
  unfold symNumber tokenNames otherNames
  congr 1
  split
  · omega
  · split
    · rfl
    · rfl

/-- the code of a token -/
noncomputable def codeAt (us : List Use) (goal n : List Nat) : Int :=
  (packSymbols (psyms us) ((names us).idxOf goal)).value.getD (symNumber us goal n) 0

theorem tokenNames_nodup (us : List Use) : (tokenNames us).Nodup := (names_nodup us).filter _

theorem codeAt_code (us : List Use) (goal n : List Nat) (hn : n ∈ tokenNames us) :
    codeAt us goal n = codeOf (psyms us) ((names us).idxOf goal) ((tokenNames us).idxOf n + 1) := by
  have ht : Terminal us n := by simpa using (List.mem_filter.1 hn).2
  unfold codeAt codeOf symNumber
  rw [if_pos ht]

theorem error_first (us : List Use) (ht : Terminal us (txt "error")) : (tokenNames us)[0]? = some (txt "error") := by
  unfold tokenNames names
  rw [firsts, List.filter_cons_of_pos (by simpa using ht)]
  rfl

theorem codes_of (us : List Use) (goal : List Nat) (ht : Terminal us (txt "error")) : CodesOf us (codeAt us goal) := by
  obtain ⟨c0, ck, ce, ca⟩ := C21_codes (psyms us) ((names us).idxOf goal) _ (filter_psyms us).symm
  have hget : ∀ n ∈ tokenNames us, ((tokenNames us).map fun n => (⟨true, (codeGiven us n).elim UNDEFINED fun c => (c : Int)⟩ : PSym))[(tokenNames us).idxOf n]? =
      some ⟨true, (codeGiven us n).elim UNDEFINED fun c => (c : Int)⟩ := by
    intro n hn
    have h1 := List.idxOf_lt_length_iff.2 hn
    rw [List.getElem?_map, List.getElem?_eq_getElem h1, List.getElem_idxOf h1]; rfl
  have hund : ∀ n, codeGiven us n ≠ none ↔ ((codeGiven us n).elim UNDEFINED fun c => (c : Int)) ≠ UNDEFINED := by
    intro n
    cases codeGiven us n with
    | none => simp
    | some c => simp [UNDEFINED]
  have h0 := error_first us ht
  have hm0 : txt "error" ∈ tokenNames us := List.mem_of_getElem? h0
  have hi0 : (tokenNames us).idxOf (txt "error") = 0 := idxOf_getElem _ (tokenNames_nodup us) 0 _ h0
  constructor
  · intro n hn c hc
    rw [codeAt_code us goal n hn, ck _ _ (hget n hn) ((hund n).1 (by simp [hc])), hc]; rfl
  · intro hc
    rw [codeAt_code us goal _ hm0, hi0]
    have := hget _ hm0
    rw [hi0] at this
    exact ce _ this (by rw [hc]; rfl)
  · intro n hn hc hne
    have hi : 0 < (tokenNames us).idxOf n := by
      rcases Nat.eq_zero_or_pos ((tokenNames us).idxOf n) with h | h
      · exact absurd (idxOf_inj' hn (by rw [h, hi0])) hne
      · exact h
    obtain ⟨a1, a2, a3⟩ := ca _ _ hi (hget n hn) (by simp only [hc]; rfl)
    rw [codeAt_code us goal n hn]
    refine ⟨a1, ?_, ?_⟩
    · intro m hm hd
      rw [codeAt_code us goal m hm]
      exact a2 _ _ (hget m hm) (hd.imp_left (hund m).1)
    · intro y h1 h2
      obtain ⟨j, t', b1, b2, b3⟩ := a3 y h1 h2
      rw [List.getElem?_map, Option.map_eq_some_iff] at b1
      obtain ⟨m, hm, rfl⟩ := b1
      have hmm := List.mem_of_getElem? hm
      have hj := idxOf_getElem _ (tokenNames_nodup us) j m hm
      refine ⟨m, hmm, b2.imp (hund m).2 (fun h => by rw [hj]; exact h), ?_⟩
      rw [codeAt_code us goal m hmm, hj, b3]

end Verif.Byacc.Rd
