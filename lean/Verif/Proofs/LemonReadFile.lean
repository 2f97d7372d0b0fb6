import Verif.Proofs.LemonReadConv
/-
Helper lemmas for C72: files.
-/
set_option autoImplicit false
namespace Verif.Lemon
open Verif.Spec.GFile

theorem step_item (o : Opts) (pre : List Item) (s : RState) (h : Inv o pre s) (hpre : ∀ it ∈ pre, it.Form) (it : Item) (hf : it.Form)
    (ws : List (Nat × Word)) (hl : ∀ w ∈ ws, 0 < w.1) (hws : List.Forall₂ Is it.words ws) : StepOK o pre s it ws := by
  cases it with
  | rule l a rhs line => exact step_rule o pre s h hpre l a rhs line hf ws hws
  | code t line => exact step_code o pre s h t line ws hws
  | mark X => exact step_mark o pre s h X hf ws hws
  | arg k a line => exact step_arg o pre s h k a line hf ws hws
  | prec a Xs => exact step_prec o pre s h a Xs hf ws hws
  | destructor X a line =>
    refine step_destructor o pre s h X a line ?_ hf ws hws
    simp only [Item.words, List.forall₂_cons_left_iff, List.forall₂_nil_left_iff, is_any, is_line] at hws
    obtain ⟨⟨l1, _⟩, _, rfl, ⟨⟨l2, _⟩, _, rfl, ⟨⟨l3, _⟩, _, rfl, ⟨⟨_, _⟩, _, hw, rfl, rfl⟩, rfl⟩, rfl⟩, rfl⟩ := hws
    simp only [Prod.mk.injEq] at hw
    obtain ⟨rfl, rfl⟩ := hw
    exact hl _ (.tail _ (.tail _ (.tail _ (.head _))))
  | type X a line => exact step_type o pre s h X a line hf ws hws
  | fallback Xs => exact step_fallback o pre s h Xs hf ws hws
  | token Xs => exact step_token o pre s h Xs hf ws hws
  | wildcard Xs => exact step_wildcard o pre s h Xs hf ws hws
  | tokenClass c Xs => exact step_class o pre s h c Xs hf ws hws
  | yaccPrec => exact step_yaccPrec o pre s h ws hws

theorem init_inv (o : Opts) : Inv o [] (.init o.yacc) := by
  refine ⟨⟨rfl, ?_, fun _ => rfl, rfl, by simp [RState.init]⟩, .inl rfl, rfl, ?_, by simp [wildcards], rfl⟩
  · have : names o [] = [text "$"] := by simp [names, List.eraseDups_cons]
    rw [this]
    simp only [List.map_cons, List.map_nil]
    have hu : ¬ Upper (text "$") := by decide
    simp [symOf, RState.init, newSym, isClass, hu, fallbackOf, precOf, precs, destructorOf, destructorsOf, typeOf, membersOf, isUpper, text]
    decide
  · intro x p h; simp [destructorOf, destructorsOf] at h

theorem Valid.tail {o : Opts} {pre : List Item} {it : Item} {items : List Item} (h : Valid o (pre ++ it :: items)) : it.Form ∧ it.Allowed o pre := h pre it items rfl

/-- the words of valid items are read -/
theorem items_read (o : Opts) (items pre : List Item) (s : RState) (h : Inv o pre s) (hv : Valid o (pre ++ items)) (ws : List (Nat × Word))
    (hl : ∀ w ∈ ws, 0 < w.1) (hws : IsFile items ws) : Inv o (pre ++ items) (readTokens (ropts o) s ws) := by
  induction items generalizing pre s ws with
  | nil =>
    simp only [IsFile, List.flatMap_nil, List.forall₂_nil_left_iff] at hws
    subst hws
    simpa [readTokens_nil] using h
  | cons it items ih =>
    rw [IsFile, List.flatMap_cons] at hws
    obtain ⟨u, v, rfl, h1, h2⟩ := forall₂_split _ _ _ hws
    rw [readTokens_append]
    have hpre : ∀ i ∈ pre, i.Form := by
      intro i hi
      obtain ⟨a, b, rfl⟩ := List.append_of_mem hi
      exact (hv a i (b ++ it :: items) (by simp)).1
    obtain ⟨hf, ha⟩ := hv pre it items rfl
    have := (step_item o pre s h hpre it hf u (fun w hw => hl w (by simp [hw])) h1).2 ha
    have := ih (pre ++ [it]) _ this (by simpa using hv) v (fun w hw => hl w (by simp [hw])) h2
    simpa using this

/-- words read without error are those of valid items -/
theorem items_of_good (o : Opts) (n : Nat) (ws : List (Nat × Word)) (hn : ws.length ≤ n) (pre : List Item) (s : RState) (h : Inv o pre s) (hpre : Valid o pre)
    (hp : ∀ w ∈ ws, Punct w.2) (hl : ∀ w ∈ ws, 0 < w.1) (hg : GoodRead (ropts o) s ws) : ∃ items, IsFile items ws ∧ Valid o (pre ++ items) := by
  induction n generalizing ws pre s with
  | zero =>
    have : ws = [] := List.length_eq_zero_iff.mp (by omega)
    subst this
    exact ⟨[], .nil, by simpa using hpre⟩
  | succ n ih =>
    cases ws with
    | nil => exact ⟨[], .nil, by simpa using hpre⟩
    | cons w ws =>
      obtain ⟨it, u, v, he, hu, hf, hws⟩ := item_conv _ w ws s h.bt hp hg
      rw [he] at hg hp hl hn
      have hfpre : ∀ i ∈ pre, i.Form := by
        intro i hi
        obtain ⟨a, b, rfl⟩ := List.append_of_mem hi
        exact (hpre a i b rfl).1
      have hs := step_item o pre s h hfpre it hf u (fun w hw => hl w (by simp [hw])) hws
      unfold GoodRead at hg
      rw [readTokens_append] at hg
      have ha := hs.1 (errs_nil_of _ _ _ hg.1)
      have hinv := hs.2 ha
      have hvalid : Valid o (pre ++ [it]) := by
        intro a i b hab
        rcases List.eq_nil_or_concat b with rfl | ⟨b', x, rfl⟩
        · have := List.append_inj' hab rfl
          obtain ⟨rfl, h2⟩ := this
          simp at h2; subst h2
          exact ⟨hf, ha⟩
        · have hab' : pre ++ [it] = (a ++ i :: b') ++ [x] := by rw [hab]; simp
          exact hpre a i b' (List.append_inj' hab' rfl).1
      have hlen : v.length ≤ n := by
        have : u.length ≠ 0 := fun h => hu (List.length_eq_zero_iff.mp h)
        simp at hn; omega
      obtain ⟨items, h1, h2⟩ := ih v hlen (pre ++ [it]) _ hinv hvalid (fun w hw => hp w (by simp [hw])) (fun w hw => hl w (by simp [hw])) hg
      refine ⟨it :: items, ?_, by simpa using h2⟩
      rw [he, IsFile, List.flatMap_cons]
      exact List.rel_append hws h1

theorem reads_punct {l : Nat} {z e : List Nat} {ws : List (Nat × Word)} (h : Verif.Spec.Words.Reads l z ws e) (hl : 0 < l) : ∀ w ∈ ws, Punct w.2 ∧ 0 < w.1 := by
  induction h with
  | nil => simp
  | skip hw h ih => exact ih (by omega)
  | word hw h ih =>
    intro v hv
    rcases List.mem_cons.mp hv with rfl | hv
    · exact ⟨Punct.of_isWord hw, hl⟩
    · exact ih (by omega) v hv

end Verif.Lemon
