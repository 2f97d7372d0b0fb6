import Verif.Spec.ByaccLang
import Verif.Proofs.ByaccMeans
import Verif.Proofs.Grammar
import Verif.Proofs.SoundCtx
import Mathlib.Data.List.Forall2
import Verif.Props.C02
import Verif.Props.C21
/-
Auxiliary facts: the grammar byacc works with generates the language of the file.
-/
set_option autoImplicit false
namespace Verif.Byacc.Rd
open Spec Spec.YText
open Classical

/-- the name of a symbol made for an action -/
def Hid (n : List Nat) : Prop := ∃ k, n = hiddenKey k

/-- the others -/
noncomputable def vis (l : List (List Nat)) : List (List Nat) := l.filter fun n => decide (¬ Hid n)

theorem innerActions_cons (e : El) (r : List El) : innerActions (e :: r) =
    match e with | .action _ _ => if precOnly r then 0 else innerActions r + 1 | _ => innerActions r := by
  have hr : precOnly r = true → actionsIn r = 0 := by
    intro h
    unfold actionsIn
    rw [List.length_eq_zero_iff, List.filter_eq_nil_iff]
    intro x hx
    unfold precOnly at h
    have := List.all_eq_true.1 h x hx
    cases x <;> simp_all
  cases e with
  | sym x =>
    simp only
    by_cases hn : elFilter r = []
    · have h0 := hr ((precOnly_filter r).2 hn)
      have e1 : elFilter (.sym x :: r) = .sym x :: elFilter r := rfl
      have e2 : actionsIn (.sym x :: r) = actionsIn r := rfl
      unfold innerActions
      rw [e1, hn, e2, h0]; rfl
    · obtain ⟨l, y, hl⟩ : ∃ l y, elFilter r = l ++ [y] := ⟨_, _, (List.dropLast_append_getLast hn).symm⟩
      have e1 : elFilter (.sym x :: r) = .sym x :: elFilter r := rfl
      have e2 : actionsIn (.sym x :: r) = actionsIn r := rfl
      unfold innerActions
      rw [e1, hl, e2, ← List.cons_append, List.reverse_append, List.reverse_append]
      cases y <;> rfl
  | prec x => rfl
  | action b ps =>
    simp only
    have e1 : elFilter (.action b ps :: r) = .action b ps :: elFilter r := rfl
    have e2 : actionsIn (.action b ps :: r) = actionsIn r + 1 := rfl
    by_cases hn : elFilter r = []
    · have hp := (precOnly_filter r).2 hn
      have h0 := hr hp
      rw [if_pos hp]
      unfold innerActions
      rw [e1, hn, e2, h0]; rfl
    · rw [if_neg (fun h => hn ((precOnly_filter r).1 h))]
      obtain ⟨l, y, hl⟩ : ∃ l y, elFilter r = l ++ [y] := ⟨_, _, (List.dropLast_append_getLast hn).symm⟩
      unfold innerActions
      rw [e1, hl, e2, ← List.cons_append, List.reverse_append, List.reverse_append]
      cases y with
      | sym _ => rfl
      | prec _ => rfl
      | action b' ps' =>
        change actionsIn r + 1 - 1 = actionsIn r - 1 + 1
        have : 0 < actionsIn r := by
          rw [← actionsIn_filter, hl, actionsIn_snoc]; simp
        omega

theorem rhsKeys_vis (els : List El) (h : ∀ x, El.sym x ∈ els → ¬ Hid x.key) : ∀ k, vis (rhsKeys k els) = YText.symsOf els ∧
    ∀ n ∈ rhsKeys k els, (∃ x, El.sym x ∈ els ∧ n = x.key) ∨ ∃ i < innerActions els, n = hiddenKey (k + i + 1) := by
  induction els with
  | nil => intro k; exact ⟨rfl, by simp [rhsKeys]⟩
  | cons e r ih =>
    have ih := ih (fun x hx => h x (by simp [hx]))
    intro k
    rw [innerActions_cons]
    cases e with
    | sym x =>
      obtain ⟨h1, h2⟩ := ih k
      refine ⟨?_, ?_⟩
      · change vis (x.key :: rhsKeys k r) = x.key :: YText.symsOf r
        unfold vis at h1 ⊢
        rw [List.filter_cons_of_pos (by simpa using h x (by simp)), h1]
      · intro n hn
        rcases List.mem_cons.1 hn with rfl | hn
        · exact .inl ⟨x, by simp, rfl⟩
        · rcases h2 n hn with ⟨y, hy, rfl⟩ | ⟨i, hi, rfl⟩
          · exact .inl ⟨y, by simp [hy], rfl⟩
          · exact .inr ⟨i, hi, rfl⟩
    | prec x =>
      obtain ⟨h1, h2⟩ := ih k
      refine ⟨h1, ?_⟩
      intro n hn
      rcases h2 n hn with ⟨y, hy, rfl⟩ | ⟨i, hi, rfl⟩
      · exact .inl ⟨y, by simp [hy], rfl⟩
      · exact .inr ⟨i, hi, rfl⟩
    | action b ps =>
      have e1 : YText.symsOf (.action b ps :: r) = YText.symsOf r := rfl
      have e2 : rhsKeys k (.action b ps :: r) = if precOnly r then [] else hiddenKey (k + 1) :: rhsKeys (k + 1) r := rfl
      rw [e1, e2]
      by_cases hp : precOnly r = true
      · rw [if_pos hp]
        refine ⟨?_, by simp⟩
        change [] = YText.symsOf r
        have : elFilter r = [] := (precOnly_filter r).1 hp
        have e3 : rhsKeys k r = [] := by rw [← rhsKeys_filter, this]; rfl
        have := (ih k).1
        rw [e3] at this
        exact this
      · rw [if_neg hp]
        obtain ⟨h1, h2⟩ := ih (k + 1)
        simp only [if_neg hp]
        refine ⟨?_, ?_⟩
        · unfold vis at h1 ⊢
          rw [List.filter_cons_of_neg (by simpa using ⟨k + 1, rfl⟩), h1]
        · intro n hn
          rcases List.mem_cons.1 hn with rfl | hn
          · exact .inr ⟨0, by omega, rfl⟩
          · rcases h2 n hn with ⟨y, hy, rfl⟩ | ⟨i, hi, rfl⟩
            · exact .inl ⟨y, by simp [hy], rfl⟩
            · exact .inr ⟨i + 1, by omega, by congr 1; omega⟩

theorem rulesFrom_mem (alts : List Alt) : ∀ (k : Nat) (R : SRule), R ∈ rulesFrom k alts → ∃ a ∈ alts, ∃ k', R ∈ altRules k' a := by
  induction alts with
  | nil => intro k R h; cases h
  | cons a as ih =>
    intro k R h
    rcases List.mem_append.1 h with h | h
    · exact ⟨a, by simp, k, h⟩
    · obtain ⟨b, hb, k', h⟩ := ih _ R h
      exact ⟨b, by simp [hb], k', h⟩

theorem rulesFrom_sub (alts : List Alt) : ∀ (k : Nat), ∀ a ∈ alts, ∃ k', ∀ R ∈ altRules k' a, R ∈ rulesFrom k alts := by
  induction alts with
  | nil => intro k a h; cases h
  | cons b as ih =>
    intro k a h
    rcases List.mem_cons.1 h with rfl | h
    · exact ⟨k, fun R hR => List.mem_append_left _ hR⟩
    · obtain ⟨k', h⟩ := ih (k + innerActions b.rhs) a h
      exact ⟨k', fun R hR => List.mem_append_right _ (h R hR)⟩

theorem alts_syms (P Q : Sym → Prop) (toks : List RTok) : ∀ (l : Sym) (a : List El), Q l → (∀ x, El.sym x ∈ a → P x) →
    (∀ x, RTok.sym x ∈ toks → P x) → (∀ x, RTok.lhs x ∈ toks → Q x) → ∀ b ∈ altsFrom l a toks, Q b.lhs ∧ ∀ x, El.sym x ∈ b.rhs → P x := by
  induction toks with
  | nil =>
    intro l a h1 h2 _ _ b hb
    rcases List.mem_singleton.1 hb with rfl
    exact ⟨h1, h2⟩
  | cons x ts ih =>
    intro l a h1 h2 h3 h4
    have h3' : ∀ x, RTok.sym x ∈ ts → P x := fun x hx => h3 x (by simp [hx])
    have h4' : ∀ x, RTok.lhs x ∈ ts → Q x := fun x hx => h4 x (by simp [hx])
    cases x with
    | sym x =>
      refine ih l (a ++ [.sym x]) h1 ?_ h3' h4'
      intro y hy
      rcases List.mem_append.1 hy with hy | hy
      · exact h2 y hy
      · simp at hy; subst hy; exact h3 y (by simp)
    | action b ps =>
      refine ih l (a ++ [.action b ps]) h1 ?_ h3' h4'
      intro y hy
      rcases List.mem_append.1 hy with hy | hy
      · exact h2 y hy
      · simp at hy
    | prec x =>
      refine ih l (a ++ [.prec x]) h1 ?_ h3' h4'
      intro y hy
      rcases List.mem_append.1 hy with hy | hy
      · exact h2 y hy
      · simp at hy
    | bar =>
      intro b hb
      rcases List.mem_cons.1 hb with rfl | hb
      · exact ⟨h1, h2⟩
      · exact ih l [] h1 (by simp) h3' h4' b hb
    | lhs y =>
      intro b hb
      rcases List.mem_cons.1 hb with rfl | hb
      · exact ⟨h1, h2⟩
      · exact ih y [] (h4 y (by simp)) (by simp) h3' h4' b hb

theorem file_alts {F : File} {t : List Nat} (hF : FileAt F t) : ∀ a ∈ F.alts, IsLhs F.uses a.lhs.key ∧ ¬ Hid a.lhs.key ∧
    ∀ x, El.sym x ∈ a.rhs → ¬ Hid x.key := by
  obtain ⟨-, ⟨t, u, hf⟩, hN⟩ := file_named hF
  intro a ha
  have := alts_syms (fun x => ¬ Hid x.key) (fun x => IsLhs F.uses x.key ∧ ¬ Hid x.key) F.toks (.name F.first) []
    ⟨(isLhs_file F _).2 (.inl rfl), fun ⟨k, hk⟩ => name_notHidden hf k hk⟩ (by simp)
    (fun x hx => by
      obtain ⟨t, u, h⟩ := hN x (.inl hx)
      exact fun ⟨k, hk⟩ => symAt_notHidden h k hk)
    (fun x hx => by
      obtain ⟨t, u, h⟩ := hN x (.inr (.inl hx))
      exact ⟨(isLhs_file F _).2 (.inr ⟨x, hx, rfl⟩), fun ⟨k, hk⟩ => symAt_notHidden h k hk⟩) a ha
  exact ⟨this.1.1, this.1.2, this.2⟩

theorem ruleUses_named (toks : List RTok) : ∀ (l : Sym) (p : Bool) (k : Nat), Named toks → ∀ u ∈ ruleUses l p k toks,
    (∃ j l', u = .hidden j l') ∨ ¬ Hid u.key := by
  have nh : ∀ {x : Sym} {t u : List Nat}, SymAt x t u → ¬ Hid x.key := fun h ⟨k, hk⟩ => symAt_notHidden h k hk
  induction toks with
  | nil => intro l p k _ u hu; cases hu
  | cons x ts ih =>
    intro l p k hN u hu
    have hN' := hN.tail
    cases x with
    | sym x =>
      obtain ⟨t, v, hx⟩ := hN x (.inl (by simp))
      unfold ruleUses at hu
      split at hu
      · rcases List.mem_cons.1 hu with rfl | hu
        · exact .inr (nh hx)
        · rcases List.mem_cons.1 hu with rfl | hu
          · exact .inl ⟨_, _, rfl⟩
          · exact ih _ _ _ hN' u hu
      · rcases List.mem_cons.1 hu with rfl | hu
        · exact .inr (nh hx)
        · exact ih _ _ _ hN' u hu
    | action b ps =>
      unfold ruleUses at hu
      split at hu
      · rcases List.mem_cons.1 hu with rfl | hu
        · exact .inl ⟨_, _, rfl⟩
        · exact ih _ _ _ hN' u hu
      · exact ih _ _ _ hN' u hu
    | prec x =>
      obtain ⟨t, v, hx⟩ := hN x (.inr (.inr (by simp)))
      unfold ruleUses at hu
      rcases List.mem_cons.1 hu with rfl | hu
      · exact .inr (nh hx)
      · exact ih _ _ _ hN' u hu
    | bar => exact ih _ _ _ hN' u hu
    | lhs y =>
      obtain ⟨t, v, hx⟩ := hN y (.inr (.inl (by simp)))
      unfold ruleUses at hu
      rcases List.mem_cons.1 hu with rfl | hu
      · exact .inr (nh hx)
      · exact ih _ _ _ hN' u hu

theorem hid_hidden {F : File} {t : List Nat} (hF : FileAt F t) {n : List Nat} (hn : n ∈ names F.uses) : Hid n ↔ hiddenOf F.uses n ≠ none := by
  refine ⟨?_, fun h => hiddenOf_some h⟩
  rintro ⟨k, rfl⟩ h0
  obtain ⟨hd, ⟨t, u, hf⟩, hN⟩ := file_named hF
  rcases (mem_names _ _).1 hn with h | ⟨u, hu, h⟩
  · exact error_notHidden k h
  · have hex : ∃ j l', u = .hidden j l' := by
      unfold File.uses at hu
      rcases List.mem_append.1 hu with hu | hu
      · exfalso
        have hw := declUses_written [] F.all hd u hu
        cases u with
        | hidden j l => exact declUses_noHidden [] F.all j l hu
        | token x _ _ _ _ => obtain ⟨t, u, hw⟩ := hw; exact symAt_notHidden hw k h
        | typed x _ => obtain ⟨t, u, hw⟩ := hw; exact symAt_notHidden hw k h
        | plain x => obtain ⟨t, u, hw⟩ := hw; exact symAt_notHidden hw k h
        | lhs x => obtain ⟨t, u, hw⟩ := hw; exact symAt_notHidden hw k h
      · rcases List.mem_cons.1 hu with rfl | hu
        · exact absurd h (name_notHidden hf k)
        · exact (ruleUses_named _ _ _ _ hN u hu).resolve_right (fun hc => hc ⟨k, h⟩)
    obtain ⟨j, l', rfl⟩ := hex
    unfold hiddenOf at h0
    rw [List.findSome?_eq_none_iff] at h0
    have := h0 _ hu
    simp only at this
    rw [if_pos (show hiddenKey j = hiddenKey k from h)] at this
    cases this

theorem number_inj (us : List Use) (goal : List Nat) {n m : List Nat} (hn : n ∈ names us) (hm : m ∈ names us)
    (h : symNumber us goal n = symNumber us goal m) : n = m := by
  have h1 := at_number us goal n hn [] [] id
  have h2 := at_number us goal m hm [] [] id
  rw [h, h2] at h1
  simpa using h1.symm

theorem count_names (us : List Use) (goal : List Nat) (hg : goal ∈ names us) (ht : ¬ Terminal us goal) :
    (tokenNames us).length + (otherNames us goal).length + 1 = (names us).length := by
  have h1 : (otherNames us goal) = ((names us).filter fun n => decide (¬ Terminal us n)).erase goal := by
    rw [((names_nodup us).filter _).erase_eq_filter, List.filter_filter]
    unfold otherNames
    refine List.filter_congr fun n _ => ?_
    by_cases h : n = goal <;> simp [h]
  have hm : goal ∈ (names us).filter fun n => decide (¬ Terminal us n) := List.mem_filter.2 ⟨hg, by simpa using ht⟩
  have h2 := List.length_erase_of_mem hm
  have h3 := List.length_pos_of_mem hm
  have h4 := List.length_eq_length_filter_add (l := names us) (fun n => decide (Terminal us n))
  have h5 : (fun n => !decide (Terminal us n)) = fun n => decide (¬ Terminal us n) := by
    funext n; simp
  rw [h5] at h4
  unfold tokenNames
  rw [h1]
  omega

theorem number_lt (us : List Use) (goal : List Nat) (hg : goal ∈ names us) (ht : ¬ Terminal us goal) {n : List Nat} (hn : n ∈ names us) :
    symNumber us goal n < (names us).length + 2 := by
  have h1 := (List.getElem?_eq_some_iff.1 (at_number us goal n hn [] [] id)).1
  have := count_names us goal hg ht
  simp at h1
  omega

theorem number_token (us : List Use) (goal : List Nat) {n : List Nat} (hn : n ∈ names us) :
    (symNumber us goal n < (tokenNames us).length + 1 ↔ Terminal us n) ∧ 0 < symNumber us goal n ∧ symNumber us goal n ≠ (tokenNames us).length + 1 := by
  by_cases ht : Terminal us n
  · have hm : n ∈ tokenNames us := List.mem_filter.2 ⟨hn, by simpa using ht⟩
    have := List.idxOf_lt_length_iff.2 hm
    unfold symNumber
    rw [if_pos ht]
    exact ⟨⟨fun _ => ht, fun _ => by omega⟩, by omega, by omega⟩
  · have h1 : (tokenNames us).length + 2 ≤ symNumber us goal n := by
      unfold symNumber
      rw [if_neg ht]
      split <;> omega
    exact ⟨⟨fun h => by omega, fun h => absurd h ht⟩, by omega, by omega⟩

/-- the rules of the grammar, by names -/
theorem rules_names {F : File} {t : List Nat} (hF : FileAt F t) : ∀ R ∈ F.rules, R.lhs ∈ names F.uses ∧ ¬ Terminal F.uses R.lhs ∧
    (∀ x ∈ R.rhs, x ∈ names F.uses) ∧
    ((Hid R.lhs ∧ R.rhs = []) ∨ ∃ a ∈ F.alts, R.lhs = a.lhs.key ∧ vis R.rhs = YText.symsOf a.rhs ∧ ¬ Hid R.lhs) := by
  intro R hR
  have hmem : R.lhs ∈ names F.uses ∧ ∀ x ∈ R.rhs, x ∈ names F.uses := by
    obtain ⟨done, -, e, hg⟩ := file_rules F
    rw [← e] at hR
    obtain ⟨r, hr, rfl⟩ := List.mem_map.1 hR
    obtain ⟨g1, g2, -⟩ := hg r hr
    have hh : ∀ j, 1 ≤ j → j ≤ (fileRd F).gensym → hiddenKey j ∈ names F.uses := fun j h1 h2 => (file_hidden F j h1 h2).1
    refine ⟨g1.mem hh, ?_⟩
    intro x hx
    obtain ⟨y, hy, rfl⟩ := List.mem_map.1 hx
    exact (g2 y hy).mem hh
  obtain ⟨a, ha, k, hR⟩ := rulesFrom_mem _ _ R hR
  obtain ⟨hl, hnl, hs⟩ := file_alts hF a ha
  rcases List.mem_append.1 hR with hR | hR
  · obtain ⟨i, -, rfl⟩ := List.mem_map.1 hR
    have hh : Hid (hiddenKey (k + i + 1)) := ⟨_, rfl⟩
    exact ⟨hmem.1, fun h => (hid_hidden hF hmem.1).1 hh h.2, hmem.2, .inl ⟨hh, rfl⟩⟩
  · rcases List.mem_singleton.1 hR with rfl
    exact ⟨hmem.1, fun h => h.1 hl, hmem.2, .inr ⟨a, ha, rfl, (rhsKeys_vis a.rhs hs k).1, hnl⟩⟩

/-- each alternative is a rule, and the symbols of its actions have empty rules -/
theorem alt_rule {F : File} {t : List Nat} (hF : FileAt F t) : ∀ a ∈ F.alts, ∃ R ∈ F.rules, R.lhs = a.lhs.key ∧ vis R.rhs = YText.symsOf a.rhs ∧
    ∀ x ∈ R.rhs, Hid x → ∃ R' ∈ F.rules, R'.lhs = x ∧ R'.rhs = [] := by
  intro a ha
  obtain ⟨k, hk⟩ := rulesFrom_sub F.alts 0 a ha
  obtain ⟨-, -, hs⟩ := file_alts hF a ha
  obtain ⟨h1, h2⟩ := rhsKeys_vis a.rhs hs k
  refine ⟨⟨a.lhs.key, rhsKeys k a.rhs, (precNamed a.rhs).elim .rhs fun x => .of x.key⟩, hk _ (by unfold altRules; simp), rfl, h1, ?_⟩
  intro x hx hh
  rcases h2 x hx with ⟨y, hy, rfl⟩ | ⟨i, hi, rfl⟩
  · exact absurd hh (hs y hy)
  · exact ⟨⟨hiddenKey (k + i + 1), [], .nowhere⟩, hk _ (List.mem_append_left _ (List.mem_map.2 ⟨i, List.mem_range.2 hi, rfl⟩)), rfl, rfl⟩

theorem goal_nonterm {F : File} (hl : IsLhs F.uses F.goal) : ¬ Terminal F.uses F.goal := fun h => h.1 hl

theorem rule_numbers (us : List Use) (goal : List Nat) (rs : List SRule) :
    (rs.map (srcRule us goal)).map SrcRule.rule = rs.map fun R => (symNumber us goal R.lhs, R.rhs.map (symNumber us goal)) := by
  rw [List.map_map]
  refine List.map_congr_left fun R _ => ?_
  simp only [Function.comp, srcRule, SrcRule.rule, List.map_map]
  rfl

/-- the grammar by numbers -/
noncomputable def gramOf (F : File) : CFG :=
  augCFG ((tokenNames F.uses).length + 1) (F.rules.map fun R => (symNumber F.uses F.goal R.lhs, R.rhs.map (symNumber F.uses F.goal)))

theorem user_rules {F : File} {t : List Nat} (hF : FileAt F t) (hl : IsLhs F.uses F.goal) :
    UserRules ((tokenNames F.uses).length + 1) ((names F.uses).length + 2)
      (F.rules.map fun R => (symNumber F.uses F.goal R.lhs, R.rhs.map (symNumber F.uses F.goal))) := by
  have hg := goal_mem F
  have ht := goal_nonterm hl
  have hc := count_names F.uses F.goal hg ht
  refine ⟨by omega, by omega, ?_⟩
  intro A α h
  obtain ⟨R, hR, e⟩ := List.mem_map.1 h
  obtain ⟨rfl, rfl⟩ := Prod.mk.inj e
  obtain ⟨h1, h2, h3, -⟩ := rules_names hF R hR
  have hn := number_token F.uses F.goal h1
  refine ⟨?_, number_lt _ _ hg ht h1, ?_⟩
  · have : ¬ symNumber F.uses F.goal R.lhs < (tokenNames F.uses).length + 1 := fun h => h2 (hn.1.1 h)
    have := hn.2.2
    omega
  · intro X hX
    obtain ⟨x, hx, rfl⟩ := List.mem_map.1 hX
    have hn := number_token F.uses F.goal (h3 x hx)
    exact ⟨hn.2.1, number_lt _ _ hg ht (h3 x hx), hn.2.2⟩

/-- values along a parse tree, with the symbols of actions -/
inductive ComputesN {V : Type} (F : File) (zero : V) (f : Nat → V → List V → V) : List V → List (List Nat) → List (List Nat × V) → List V → Prop
  | nil (ctx : List V) : ComputesN F zero f ctx [] [] []
  | token (ctx : List V) (n : List Nat) (v : V) (β : List (List Nat)) (w : List (List Nat × V)) (vs : List V) : Terminal F.uses n →
      ComputesN F zero f (v :: ctx) β w vs → ComputesN F zero f ctx (n :: β) ((n, v) :: w) (v :: vs)
  | rule (ctx : List V) (k : Nat) (r : SRule) (β : List (List Nat)) (w w' : List (List Nat × V)) (us vs : List V) (v : V) : F.rules[k]? = some r →
      ComputesN F zero f ctx r.rhs w us → v = f (k + 1) (us.headD zero) (us.reverse ++ ctx) → ComputesN F zero f (v :: ctx) β w' vs →
      ComputesN F zero f ctx (r.lhs :: β) (w ++ w') (v :: vs)

theorem ComputesN.append {V : Type} {F : File} {zero : V} {f : Nat → V → List V → V} {ctx : List V} {β β' : List (List Nat)}
    {w w' : List (List Nat × V)} {vs vs' : List V} (h : ComputesN F zero f ctx β w vs) (h' : ComputesN F zero f (vs.reverse ++ ctx) β' w' vs') :
    ComputesN F zero f ctx (β ++ β') (w ++ w') (vs ++ vs') := by
  induction h with
  | nil => exact h'
  | token ctx n v β w vs ht _ ih => exact .token _ n v _ _ _ ht (ih (by simpa using h'))
  | rule ctx k r β w w2 us vs v hr h1 hv _ _ ih => rw [List.append_assoc]; exact .rule _ k r _ _ _ us _ v hr h1 hv (ih (by simpa using h'))

/-- a tree by numbers is one by names -/
theorem computes_of {F : File} {t : List Nat} (hF : FileAt F t) {V : Type} {zero : V} {f : Nat → V → List V → V} {ctx : List V} {ps β : List Nat}
    {w : List (Nat × V)} {vs : List V} (h : BuildsIn (gramOf F) zero f ctx ps β w vs) : ∀ l : List (List Nat), (∀ x ∈ l, x ∈ names F.uses) →
    l.map (symNumber F.uses F.goal) = β → ∃ w', ComputesN F zero f ctx l w' vs ∧ w = w'.map fun p => (symNumber F.uses F.goal p.1, p.2) := by
  induction h with
  | nil ctx =>
    intro l _ hl
    have : l = [] := by simpa using hl
    subst this
    exact ⟨[], .nil _, rfl⟩
  | tok v ht h ih =>
    rename_i ctx rs β w vs t
    intro l hm hl
    obtain ⟨l1, l2, rfl, h1, h2⟩ := List.map_eq_append_iff.1 hl
    obtain ⟨x, l3, rfl, rfl, h3⟩ := List.map_eq_cons_iff.1 h2
    have : l3 = [] := by simpa using h3
    subst this
    obtain ⟨w', hw, rfl⟩ := ih l1 (fun x hx => hm x (by simp [hx])) h1
    have hT := (number_token F.uses F.goal (hm x (by simp))).1.1 ht
    exact ⟨w' ++ [(x, v)], hw.append (.token _ x v [] [] [] hT (.nil _)), by simp⟩
  | rule hr h h' ih ih' =>
    rename_i ctx rs rs' β w w' vs us r A α
    intro l hm hl
    obtain ⟨l1, l2, rfl, h1, h2⟩ := List.map_eq_append_iff.1 hl
    obtain ⟨x, l3, rfl, rfl, h3⟩ := List.map_eq_cons_iff.1 h2
    have : l3 = [] := by simpa using h3
    subst this
    have hx := hm x (by simp)
    obtain ⟨w1, hw1, rfl⟩ := ih l1 (fun x hx => hm x (by simp [hx])) h1
    cases r with
    | zero =>
      simp only [gramOf, augCFG, List.getElem?_cons_zero, Option.some.injEq, Prod.mk.injEq] at hr
      exact absurd hr.1.symm (number_token F.uses F.goal hx).2.2
    | succ k =>
      simp only [gramOf, augCFG, List.getElem?_cons_succ, List.getElem?_map, Option.map_eq_some_iff, Prod.mk.injEq] at hr
      obtain ⟨R, hR, e1, e2⟩ := hr
      obtain ⟨g1, -, g3, -⟩ := rules_names hF R (List.mem_of_getElem? hR)
      have hx := number_inj _ _ g1 hx e1
      subst hx
      obtain ⟨w2, hw2, rfl⟩ := ih' R.rhs g3 e2
      refine ⟨w1 ++ w2, ?_, by simp⟩
      have := hw1.append (.rule _ k R [] w2 [] us [] _ hR hw2 rfl (.nil _))
      simpa using this

/-! actions by their numbers -/

theorem rulesFrom_hid (alts : List Alt) (h : ∀ a ∈ alts, ¬ Hid a.lhs.key) : ∀ k, ∀ R ∈ rulesFrom k alts, ∀ j, R.lhs = hiddenKey j → k < j := by
  induction alts with
  | nil => intro k R hR; cases hR
  | cons a as ih =>
    intro k R hR j hj
    rcases List.mem_append.1 hR with hR | hR
    · rcases List.mem_append.1 hR with hR | hR
      · obtain ⟨i, -, rfl⟩ := List.mem_map.1 hR
        have := hiddenKey_inj hj
        omega
      · rcases List.mem_singleton.1 hR with rfl
        exact absurd ⟨j, hj⟩ (h a (by simp))
    · have := ih (fun a ha => h a (by simp [ha])) _ R hR j hj
      omega

theorem rulesFrom_pairwise (alts : List Alt) (h : ∀ a ∈ alts, ¬ Hid a.lhs.key) : ∀ k, (rulesFrom k alts).Pairwise fun R R' => Hid R.lhs → R.lhs ≠ R'.lhs := by
  induction alts with
  | nil => intro k; exact .nil
  | cons a as ih =>
    intro k
    have ha := h a (by simp)
    refine List.pairwise_append.2 ⟨List.pairwise_append.2 ⟨?_, List.pairwise_singleton _ _, ?_⟩, ih (fun a ha => h a (by simp [ha])) _, ?_⟩
    · rw [List.pairwise_map]
      refine List.Pairwise.imp ?_ List.pairwise_lt_range
      intro i j hij _ he
      have := hiddenKey_inj he
      omega
    · intro R hR R' hR' hh he
      rcases List.mem_singleton.1 hR' with rfl
      refine ha ?_
      change R.lhs = a.lhs.key at he
      rw [← he]; exact hh
    · rintro R hR R' hR' ⟨j, hj⟩ he
      have h1 := rulesFrom_hid as (fun a ha => h a (by simp [ha])) _ R' hR' j (by rw [← he]; exact hj)
      rcases List.mem_append.1 hR with hR | hR
      · obtain ⟨i, hi, rfl⟩ := List.mem_map.1 hR
        have := hiddenKey_inj hj
        have := List.mem_range.1 hi
        omega
      · rcases List.mem_singleton.1 hR with rfl
        exact ha ⟨j, hj⟩

theorem rules_unique {F : File} {t : List Nat} (hF : FileAt F t) {i j : Nat} {R R' : SRule} (h1 : F.rules[i]? = some R) (h2 : F.rules[j]? = some R')
    (he : R.lhs = R'.lhs) (hh : Hid R.lhs) : i = j := by
  have hp := rulesFrom_pairwise F.alts (fun a ha => (file_alts hF a ha).2.1) 0
  rw [List.pairwise_iff_getElem] at hp
  obtain ⟨g1, rfl⟩ := List.getElem?_eq_some_iff.1 h1
  obtain ⟨g2, rfl⟩ := List.getElem?_eq_some_iff.1 h2
  rcases Nat.lt_trichotomy i j with h | h | h
  · exact absurd he (hp i j g1 g2 h hh)
  · exact h
  · exact absurd he.symm (hp j i g2 g1 h (he ▸ hh))

theorem rulesFrom_at (alts : List Alt) : ∀ (k0 n : Nat) (k : Nat) (R : SRule), (rulesFrom k0 alts)[k]? = some R → ∃ b a ka i, (b, a) ∈ numbered n alts ∧
    n ≤ b ∧ k = b - n + i ∧ (altRules ka a)[i]? = some R ∧ ∀ i R', (altRules ka a)[i]? = some R' → (rulesFrom k0 alts)[b - n + i]? = some R' := by
  induction alts with
  | nil => intro k0 n k R h; cases h
  | cons a as ih =>
    intro k0 n k R h
    have hlen : (altRules k0 a).length = innerActions a.rhs + 1 := by simp [altRules]
    by_cases hk : k < (altRules k0 a).length
    · refine ⟨n, a, k0, k, by simp [numbered], le_refl _, by omega, ?_, ?_⟩
      · rw [rulesFrom, List.getElem?_append_left hk] at h; exact h
      · intro i R' hi
        have := (List.getElem?_eq_some_iff.1 hi).1
        rw [Nat.sub_self, Nat.zero_add, rulesFrom, List.getElem?_append_left this]; exact hi
    · rw [rulesFrom, List.getElem?_append_right (by omega)] at h
      obtain ⟨b, a', ka, i, h1, h2, h3, h4, h5⟩ := ih (k0 + innerActions a.rhs) (n + innerActions a.rhs + 1) _ R h
      refine ⟨b, a', ka, i, by rw [numbered]; exact List.mem_cons_of_mem _ h1, by omega, by omega, h4, ?_⟩
      intro j R' hj
      have := h5 j R' hj
      rw [rulesFrom, List.getElem?_append_right (by omega), ← this]
      congr 1
      omega

/-- a symbol of the grammar is a step -/
def IsStep (F : File) (x : List Nat) : Step → Prop
  | .sym n => x = n ∧ ¬ Hid x
  | .act m => Hid x ∧ ∃ R k, m = k + 1 ∧ F.rules[k]? = some R ∧ R.lhs = x ∧ R.rhs = []

theorem steps_rhs {F : File} (els : List El) (hs : ∀ x, El.sym x ∈ els → ¬ Hid x.key) : ∀ k b,
    (∀ i, i < innerActions els → ∃ R, F.rules[b + i]? = some R ∧ R.lhs = hiddenKey (k + i + 1) ∧ R.rhs = []) →
    List.Forall₂ (IsStep F) (rhsKeys k els) (stepsOf b els) := by
  induction els with
  | nil => intro k b _; exact .nil
  | cons e r ih =>
    have ih := ih (fun x hx => hs x (by simp [hx]))
    intro k b h
    rw [innerActions_cons] at h
    cases e with
    | sym x => exact .cons ⟨rfl, hs x (by simp)⟩ (ih k b h)
    | prec x => exact ih k b h
    | action bo ps =>
      simp only at h
      rw [rhsKeys, stepsOf]
      by_cases hp : precOnly r = true
      · rw [if_pos hp, if_pos hp]; exact .nil
      · rw [if_neg hp, if_neg hp]
        rw [if_neg hp] at h
        obtain ⟨R, h1, h2, h3⟩ := h 0 (by omega)
        refine .cons ⟨⟨k + 1, rfl⟩, R, b, rfl, h1, h2, h3⟩ (ih (k + 1) (b + 1) ?_)
        intro i hi
        obtain ⟨R, h1, h2, h3⟩ := h (i + 1) (by omega)
        exact ⟨R, by rw [← h1]; congr 1; omega, by rw [h2]; congr 1; omega, h3⟩

theorem own_rule {F : File} {t : List Nat} (hF : FileAt F t) {k : Nat} {R : SRule} (h : F.rules[k]? = some R) (hh : ¬ Hid R.lhs) :
    ∃ b a, (b, a) ∈ numbered 0 F.alts ∧ a ∈ F.alts ∧ k = b + innerActions a.rhs ∧ R.lhs = a.lhs.key ∧ List.Forall₂ (IsStep F) R.rhs (stepsOf b a.rhs) := by
  have hnum : ∀ (alts : List Alt) (n : Nat), ∀ p ∈ numbered n alts, p.2 ∈ alts := by
    intro alts
    induction alts with
    | nil => intro n p hp; cases hp
    | cons a as ih =>
      intro n p hp
      rcases List.mem_cons.1 hp with rfl | hp
      · simp
      · exact List.mem_cons_of_mem _ (ih _ p hp)
  obtain ⟨b, a, ka, i, h1, -, h3, h4, h5⟩ := rulesFrom_at F.alts 0 0 k R h
  have ha := hnum _ _ _ h1
  obtain ⟨-, hn, hs⟩ := file_alts hF a ha
  have hi : ∀ i, i < innerActions a.rhs → (altRules ka a)[i]? = some ⟨hiddenKey (ka + i + 1), [], .nowhere⟩ := by
    intro i hi
    unfold altRules
    rw [List.getElem?_append_left (by simpa using hi), List.getElem?_map, List.getElem?_range hi]
    rfl
  have hlt := (List.getElem?_eq_some_iff.1 h4).1
  have hlen : (altRules ka a).length = innerActions a.rhs + 1 := by simp [altRules]
  by_cases hii : i < innerActions a.rhs
  · rw [hi i hii] at h4
    cases h4
    exact absurd ⟨_, rfl⟩ hh
  · have hie : i = innerActions a.rhs := by omega
    subst hie
    unfold altRules at h4
    rw [List.getElem?_append_right (by simp)] at h4
    simp only [List.length_map, List.length_range, Nat.sub_self, List.getElem?_cons_zero, Option.some.injEq] at h4
    subst h4
    refine ⟨b, a, h1, ha, by omega, rfl, steps_rhs a.rhs hs ka b ?_⟩
    intro i hi2
    have := h5 i _ (hi i hi2)
    exact ⟨_, this, rfl, rfl⟩

theorem ComputesN.computes {F : File} {t : List Nat} (hF : FileAt F t) {V : Type} {zero : V} {f : Nat → V → List V → V} {ctx : List V}
    {l : List (List Nat)} {w : List (List Nat × V)} {vs : List V} (h : ComputesN F zero f ctx l w vs) :
    ∀ st, List.Forall₂ (IsStep F) l st → Computes F zero f ctx st w vs := by
  induction h with
  | nil ctx => intro st hs; cases hs; exact .nil _
  | token ctx n v β w vs ht _ ih =>
    intro st hs
    cases hs with
    | cons h1 h2 =>
      rename_i s st
      cases s with
      | sym m => obtain ⟨rfl, -⟩ := h1; exact .token _ _ v _ _ _ ht (ih _ h2)
      | act m =>
        obtain ⟨-, R, k, -, hR, rfl, -⟩ := h1
        exact absurd ht (rules_names hF R (List.mem_of_getElem? hR)).2.1
  | rule ctx k R β w w' us vs v hr h1 hv _ ih1 ih2 =>
    intro st hs
    cases hs with
    | cons g1 g2 =>
      rename_i s st
      cases s with
      | sym m =>
        obtain ⟨rfl, hh⟩ := g1
        obtain ⟨b, a, hb, -, rfl, e1, e2⟩ := own_rule hF hr hh
        rw [e1]
        exact .rule _ b a _ _ _ us _ v hb (ih1 _ e2) hv (ih2 _ g2)
      | act m =>
        obtain ⟨hh, R', k', rfl, hR', e1, e2⟩ := g1
        have hk := rules_unique hF hr hR' e1.symm hh
        subst hk
        rw [hr] at hR'
        cases hR'
        rw [e2] at h1
        cases h1
        subst hv
        exact .action _ _ _ _ _ (ih2 _ g2)

/-- a tree with the symbols of actions is one without -/
theorem ComputesN.stands {F : File} {t : List Nat} (hF : FileAt F t) {V : Type} {zero : V} {f : Nat → V → List V → V} {ctx : List V} {l : List (List Nat)} {w : List (List Nat × V)}
    {vs : List V} (h : ComputesN F zero f ctx l w vs) : (∀ x ∈ l, x ∈ names F.uses) → Stands F (vis l) (w.map Prod.fst) := by
  induction h with
  | nil => intro _; exact .nil
  | token ctx n v β w vs ht _ ih =>
    intro hm
    have hn : ¬ Hid n := fun hh => (hid_hidden hF (hm n (by simp))).1 hh ht.2
    have e : vis (n :: β) = n :: vis β := by unfold vis; rw [List.filter_cons_of_pos (by simpa using hn)]
    rw [e]
    exact .token n _ _ ht (ih fun x hx => hm x (by simp [hx]))
  | rule ctx k R β w w' us vs v hr h1 _ _ ih1 ih2 =>
    intro hm
    obtain ⟨-, -, g3, g4⟩ := rules_names hF R (List.mem_of_getElem? hr)
    have h2 := ih2 fun x hx => hm x (by simp [hx])
    rcases g4 with ⟨hh, he⟩ | ⟨a, ha, e1, e2, hn⟩
    · have e : vis (R.lhs :: β) = vis β := by unfold vis; rw [List.filter_cons_of_neg (by simpa using hh)]
      rw [he] at h1
      cases h1
      rw [e]
      simpa using h2
    · have e : vis (R.lhs :: β) = R.lhs :: vis β := by unfold vis; rw [List.filter_cons_of_pos (by simpa using hn)]
      have h1 := ih1 g3
      rw [e2] at h1
      rw [e, e1, List.map_append]
      exact .rule a _ _ _ ha h1 h2

theorem yields_hid {F : File} {t : List Nat} (hF : FileAt F t) (l : List (List Nat)) (w : List Nat)
    (h : Yields (gramOf F) ((vis l).map (symNumber F.uses F.goal)) w) (hh : ∀ x ∈ l, Hid x → ∃ R' ∈ F.rules, R'.lhs = x ∧ R'.rhs = []) :
    Yields (gramOf F) (l.map (symNumber F.uses F.goal)) w := by
  induction l generalizing w with
  | nil => exact h
  | cons x l ih =>
    have ih := fun w h => ih w h (fun y hy => hh y (by simp [hy]))
    by_cases hx : Hid x
    · have e : vis (x :: l) = vis l := by unfold vis; rw [List.filter_cons_of_neg (by simpa using hx)]
      rw [e] at h
      obtain ⟨R, hR, rfl, e2⟩ := hh x (by simp) hx
      have hr : (symNumber F.uses F.goal R.lhs, []) ∈ (gramOf F).rules := by
        refine List.mem_cons_of_mem _ (List.mem_map.2 ⟨R, hR, ?_⟩)
        rw [e2]; rfl
      exact .var (w₁ := []) hr .nil (ih w h)
    · have e : vis (x :: l) = x :: vis l := by unfold vis; rw [List.filter_cons_of_pos (by simpa using hx)]
      rw [e, List.map_cons] at h
      rw [List.map_cons]
      generalize hA : symNumber F.uses F.goal x = A at h
      cases h with
      | tok ht h => exact .tok ht (ih _ h)
      | var hr h1 h2 => exact .var hr h1 (ih _ h2)

/-- a sentence by names is one by numbers -/
theorem _root_.Verif.Spec.YText.Stands.yields {F : File} {t : List Nat} (hF : FileAt F t) {l w : List (List Nat)} (h : Stands F l w) :
    (∀ x ∈ l, x ∈ names F.uses) → Yields (gramOf F) (l.map (symNumber F.uses F.goal)) (w.map (symNumber F.uses F.goal)) ∧ ∀ x ∈ w, x ∈ tokenNames F.uses := by
  induction h with
  | nil => intro _; exact ⟨.nil, by simp⟩
  | token n β w ht _ ih =>
    intro hm
    obtain ⟨h1, h2⟩ := ih fun x hx => hm x (by simp [hx])
    have hn := hm n (by simp)
    refine ⟨.tok ((number_token F.uses F.goal hn).1.2 ht) h1, ?_⟩
    intro x hx
    rcases List.mem_cons.1 hx with rfl | hx
    · exact List.mem_filter.2 ⟨hn, by simpa using ht⟩
    · exact h2 x hx
  | rule a β w w' ha _ _ ih1 ih2 =>
    intro hm
    obtain ⟨h1, h2⟩ := ih2 fun x hx => hm x (by simp [hx])
    obtain ⟨R, hR, e1, e2, e3⟩ := alt_rule hF a ha
    have hk := (file_keys F a ha).2
    obtain ⟨h3, h4⟩ := ih1 (by
      intro x hx
      unfold YText.symsOf at hx
      obtain ⟨e, he, hx⟩ := List.mem_filterMap.1 hx
      cases e with
      | sym y => simp only [Option.some.injEq] at hx; subst hx; exact hk y (.inl he)
      | _ => cases hx)
    rw [← e2] at h3
    have h5 := yields_hid hF R.rhs _ h3 e3
    rw [List.map_cons, List.map_append, ← e1]
    refine ⟨.var (List.mem_cons_of_mem _ (List.mem_map.2 ⟨R, hR, rfl⟩)) h5 h1, ?_⟩
    intro x hx
    rcases List.mem_append.1 hx with hx | hx
    · exact h4 x hx
    · exact h2 x hx

theorem sym_vals {F : File} {t : List Nat} (hF : FileAt F t) (hok : F.Ok) (hd : CodesDiffer F.uses) (goal : Nat) :
    SymVals ((tokenNames F.uses).length + 1) ((names F.uses).length + 2) (packSymbols (psyms F.uses) goal).value := by
  have hmem : ∀ p ∈ psyms F.uses, p.isTerm = true → ∃ n ∈ tokenNames F.uses, p = ⟨true, (codeGiven F.uses n).elim UNDEFINED fun c => (c : Int)⟩ := by
    intro p hp ht
    have : p ∈ (psyms F.uses).filter (·.isTerm) := List.mem_filter.2 ⟨hp, ht⟩
    rw [filter_psyms] at this
    obtain ⟨n, hn, rfl⟩ := List.mem_map.1 this
    exact ⟨n, hn, rfl⟩
  have hget : ∀ (i : Nat) (p : PSym), ((psyms F.uses).filter (·.isTerm))[i]? = some p → ∃ n, (tokenNames F.uses)[i]? = some n ∧
      p.value = (codeGiven F.uses n).elim UNDEFINED fun c => (c : Int) := by
    intro i p hp
    rw [filter_psyms, List.getElem?_map, Option.map_eq_some_iff] at hp
    obtain ⟨n, hn, rfl⟩ := hp
    exact ⟨n, hn, rfl⟩
  have hund : (UNDEFINED : Int) = -1 := rfl
  have herr : (tokenNames F.uses)[0]? = some (txt "error") := by
    have := error_terminal hF hok
    unfold tokenNames names firsts
    rw [List.filter_cons_of_pos (by simpa using this)]
    rfl
  have := C21_unique (psyms F.uses) goal ?_ ?_ ?_
  · have e1 : (packSymbols (psyms F.uses) goal).ntokens = (tokenNames F.uses).length + 1 := by
      change ((psyms F.uses).filter (·.isTerm)).length + 1 = _
      rw [filter_psyms, List.length_map]
    have e2 : (packSymbols (psyms F.uses) goal).nsyms = (names F.uses).length + 2 := by
      change (psyms F.uses).length + 2 = _; unfold psyms; rw [List.length_map]
    rw [e1, e2] at this
    exact this
  · intro p hp ht hv
    obtain ⟨n, hn, rfl⟩ := hmem p hp ht
    cases hc : codeGiven F.uses n with
    | none => rw [hc] at hv; exact absurd rfl hv
    | some c =>
      have : c ≠ 0 := fun h => hd.pos n hn (by rw [hc, h])
      change (0 : Int) < c
      omega
  · intro i j p q hp hq hv he
    obtain ⟨n, hn, e1⟩ := hget i p hp
    obtain ⟨m, hm, e2⟩ := hget j q hq
    have hnm : n = m := by
      cases hc : codeGiven F.uses n with
      | none => rw [e1, hc] at hv; exact absurd rfl hv
      | some c =>
        cases hc' : codeGiven F.uses m with
        | none =>
          rw [e1, e2, hc, hc', hund] at he
          simp only [Option.elim] at he
          omega
        | some c' =>
          rw [e1, e2, hc, hc'] at he
          simp only [Option.elim, Int.natCast_inj] at he
          subst he
          exact hd.diff n (List.mem_of_getElem? hn) m (List.mem_of_getElem? hm) _ hc hc'
    subst hnm
    obtain ⟨h1, e1⟩ := List.getElem?_eq_some_iff.1 hn
    obtain ⟨h2, e2⟩ := List.getElem?_eq_some_iff.1 hm
    exact (tokenNames_nodup F.uses).getElem_inj_iff.1 (e1.trans e2.symm)
  · intro i p hi hp he
    obtain ⟨n, hn, e1⟩ := hget i p hp
    have hne : n ≠ txt "error" := by
      rintro rfl
      obtain ⟨h1, e1⟩ := List.getElem?_eq_some_iff.1 hn
      obtain ⟨h2, e2⟩ := List.getElem?_eq_some_iff.1 herr
      have := (tokenNames_nodup F.uses).getElem_inj_iff.1 (e1.trans e2.symm)
      omega
    cases hc : codeGiven F.uses n with
    | none => rw [e1, hc, hund] at he; simp only [Option.elim] at he; omega
    | some c =>
      rw [e1, hc] at he
      simp only [Option.elim] at he
      exact hd.err n (List.mem_of_getElem? hn) hne (by rw [hc]; congr 1; omega)

theorem packRules_rprec (lp : Bool) (rules : List PRule) : ∀ (i j : Nat) (pitem : List (Option Bucket)), (packRules lp i j rules pitem).rprec.length = rules.length := by
  induction rules with
  | nil => intro i j pitem; rfl
  | cons p more ih => intro i j pitem; simp [packRules, ih]

theorem no_prec (lp : Bool) (F : File) (h : ∀ n, levelOf F.uses n = 0) (acts : List (Nat × List Nat)) :
    (∀ p ∈ (finalOut lp F acts).prec.prec, p = 0) ∧ ∀ p ∈ (finalOut lp F acts).gram.rprec, p = 0 := by
  constructor
  · intro p hp
    have hp : p ∈ 0 :: (tokenNames F.uses).map (levelOf F.uses) ++ 0 :: (F.goal :: otherNames F.uses F.goal).map (levelOf F.uses) := hp
    simp only [List.mem_append, List.mem_cons, List.mem_map] at hp
    rcases hp with (rfl | ⟨n, -, rfl⟩) | rfl | ⟨n, -, rfl⟩
    · rfl
    · exact h n
    · rfl
    · exact h n
  · intro p hp
    obtain ⟨i, hi⟩ := List.getElem?_of_mem hp
    by_cases h3 : i < 3
    · have : (finalOut lp F acts).gram.rprec = [0, 0, 0] ++ (packRules lp 3 4 ((F.rules.map (srcRule F.uses F.goal)).map SrcRule.p)
          ((encPitem (F.rules.map (srcRule F.uses F.goal))).drop 4)).rprec := rfl
      rw [this, List.getElem?_append_left (by simpa using h3)] at hi
      have := List.mem_of_getElem? hi
      simpa using this
    · have hl : (finalOut lp F acts).gram.rprec.length = F.rules.length + 3 := by
        change ([0, 0, 0] ++ (packRules lp 3 4 ((F.rules.map (srcRule F.uses F.goal)).map SrcRule.p)
          ((encPitem (F.rules.map (srcRule F.uses F.goal))).drop 4)).rprec).length = _
        rw [List.length_append, packRules_rprec]
        simp; omega
      obtain ⟨h1, -⟩ := List.getElem?_eq_some_iff.1 hi
      have hk : i - 3 < F.rules.length := by omega
      have := (means_rprec lp F.uses F.goal ((tokenNames F.uses).length + 1) ((names F.uses).length + 2) F.rules (i - 3) _ (List.getElem?_eq_getElem hk)).1
      rw [show i - 3 + 3 = i by omega] at this
      have hi' := hi.symm.trans this
      simp only [Option.some.injEq] at hi'
      rw [hi']
      cases precOfRule lp F.uses F.rules[i - 3] with
      | none => rfl
      | some n => exact h n

end Verif.Byacc.Rd
