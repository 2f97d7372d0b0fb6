import Verif.Proofs.NakedText
/-
Auxiliary facts: the rules of the grammar without its actions, in terms of the rules written.
-/
set_option autoImplicit false
namespace Verif.Byacc.Rd
open Spec Spec.YText
open Classical

def aHead (i : Nat) (prev : List Nat) (a : Alt) : List Nat :=
  if innerActions a.rhs = 0 ∧ a.lhs.key = prev then txt "\t|"
  else (if 3 < i + innerActions a.rhs then txt "\t;\n" else []) ++ a.lhs.key ++ txt " :\n\t"

noncomputable def aPrec (us : List Use) (a : Alt) : List Nat :=
  (precNamed a.rhs).elim [] fun x => txt " %prec " ++ x.key ++ precComment (levelOf us x.key) (kindOf us x.key)

noncomputable def aBody (us : List Use) (a : Alt) : List Nat :=
  (if rhsKeys 0 a.rhs = [] then txt " /*empty*/" else []) ++ (YText.symsOf a.rhs).flatMap (nSym us) ++ aPrec us a ++ [10]

noncomputable def nAlts (us : List Use) (i : Nat) (prev : List Nat) : List Alt → List Nat
  | [] => []
  | a :: as => aHead i prev a ++ aBody us a ++ nAlts us (i + innerActions a.rhs + 1) a.lhs.key as

theorem dollar_hidden (k : Nat) : dollar (hiddenKey k) = true := rfl

/-- the rules of actions are not printed -/
theorem nRules_hidden (us : List Use) (rest : List SRule) (m : Nat) : ∀ (i k : Nat) (prev : List Nat), (∀ j, k < j → prev ≠ hiddenKey j) →
    nRules us i prev (((List.range m).map fun i => (⟨hiddenKey (k + i + 1), [], .nowhere⟩ : SRule)) ++ rest) =
      nRules us (i + m) (if m = 0 then prev else hiddenKey (k + m)) rest := by
  induction m with
  | zero => intro i k prev _; rfl
  | succ m ih =>
    intro i k prev hp
    rw [List.range_succ_eq_map, List.map_cons, List.cons_append, nRules]
    have h1 : nHead i prev (hiddenKey (k + 0 + 1)) = [] := by
      unfold nHead
      rw [if_pos (fun h => hp (k + 0 + 1) (by omega) h.symm), dollar_hidden]
      simp
    have h2 : nBody us ⟨hiddenKey (k + 0 + 1), [], .nowhere⟩ = [] := by
      unfold nBody; rw [if_pos (dollar_hidden _)]
    rw [h1, h2, List.nil_append, List.nil_append, List.map_map]
    have e : ((fun i => (⟨hiddenKey (k + i + 1), [], .nowhere⟩ : SRule)) ∘ Nat.succ) = fun i => ⟨hiddenKey (k + 1 + i + 1), [], .nowhere⟩ := by
      funext i
      simp only [Function.comp_apply, Nat.succ_eq_add_one]
      rw [show k + (i + 1) + 1 = k + 1 + i + 1 by omega]
    rw [e, ih (i + 1) (k + 1) (hiddenKey (k + 0 + 1)) (fun j hj h => by have := hiddenKey_inj h; omega)]
    rw [show i + 1 + m = i + (m + 1) by omega, if_neg (show ¬ m + 1 = 0 by omega)]
    by_cases hm : m = 0
    · subst hm; rfl
    · rw [if_neg hm, show k + 1 + m = k + (m + 1) by omega]

theorem rhsKeys_filter_dollar (a : List El) (h : ∀ x, El.sym x ∈ a → dollar x.key = false) : ∀ k, (rhsKeys k a).filter (fun n => !dollar n) = YText.symsOf a := by
  induction a with
  | nil => intro k; rfl
  | cons e r ih =>
    have ih := ih fun x hx => h x (by simp [hx])
    intro k
    cases e with
    | sym x =>
      rw [rhsKeys, List.filter_cons, h x (by simp), ih k]
      simp [YText.symsOf]
    | prec x => rw [rhsKeys, ih k]; simp [YText.symsOf]
    | action b ps =>
      rw [rhsKeys]
      split
      · rename_i hp
        have : YText.symsOf r = [] := by
          unfold YText.symsOf precOnly at *
          rw [List.filterMap_eq_nil_iff]
          intro e he
          have := List.all_eq_true.1 hp e he
          cases e <;> simp_all
        simp [YText.symsOf] at this ⊢
        exact this
      · rw [List.filter_cons, dollar_hidden, ih (k + 1)]
        simp [YText.symsOf]

theorem rhsKeys_nil (a : List El) : ∀ k, rhsKeys k a = [] ↔ rhsKeys 0 a = [] := by
  induction a with
  | nil => intro k; simp [rhsKeys]
  | cons e r ih =>
    intro k
    cases e with
    | sym x => simp [rhsKeys]
    | prec x => simp only [rhsKeys]; exact ih k
    | action b ps => simp only [rhsKeys]; split <;> simp

/-- the rules -/
theorem nRules_alts (us : List Use) (alts : List Alt) (hd : ∀ a ∈ alts, dollar a.lhs.key = false ∧ ∀ x, El.sym x ∈ a.rhs → dollar x.key = false) :
    ∀ (i k : Nat) (prev : List Nat), (∀ j, k < j → prev ≠ hiddenKey j) → nRules us i prev (rulesFrom k alts) = nAlts us i prev alts := by
  induction alts with
  | nil => intros; rfl
  | cons a as ih =>
    intro i k prev hp
    obtain ⟨h1, h2⟩ := hd a (by simp)
    have hu : ∀ j, a.lhs.key ≠ hiddenKey j := fun j h => by rw [h, dollar_hidden] at h1; cases h1
    rw [rulesFrom, altRules, List.append_assoc, nRules_hidden us _ _ _ _ _ hp, List.singleton_append, nRules, nAlts,
      ih (fun b hb => hd b (by simp [hb])) _ _ _ (fun j _ => hu j)]
    congr 1
    congr 1
    · unfold nHead aHead
      dsimp only
      by_cases hm : innerActions a.rhs = 0
      · rw [if_pos hm, hm]
        by_cases he : a.lhs.key = prev
        · rw [if_neg (by simpa using he), if_pos ⟨rfl, he⟩]
        · simp [he, h1]
      · rw [if_neg hm, if_pos (hu _)]
        simp [hm, h1]
    · unfold nBody aBody
      rw [if_neg (by simp [h1])]
      dsimp only
      rw [rhsKeys_filter_dollar a.rhs h2]
      have e : nPrec us ((precNamed a.rhs).elim .rhs fun x => .of x.key) = aPrec us a := by
        unfold aPrec
        cases precNamed a.rhs <;> rfl
      rw [e]
      by_cases hn : rhsKeys 0 a.rhs = []
      · rw [if_neg (by simpa using (rhsKeys_nil a.rhs k).2 hn), if_pos hn]
        have := rhsKeys_filter_dollar a.rhs h2 0
        rw [hn] at this
        rw [← this]
        simp
      · rw [if_pos (fun h => hn ((rhsKeys_nil a.rhs k).1 h)), if_neg hn, List.nil_append]

end Verif.Byacc.Rd
