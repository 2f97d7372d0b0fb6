import Verif.Byacc.RuleList
import Verif.Spec.ByaccList
import Verif.Proofs.NakedText
import Verif.Props.C89
set_option autoImplicit false
namespace Verif.Byacc.Rd
open Spec Spec.YText

variable {lp : Bool} {F : File} {acts : List (Nat × List Nat)} {o : FileOut}

/-- the symbol of `%prec` -/
def precName? : PrecBy → Option (List Nat)
  | .of n => some n
  | _ => none

/-- a rule as it is listed -/
def listed (r : SRule) : YList.PRule := ⟨r.lhs, r.rhs, precName? r.prec⟩

theorem listBody_eq (hm : Means lp F acts o) (x : NakedIn) (i : Nat) (r : SRule) (hr : ∀ y ∈ r.rhs, y ∈ names F.uses)
    (hb : x.buckets.getD i none = fileBucket F.uses r.prec) :
    listBody o x i (r.rhs.map (symNumber F.uses F.goal)) =
      r.rhs.flatMap (fun X => YList.txt " " ++ X) ++ (match precName? r.prec with | some p => YList.txt " %prec " ++ p | none => []) ++ YList.txt "\n" := by
  unfold listBody
  rw [hb, List.flatMap_map]
  congr 1
  congr 1
  · refine List.flatMap_congr fun y hy => ?_
    rw [symbolName_number hm (hr y hy)]
    rfl
  · cases r.prec <;> rfl

theorem listRules_eq (hm : Means lp F acts o) (x : NakedIn) (rs : List SRule) : ∀ (i k spacing : Nat) (prev : Option (List Nat)), 3 ≤ i →
    (∀ r ∈ rs, r.lhs ∈ names F.uses ∧ ∀ y ∈ r.rhs, y ∈ names F.uses) →
    o.gram.ritem.drop k = blocks i (rs.map (numRule F.uses F.goal)) →
    (∀ (j : Nat) (h : j < rs.length), o.gram.lhs (i + j) = symNumber F.uses F.goal rs[j].lhs ∧ x.buckets.getD (i + j) none = fileBucket F.uses rs[j].prec) →
    (∀ n ∈ names F.uses, symNumber F.uses F.goal n = o.gram.lhs (i - 1) ↔ prev = some n) → (∀ n, prev = some n → spacing = n.length + 1) →
    listRules o x i k spacing rs.length = YList.rulesFrom (i - 2) prev (rs.map listed) := by
  induction rs with
  | nil => intros; rfl
  | cons r rs ih =>
    intro i k spacing prev hi hn hd hl hp hs
    have hr := hn r (by simp)
    obtain ⟨hl0, hb0⟩ := hl 0 (by simp)
    simp only [Nat.add_zero, List.getElem_cons_zero] at hl0 hb0
    rw [List.map_cons, blocks] at hd
    have hrhs : ((o.gram.ritem.drop k).takeWhile (fun y => decide (0 ≤ y))).map Int.toNat = r.rhs.map (symNumber F.uses F.goal) := by
      rw [hd]
      have aux : ∀ (l : List Nat) (rest : List Int), ((l.map (fun x : Nat => (x : Int)) ++ (-(i : Int)) :: rest).takeWhile (fun y => decide (0 ≤ y))).map Int.toNat = l := by
        intro l rest
        induction l with
        | nil => rw [List.map_nil, List.nil_append, List.takeWhile_cons, if_neg (by simp; omega)]; rfl
        | cons y l ih => rw [List.map_cons, List.cons_append, List.takeWhile_cons, if_pos (by simp), List.map_cons, ih]; rfl
      exact aux _ _
    rw [List.length_cons, listRules, List.map_cons, YList.rulesFrom]
    simp only [hrhs]
    rw [listBody_eq hm x i r hr.2 hb0]
    have hpr := hp r.lhs hr.1
    have hhead : (listHead o i spacing).1 = (if (prev == some (listed r).lhs) = true then
          YList.column 4 (YList.num (i - 2)) ++ YList.txt "  " ++ List.replicate ((listed r).lhs.length + 1) 32 ++ YList.txt "|"
        else (if i - 2 = 0 then [] else YList.txt "\n") ++ YList.column 4 (YList.num (i - 2)) ++ YList.txt "  " ++ (listed r).lhs ++ YList.txt " :") ∧
        (listHead o i spacing).2 = r.lhs.length + 1 := by
      unfold listHead
      rw [hl0, symbolName_number hm hr.1]
      by_cases hc : prev = some r.lhs
      · have he : (prev == some (listed r).lhs) = true := by rw [hc]; exact beq_self_eq_true _
        rw [if_neg (by rw [hpr.2 hc]; simp), if_pos he, hs _ hc]
        exact ⟨rfl, rfl⟩
      · have he : ¬ (prev == some (listed r).lhs) = true := by rw [beq_iff_eq]; exact hc
        rw [if_pos (fun h => hc (hpr.1 h)), if_neg he, if_pos (show i ≠ 2 by omega), if_neg (show ¬ i - 2 = 0 by omega)]
        exact ⟨rfl, rfl⟩
    rw [hhead.1, hhead.2, YList.rule]
    have hrest := ih (i + 1) (k + (r.rhs.map (symNumber F.uses F.goal)).length + 1) (r.lhs.length + 1) (some r.lhs) (by omega) (fun q hq => hn q (by simp [hq])) ?_ ?_ ?_ ?_
    · rw [hrest, show i + 1 - 2 = i - 2 + 1 by omega]
      simp only [List.append_assoc]
      rfl
    · rw [show k + (r.rhs.map (symNumber F.uses F.goal)).length + 1 = k + ((r.rhs.map (symNumber F.uses F.goal)).length + 1) by omega, ← List.drop_drop, hd]
      have : (numRule F.uses F.goal r).2 = r.rhs.map (symNumber F.uses F.goal) := rfl
      rw [this]
      have aux : ∀ (l : List Nat) (c : Int) (rest : List Int), (l.map (fun x : Nat => (x : Int)) ++ c :: rest).drop (l.length + 1) = rest := by
        intro l c rest
        induction l with
        | nil => rfl
        | cons y l ih => exact ih
      exact aux _ _ _
    · intro j hj
      have := hl (j + 1) (by simpa using hj)
      simpa [Nat.add_assoc, Nat.add_comm 1 j] using this
    · intro n hm'
      rw [show i + 1 - 1 = i by omega, hl0, Option.some.injEq]
      exact ⟨fun h => (number_inj _ _ hm' hr.1 h).symm, fun h => by rw [h]⟩
    · intro n e; cases e; rfl

theorem packs_final (lp : Bool) (F : File) (acts : List (Nat × List Nat)) :
    Packs (finalOut lp F acts).gram (augCFG ((tokenNames F.uses).length + 1) (F.rules.map (numRule F.uses F.goal))) := by
  have := packs_packGrammar lp ((tokenNames F.uses).length + 1) ((names F.uses).length + 2) (F.rules.map (srcRule F.uses F.goal))
  have e : (F.rules.map (srcRule F.uses F.goal)).map SrcRule.rule = F.rules.map (numRule F.uses F.goal) := by
    rw [List.map_map]
    refine List.map_congr_left fun r _ => ?_
    simp only [Function.comp_apply, SrcRule.rule, srcRule, numRule, symBucket, List.map_map]
    rfl
  rw [e] at this
  exact this

/-- the list of the rules, for a file -/
theorem ruleList_eq (lp : Bool) {F : File} {t : List Nat} (hF : FileAt F t) (hok : F.Ok) (hl : IsLhs F.uses F.goal) (acts : List (Nat × List Nat)) :
    ruleList (finalOut lp F acts) (finalNaked F) = YList.rules F.goal (F.rules.map listed) := by
  have hm := means_final lp hF hok hl acts
  have hpk := packs_final lp F acts
  generalize ho : finalOut lp F acts = o at *
  have hrn : ∀ r ∈ F.rules, r.lhs ∈ names F.uses ∧ ∀ y ∈ r.rhs, y ∈ names F.uses := by
    intro r hr
    obtain ⟨a, -, b, -⟩ := rules_names hF r hr
    exact ⟨a, b⟩
  have hgt : ¬ Terminal F.uses F.goal := fun h => h.1 hl
  have hgm := goal_mem F
  have hgn : symNumber F.uses F.goal F.goal = (tokenNames F.uses).length + 2 := by
    unfold symNumber; rw [if_neg hgt, if_pos rfl]
  have hacc : symbolName o ((tokenNames F.uses).length + 1) = Byacc.str "$accept" := by
    unfold symbolName
    rw [if_neg (by omega), if_pos hm.tokens.1.symm]
  have hlhs2 : o.gram.lhs 2 = (tokenNames F.uses).length + 1 := hpk.lhs 0 _ _ rfl
  unfold ruleList
  rw [hm.nrules, show F.rules.length + 3 - 2 = F.rules.length + 1 by omega, listRules]
  have hflat := hpk.flat
  have e1 : ((o.gram.ritem.drop 1).takeWhile (fun y => decide (0 ≤ y))).map Int.toNat = [(tokenNames F.uses).length + 2, 0] := by
    rw [hflat]
    change (([(((tokenNames F.uses).length + 1 + 1 : Nat) : Int), ((0 : Nat) : Int)] ++ (-((2 : Nat) : Int)) :: blocks 3 (F.rules.map (numRule F.uses F.goal))).takeWhile
      (fun y => decide (0 ≤ y))).map Int.toNat = _
    rw [List.cons_append, List.takeWhile_cons, if_pos (by simp; omega), List.cons_append, List.takeWhile_cons, if_pos (by simp), List.nil_append, List.takeWhile_cons,
      if_neg (by simp)]
    rfl
  simp only [e1]
  have e2 : (listHead o 2 0).1 = YList.column 4 (YList.num 0) ++ YList.txt "  " ++ YList.txt "$accept" ++ YList.txt " :" := by
    unfold listHead
    rw [if_pos (by rw [hlhs2, show 2 - 1 = 1 from rfl, hpk.low.2]; omega), hlhs2, hacc]
    rfl
  have e3 : listBody o (finalNaked F) 2 [(tokenNames F.uses).length + 2, 0] = YList.txt " " ++ F.goal ++ YList.txt " $end\n" := by
    unfold listBody
    rw [List.flatMap_cons, List.flatMap_cons, List.flatMap_nil, ← hgn, symbolName_number hm hgm]
    have : symbolName o 0 = Rd.str "$end" := rfl
    rw [this, List.append_nil]
    simp only [List.append_assoc, List.cons_append]
    rfl
  rw [e2, e3, YList.rules]
  congr 1
  · rw [YList.rule]
    simp only [List.flatMap_cons, List.flatMap_nil, List.append_assoc, List.append_nil]
    rfl
  · refine listRules_eq hm (finalNaked F) F.rules 3 4 _ none (by omega) hrn ?_ ?_ ?_ (by intro n e; cases e)
    · rw [hflat]
      simp [augCFG, blocks]
    · intro j hj
      refine ⟨?_, ?_⟩
      · have := hpk.lhs (j + 1) (numRule F.uses F.goal F.rules[j]).1 (numRule F.uses F.goal F.rules[j]).2 (by
          simp [augCFG, List.getElem?_eq_getElem hj])
        rw [show 3 + j = j + 1 + 2 by omega, this]; rfl
      · unfold finalNaked
        rw [show 3 + j = j + 1 + 1 + 1 by omega]
        simp [List.getElem?_eq_getElem hj]
    · intro n hn
      rw [show 3 - 1 = 2 from rfl, hlhs2]
      exact ⟨fun h => absurd h (number_token F.uses F.goal hn).2.2, nofun⟩

end Verif.Byacc.Rd
