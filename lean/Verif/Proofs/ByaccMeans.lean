import Verif.Spec.ByaccMeans
import Verif.Proofs.ByaccUnique
import Verif.Proofs.ByaccMeaningRead
/-
Auxiliary facts: what byacc's reader leaves behind says what the file says.
-/
set_option autoImplicit false
namespace Verif.Byacc.Rd
open Spec.YText
open Classical

theorem level_nonneg (us : List Use) (n : List Nat) : 0 ≤ levelOf us n := by
  unfold levelOf
  cases Spec.YText.precOf us n with
  | none => exact Int.le_refl 0
  | some p => exact Int.natCast_nonneg _

theorem error_terminal {F : File} {t : List Nat} (hF : FileAt F t) (hok : F.Ok) : Terminal F.uses (txt "error") :=
  ⟨fun h => hok.2 _ h (.inl rfl), token_notHidden hF _ (.inl rfl)⟩

theorem filter_buckets (us : List Use) (goal : List Nat) (l : List (List Nat)) :
    (l.map (symBucket us goal)).filter (·.isTerm) = (l.filter fun n => decide (Terminal us n)).map (symBucket us goal) := by
  rw [List.filter_map]; rfl

theorem find_filter {α : Type} (p q : α → Bool) (l : List α) : (l.filter p).find? q = l.find? fun x => p x && q x := by
  induction l with
  | nil => rfl
  | cons x l ih =>
    rw [List.filter_cons]
    cases hp : p x with
    | false => rw [if_neg (by simp), ih, List.find?_cons_of_neg (by simp [hp])]
    | true =>
      rw [if_pos rfl]
      cases hq : q x with
      | false => rw [List.find?_cons_of_neg (by simp [hq]), List.find?_cons_of_neg (by simp [hq]), ih]
      | true => rw [List.find?_cons_of_pos hq, List.find?_cons_of_pos (by simp [hp, hq])]

theorem means_rprec (lp : Bool) (us : List Use) (goal : List Nat) (nt ns : Nat) (rs : List SRule) (k : Nat) (r : SRule) (hr : rs[k]? = some r) :
    let g := packGrammar lp nt ns ((rs.map (srcRule us goal)).map SrcRule.p) (encPitem (rs.map (srcRule us goal)))
    g.rprec[k + 3]? = some ((precOfRule lp us r).elim 0 (levelOf us)) ∧
    ((precOfRule lp us r).elim 0 (levelOf us) ≠ 0 → g.rassoc[k + 3]? = some ((precOfRule lp us r).elim .TOKEN (kindOf us))) := by
  intro g
  obtain ⟨hk, rfl⟩ := List.getElem?_eq_some_iff.1 hr
  have hk' : k < (rs.map (srcRule us goal)).length := by rw [List.length_map]; exact hk
  have e : (rs.map (srcRule us goal))[k] = srcRule us goal rs[k] := by rw [List.getElem_map]
  have hx := C23_explicit lp nt ns (rs.map (srcRule us goal)) k hk'
  have hy := C23_yacc nt ns (rs.map (srcRule us goal)) k hk'
  have hz := C23_lemon nt ns (rs.map (srcRule us goal)) k hk'
  rw [e] at hx hy hz
  have hu : (srcRule us goal rs[k]).rprec = ruleLevel us rs[k].prec := rfl
  have hv : (srcRule us goal rs[k]).rassoc = ruleKind us rs[k].prec := rfl
  have hw : (srcRule us goal rs[k]).rhs = rs[k].rhs.map (symBucket us goal) := rfl
  rw [hu, hv] at hx
  rw [hu, hw] at hy hz
  unfold precOfRule
  cases hp : rs[k].prec with
  | of n =>
    rw [hp] at hx
    have hne : ruleLevel us (.of n) ≠ UNDEFINED := by
      have := level_nonneg us n
      change levelOf us n ≠ -1; omega
    have := Prod.mk.inj (hx hne)
    exact ⟨this.1, fun _ => this.2⟩
  | nowhere =>
    rw [hp] at hx
    have := Prod.mk.inj (hx (by change (0 : Int) ≠ -1; omega))
    exact ⟨this.1, fun _ => this.2⟩
  | rhs =>
    rw [hp] at hy hz
    have hy := hy rfl
    have hz := hz rfl
    simp only
    cases lp with
    | false =>
      have := Prod.mk.inj hy
      unfold yaccRulePrec at this
      rw [filter_buckets, List.getLast?_map] at this
      rw [if_neg (by simp)]
      cases hl : (rs[k].rhs.filter fun n => decide (Terminal us n)).getLast? with
      | none => rw [hl] at this; exact ⟨this.1, fun _ => this.2⟩
      | some n => rw [hl] at this; exact ⟨this.1, fun _ => this.2⟩
    | true =>
      rw [if_pos rfl]
      have e2 : lemonRulePrec (rs[k].rhs.map (symBucket us goal)) =
          (rs[k].rhs.find? fun n => decide (Terminal us n ∧ levelOf us n ≠ 0)).map fun n => (levelOf us n, kindOf us n) := by
        unfold lemonRulePrec
        rw [filter_buckets, List.find?_map, Option.map_map, find_filter]
        congr 1
        congr 1
        funext n
        simp only [Function.comp, symBucket, Bool.decide_and, bne]
        congr 1
        by_cases h : levelOf us n = 0 <;> simp [h]
      rw [e2] at hz
      cases hl : rs[k].rhs.find? fun n => decide (Terminal us n ∧ levelOf us n ≠ 0) with
      | none =>
        rw [hl] at hz
        exact ⟨hz.2 rfl, fun h => absurd rfl h⟩
      | some n =>
        rw [hl] at hz
        have := Prod.mk.inj (hz.1 _ _ rfl)
        exact ⟨this.1, fun _ => this.2⟩

theorem at_number (us : List Use) (goal n : List Nat) (hn : n ∈ names us) {α : Type} (x y : α) (f : List Nat → α) :
    (x :: (tokenNames us).map f ++ y :: (goal :: otherNames us goal).map f)[symNumber us goal n]? = some (f n) := by
  have get : ∀ ks : List (List Nat), n ∈ ks → ks[ks.idxOf n]? = some n := by
    intro ks h
    rw [List.getElem?_eq_getElem (List.idxOf_lt_length_iff.2 h), List.getElem_idxOf]
  unfold symNumber
  by_cases ht : Terminal us n
  · rw [if_pos ht]
    have hm : n ∈ tokenNames us := List.mem_filter.2 ⟨hn, by simpa using ht⟩
    rw [List.cons_append, List.getElem?_cons_succ, List.getElem?_append_left (by rw [List.length_map]; exact List.idxOf_lt_length_iff.2 hm),
      List.getElem?_map, get _ hm]
    rfl
  · rw [if_neg ht]
    by_cases hg : n = goal
    · subst hg
      rw [if_pos rfl, List.getElem?_append_right (by simp), List.length_cons, List.length_map,
        show (tokenNames us).length + 2 - ((tokenNames us).length + 1) = 1 by omega]
      rfl
    · rw [if_neg hg]
      have hm : n ∈ otherNames us goal := List.mem_filter.2 ⟨hn, by simpa using ⟨ht, hg⟩⟩
      rw [List.getElem?_append_right (by simp; omega), List.length_cons, List.length_map,
        show (tokenNames us).length + 3 + (otherNames us goal).idxOf n - ((tokenNames us).length + 1) = (otherNames us goal).idxOf n + 2 by omega]
      rw [List.getElem?_cons_succ, List.map_cons, List.getElem?_cons_succ, List.getElem?_map, get _ hm]
      rfl

theorem means_final (lp : Bool) {F : File} {t : List Nat} (hF : FileAt F t) (hok : F.Ok) (hl : IsLhs F.uses F.goal) (acts : List (Nat × List Nat)) :
    Means lp F acts (finalOut lp F acts) := by
  have hmap : (finalOut lp F acts).syms.map BSym.name = names F.uses := by
    change ((names F.uses).map (finalSym F.uses)).map BSym.name = _
    rw [List.map_map]; exact List.map_id _
  have hsym : ∀ b ∈ (finalOut lp F acts).syms, b = finalSym F.uses b.name := by
    intro b hb
    obtain ⟨n, hn, rfl⟩ := List.mem_map.1 hb
    rfl
  have hgm : F.goal ∈ names F.uses := goal_mem F
  have hnt : (packSymbols (psyms F.uses) ((names F.uses).idxOf F.goal)).ntokens = (tokenNames F.uses).length + 1 := by
    change ((psyms F.uses).filter (·.isTerm)).length + 1 = _
    rw [filter_psyms, List.length_map]
  refine
    { syms := hmap
      cls := ?_
      tag := fun b hb => by rw [hsym b hb]; rfl
      goal := ?_
      tokens := ⟨hnt, rfl⟩
      count := ⟨by change (psyms F.uses).length + 2 = _; unfold psyms; rw [List.length_map], rfl⟩
      number := ?_
      codes := codes_of F.uses F.goal (error_terminal hF hok)
      eof := rfl
      rules := ?_
      nrules := ?_
      sprec := fun n hn => ⟨at_number F.uses F.goal n hn 0 0 _, at_number F.uses F.goal n hn Assoc.TOKEN Assoc.TOKEN (kindOf F.uses)⟩
      rprec := fun k r hr => means_rprec lp F.uses F.goal _ _ F.rules k r hr
      sr := rfl
      rr := rfl
      acts := rfl
      text := rfl }
  · intro b hb
    rw [hsym b hb]
    unfold finalSym Terminal
    simp only
    by_cases h1 : IsLhs F.uses b.name
    · simp [h1]
    · rw [if_neg h1]
      cases h2 : hiddenOf F.uses b.name <;> simp [h1]
  · change (((names F.uses).map (finalSym F.uses))[(names F.uses).idxOf F.goal]?).map BSym.name = _
    rw [List.getElem?_map, List.getElem?_eq_getElem (List.idxOf_lt_length_iff.2 hgm), List.getElem_idxOf]
    rfl
  · intro i b hb
    change ((names F.uses).map (finalSym F.uses))[i]? = _ at hb
    rw [List.getElem?_map, Option.map_eq_some_iff] at hb
    obtain ⟨n, hn, rfl⟩ := hb
    have := index_number F.uses F.goal n hgm (List.mem_of_getElem? hn)
    rw [idxOf_getElem _ (names_nodup _) i n hn] at this
    exact this
  · have := C22_readback lp ((tokenNames F.uses).length + 1) ((names F.uses).length + 2) (F.rules.map (srcRule F.uses F.goal))
    rw [List.length_map] at this
    refine this.trans ?_
    rw [List.map_map]
    congr 1
    refine List.map_congr_left ?_
    intro r _
    simp only [Function.comp, SrcRule.rule, srcRule, List.map_map, symBucket]
    rfl
  · have := (packRules_enc lp (F.rules.map (srcRule F.uses F.goal)) 3 4).2.1
    change (packGrammar lp _ _ ((F.rules.map (srcRule F.uses F.goal)).map SrcRule.p) (encPitem (F.rules.map (srcRule F.uses F.goal)))).rlhs.length = _
    have := congrArg List.length this
    simpa [packGrammar, encPitem] using this
end Verif.Byacc.Rd
