import Verif.Proofs.ByaccMeaningEnd
/-
Auxiliary facts: what `reader` returns.
-/
set_option autoImplicit false
namespace Verif.Byacc.Rd
open Spec.YText
open Classical

theorem file_named {F : File} {t : List Nat} (hF : FileAt F t) : (∀ d ∈ F.all, Decl.named d) ∧ (∃ t u, SymAt (.name F.first) t u) ∧ Named F.toks := by
  obtain ⟨u, v, w, hd, he, ⟨z, hf, -, -⟩, hr⟩ := hF
  refine ⟨?_, ⟨_, _, hf⟩, rtoksAt_named hr⟩
  intro d hdm
  unfold File.all at hdm
  rcases List.mem_append.1 hdm with h | h
  · exact declsAt_named hd d h
  · exact earlyAt_named he d h

theorem hiddenOf_some {us : List Use} {n : List Nat} (h : hiddenOf us n ≠ none) : ∃ k, n = hiddenKey k := by
  by_contra hc
  push Not at hc
  exact h (hiddenOf_none us n hc)

theorem lhs_notHidden {F : File} {t : List Nat} (hF : FileAt F t) (n : List Nat) (h : IsLhs F.uses n) : hiddenOf F.uses n = none := by
  refine hiddenOf_none _ _ ?_
  obtain ⟨-, ⟨t, u, hf⟩, hN⟩ := file_named hF
  rcases (isLhs_file F n).1 h with rfl | ⟨x, hx, rfl⟩
  · exact name_notHidden hf
  · obtain ⟨t, u, hx⟩ := hN x (.inr (.inl hx))
    exact fun k => symAt_notHidden hx k

theorem token_notHidden {F : File} {t : List Nat} (hF : FileAt F t) (n : List Nat) (h : IsToken F.uses n) : hiddenOf F.uses n = none := by
  refine hiddenOf_none _ _ ?_
  obtain ⟨hd, ⟨t, u, hf⟩, hN⟩ := file_named hF
  rcases h with rfl | ⟨v, hv, h1, ⟨x, a, level, tag, code, rfl⟩ | ⟨s, hs⟩⟩
  · exact fun k => Ne.symm (error_notHidden k)
  · unfold File.uses at hv
    rcases List.mem_append.1 hv with hv | hv
    · obtain ⟨t, u, hx⟩ := declUses_written _ _ hd _ hv
      intro k hk
      exact symAt_notHidden hx k (h1.trans hk)
    · rcases List.mem_cons.1 hv with hv | hv
      · cases hv
      · exact absurd (ruleUses_inRule _ _ _ _ _ hv) (by simp [Use.inRule])
  · rw [(lit_key _ _ _ hs).1]
    exact lit_notHidden s

theorem goal_notToken {F : File} {t : List Nat} (hF : FileAt F t) (hok : F.Ok) : (∃ t u, SymAt (.name F.goal) t u) ∧ ¬ IsToken F.uses F.goal := by
  obtain ⟨hd, hf, hN⟩ := file_named hF
  unfold File.goal
  cases hs : startOf F.all with
  | none => exact ⟨hf, hok.2 _ ((isLhs_file F _).2 (.inl rfl))⟩
  | some n =>
    obtain ⟨⟨t, u, h1⟩, h2⟩ := startOf_notToken F.all hok.1 hd n hs
    refine ⟨⟨t, u, h1⟩, fun h => h2 ?_⟩
    refine isToken_append _ _ ?_ _ (name_notLit h1) h
    intro u hu
    rcases List.mem_cons.1 hu with rfl | hu
    · trivial
    · exact ruleUses_inRule _ _ _ _ u hu

theorem goal_mem (F : File) : F.goal ∈ names F.uses := by
  unfold File.goal
  cases hs : startOf F.all with
  | none => exact (mem_names _ _).2 (.inr ⟨.lhs (.name F.first), by unfold File.uses; simp, rfl⟩)
  | some n =>
    have := startOf_mem F.all n hs
    rw [mem_names] at this ⊢
    unfold File.uses
    rcases this with h | ⟨u, h1, h2⟩
    · exact .inl h
    · exact .inr ⟨u, by simp [h1], h2⟩

/-- a symbol at the end -/
noncomputable def finalSym (us : List Use) (n : List Nat) : BSym :=
  { name := n
    cls := if IsLhs us n then .NONTERM else if (hiddenOf us n).isSome then .ACTION else .TERM
    value := (codeGiven us n).elim UNDEFINED fun c => (c : Int)
    prec := levelOf us n
    assoc := kindOf us n
    tag := tagOf us n }

theorem cls_final {F : File} {t : List Nat} (hF : FileAt F t) (hok : F.Ok) (n : List Nat) :
    (if (symOf F.uses n).cls = .UNKNOWN then { symOf F.uses n with cls := .TERM } else symOf F.uses n) = finalSym F.uses n := by
  have key : ∀ c : Cls, (if c = .UNKNOWN then Cls.TERM else c) = (finalSym F.uses n).cls →
      c = (symOf F.uses n).cls → (if (symOf F.uses n).cls = .UNKNOWN then { symOf F.uses n with cls := .TERM } else symOf F.uses n) = finalSym F.uses n := by
    rintro c h rfl
    split
    · rename_i hc
      rw [if_pos hc] at h
      rw [h]; rfl
    · rename_i hc
      rw [if_neg hc] at h
      have : symOf F.uses n = { symOf F.uses n with cls := (symOf F.uses n).cls } := rfl
      rw [this, h]; rfl
  refine key _ ?_ rfl
  unfold symOf finalSym
  simp only
  by_cases ht : IsToken F.uses n
  · rw [if_pos ht, if_neg (by simp), if_neg (fun h => hok.2 n h ht), token_notHidden hF n ht]; simp
  · rw [if_neg ht]
    by_cases hl : IsLhs F.uses n
    · rw [if_pos hl, if_pos hl]; simp
    · rw [if_neg hl, if_neg hl]
      by_cases hh : (hiddenOf F.uses n).isSome
      · rw [if_pos hh, if_pos hh]; simp
      · rw [if_neg hh, if_neg hh]; simp

theorem check_iff {F : File} {t : List Nat} (hF : FileAt F t) (hok : F.Ok) (tags : Bool) (acts : List (Nat × List Nat)) (syms : List BSym) :
    checkSymbols (fileSt F tags acts) = .ok syms ↔ IsLhs F.uses F.goal ∧ syms = (names F.uses).map (finalSym F.uses) := by
  have hg : ((table F.uses)[(names F.uses).idxOf F.goal]?).map BSym.cls = some (symOf F.uses F.goal).cls := by
    rw [table_get _ _ (goal_mem F)]; rfl
  obtain ⟨⟨t', u', hnm⟩, hnt⟩ := goal_notToken hF hok
  have hh : hiddenOf F.uses F.goal = none := hiddenOf_none _ _ (name_notHidden hnm)
  have hc : (symOf F.uses F.goal).cls = if IsLhs F.uses F.goal then .NONTERM else .UNKNOWN := by
    unfold symOf
    simp only
    rw [if_neg hnt, hh]; simp
  have hm : (table F.uses).map (fun b => if b.cls = .UNKNOWN then { b with cls := .TERM } else b) = (names F.uses).map (finalSym F.uses) := by
    unfold table
    rw [List.map_map]
    refine List.map_congr_left ?_
    intro n _
    exact cls_final hF hok n
  unfold checkSymbols fileSt
  simp only
  rw [hg, hc, hm]
  by_cases hl : IsLhs F.uses F.goal
  · rw [if_pos hl, if_neg (by decide)]
    simp [hl, eq_comm]
  · rw [if_neg hl, if_pos (by decide)]
    simp [hl]

/-- the result of reading a file -/
noncomputable def finalOut (lp : Bool) (F : File) (acts : List (Nat × List Nat)) : FileOut :=
  { syms := (names F.uses).map (finalSym F.uses)
    goal := (names F.uses).idxOf F.goal
    num := packSymbols (psyms F.uses) ((names F.uses).idxOf F.goal)
    gram := packGrammar lp ((tokenNames F.uses).length + 1) ((names F.uses).length + 2) ((F.rules.map (srcRule F.uses F.goal)).map SrcRule.p)
      (encPitem (F.rules.map (srcRule F.uses F.goal)))
    prec := ⟨0 :: (tokenNames F.uses).map (levelOf F.uses) ++ 0 :: (F.goal :: otherNames F.uses F.goal).map (levelOf F.uses),
      .TOKEN :: (tokenNames F.uses).map (kindOf F.uses) ++ .TOKEN :: (F.goal :: otherNames F.uses F.goal).map (kindOf F.uses)⟩
    sr := (expectOf F.all).elim (-1) fun n => (n : Int)
    rr := (expectRROf F.all).elim (-1) fun n => (n : Int)
    acts := acts
    out := textOf F.all }

theorem finalSym_term (us : List Use) (n : List Nat) : ((finalSym us n).cls == .TERM) = decide (Terminal us n) := by
  unfold finalSym Terminal
  simp only
  by_cases h : IsLhs us n
  · simp [h]
  · rw [if_neg h]
    by_cases hh : (hiddenOf us n).isSome
    · rw [if_pos hh]
      have : hiddenOf us n ≠ none := by rw [← Option.isSome_iff_ne_none]; exact hh
      simp [this]
    · rw [if_neg hh]
      have : hiddenOf us n = none := by simpa using hh
      simp [h, this]

theorem eraseIdx_filter (ks : List (List Nat)) (hn : ks.Nodup) (g : List Nat) (P : List Nat → Prop) :
    (ks.eraseIdx (ks.idxOf g)).filter (fun n => decide (P n)) = ks.filter (fun n => decide (P n ∧ n ≠ g)) := by
  induction ks with
  | nil => rfl
  | cons m ks ih =>
    rw [List.nodup_cons] at hn
    by_cases hm : m = g
    · subst hm
      rw [List.idxOf_cons_self, List.eraseIdx_cons_zero, List.filter_cons_of_neg (by simp)]
      refine List.filter_congr ?_
      intro n hn'
      have : n ≠ m := fun e => hn.1 (e ▸ hn')
      simp [this]
    · rw [List.idxOf_cons_ne _ hm, List.eraseIdx_cons_succ, List.filter_cons, List.filter_cons, ih hn.2]
      simp [hm]

theorem pack_final {F : File} (tags : Bool) (acts : List (Nat × List Nat)) (lp : Bool) (hl : IsLhs F.uses F.goal) :
    packFile lp (fileSt F tags acts) ((names F.uses).map (finalSym F.uses)) ((names F.uses).idxOf F.goal) = finalOut lp F acts := by
  have hps : (((names F.uses).map (finalSym F.uses)).map fun b => (⟨b.cls == .TERM, b.value⟩ : PSym)) = psyms F.uses := by
    unfold psyms
    rw [List.map_map]
    refine List.map_congr_left ?_
    intro n _
    simp only [Function.comp_apply, finalSym_term]
    rfl
  have hnt : (packSymbols (psyms F.uses) ((names F.uses).idxOf F.goal)).ntokens = (tokenNames F.uses).length + 1 := by
    unfold packSymbols
    simp only [filter_psyms, List.length_map]
  have hns : (packSymbols (psyms F.uses) ((names F.uses).idxOf F.goal)).nsyms = (names F.uses).length + 2 := by
    unfold packSymbols psyms
    simp only [List.length_map]
  have hget : ∀ n ∈ names F.uses, ((names F.uses).map (finalSym F.uses))[(names F.uses).idxOf n]? = some (finalSym F.uses n) := by
    intro n hn
    have h1 : (names F.uses).idxOf n < (names F.uses).length := List.idxOf_lt_length_iff.2 hn
    rw [List.getElem?_map, List.getElem?_eq_getElem h1, List.getElem_idxOf h1]; rfl
  have hbk : ∀ n ∈ names F.uses, bucketOf ((names F.uses).map (finalSym F.uses)) (packSymbols (psyms F.uses) ((names F.uses).idxOf F.goal)) ((names F.uses).idxOf n) =
      symBucket F.uses F.goal n := by
    intro n hn
    unfold bucketOf symBucket
    rw [hget n hn, List.getD_eq_getElem?_getD, index_number F.uses F.goal n (goal_mem F) hn]
    simp only [Option.getD_some, Option.elim_some, finalSym_term]
    rfl
  obtain ⟨done, hH, hR, hG⟩ := file_rules F
  have hhid : ∀ j, 1 ≤ j → j ≤ (fileRd F).gensym → hiddenKey j ∈ names F.uses := fun j a b => (file_hidden F j a b).1
  obtain ⟨l1, l2⟩ := C50_layout (fun y => symBucket F.uses F.goal (nameAt (names F.uses) y)) (fun p => ruleLevel F.uses (precAtN (names F.uses) p))
    (fun p => ruleKind F.uses (precAtN (names F.uses) p)) (endRule (fileRd F)) done hH
  have hrs : (done.map fun r => (⟨symBucket F.uses F.goal (nameAt (names F.uses) r.lhs), r.rhs.map (fun y => symBucket F.uses F.goal (nameAt (names F.uses) y)),
      ruleLevel F.uses (precAtN (names F.uses) r.prec), ruleKind F.uses (precAtN (names F.uses) r.prec)⟩ : SrcRule)) = F.rules.map (srcRule F.uses F.goal) := by
    rw [← hR, List.map_map]
    refine List.map_congr_left ?_
    intro r _
    simp only [Function.comp_apply, srcRule, ruleAt, List.map_map]
    rfl
  simp only [hrs] at l1 l2
  obtain ⟨h1, h2, h3⟩ := hH
  have hpit : ((endRule (fileRd F)).pitem.reverse.map fun x => x.map fun y => bucketOf ((names F.uses).map (finalSym F.uses))
      (packSymbols (psyms F.uses) ((names F.uses).idxOf F.goal)) (posOf (gensOf F.uses (fileRd F).gensym) y)) = encPitem (F.rules.map (srcRule F.uses F.goal)) := by
    rw [← l1]
    refine List.map_congr_left ?_
    intro x hx
    cases x with
    | none => rfl
    | some y =>
      have hy : RGood F.uses (fileRd F).gensym y := by
        rw [h1] at hx
        unfold encRR at hx
        simp only [List.mem_append, List.mem_cons, reduceCtorEq, List.not_mem_nil, or_false, false_or, List.mem_flatMap, List.mem_map, Option.some.injEq,
          exists_eq_right] at hx
        obtain ⟨r, hr, hy⟩ := hx
        exact (hG r hr).2.1 y hy
      simp only [Option.map_some]
      rw [hy.pos, hbk _ (hy.mem hhid)]
  have hrul : ((endRule (fileRd F)).plhs.reverse.zip (endRule (fileRd F)).rprec.reverse).map (fun p =>
      (⟨bucketOf ((names F.uses).map (finalSym F.uses)) (packSymbols (psyms F.uses) ((names F.uses).idxOf F.goal)) (posOf (gensOf F.uses (fileRd F).gensym) p.1),
        (precOf ((names F.uses).map (finalSym F.uses)) p.2).1, (precOf ((names F.uses).map (finalSym F.uses)) p.2).2⟩ : PRule)) =
      (F.rules.map (srcRule F.uses F.goal)).map SrcRule.p := by
    rw [← l2, h2, h3, List.zip_map', List.map_map]
    have : ∀ (l : List RR) (f : RSym → RPrec → PRule), List.zipWith f (l.map RR.lhs) (l.map RR.prec) = l.map fun r => f r.lhs r.prec := by
      intro l f
      induction l with
      | nil => rfl
      | cons r l ih => simp [ih]
    rw [this]
    refine List.map_congr_left ?_
    intro r hr
    obtain ⟨g1, g2, g3⟩ := hG r hr
    simp only [Function.comp_apply]
    rw [g1.pos, hbk _ (g1.mem hhid)]
    cases hp : r.prec with
    | undef => rfl
    | zero => rfl
    | ofSym n =>
      obtain ⟨m, hm, rfl⟩ := g3 n hp
      simp only [precOf, precAtN, hget m hm, Option.elim_some, ruleLevel, ruleKind, getD_idxOf _ _ hm]
      rfl
  have hterms : (((names F.uses).map (finalSym F.uses)).filter fun b => b.cls == .TERM) = (tokenNames F.uses).map (finalSym F.uses) := by
    unfold tokenNames
    rw [List.filter_map]
    congr 1
    refine List.filter_congr ?_
    intro n _
    exact finalSym_term F.uses n
  have hnts : ((((names F.uses).map (finalSym F.uses))[(names F.uses).idxOf F.goal]?).toList ++
      (((names F.uses).map (finalSym F.uses)).eraseIdx ((names F.uses).idxOf F.goal)).filter fun b => b.cls != .TERM) =
      (F.goal :: otherNames F.uses F.goal).map (finalSym F.uses) := by
    rw [hget _ (goal_mem F), Option.toList_some, List.map_cons, List.singleton_append]
    congr 1
    rw [List.eraseIdx_map, List.filter_map]
    congr 1
    unfold otherNames
    refine Eq.trans ?_ (Eq.trans (eraseIdx_filter (names F.uses) (names_nodup _) F.goal (fun n => ¬ Terminal F.uses n)) ?_)
    · refine List.filter_congr ?_
      intro n _
      simp only [Function.comp_apply, bne, finalSym_term, decide_not]
    · refine List.filter_congr ?_
      intro n _
      simp
  have hmap : ∀ l : List (List Nat), (l.map (finalSym F.uses)).map BSym.prec = l.map (levelOf F.uses) := by
    intro l; rw [List.map_map]; rfl
  have hmap' : ∀ l : List (List Nat), (l.map (finalSym F.uses)).map BSym.assoc = l.map (kindOf F.uses) := by
    intro l; rw [List.map_map]; rfl
  unfold packFile finalOut
  simp only [hps, hterms, hnts, hmap, hmap', hnt, hns]
  unfold fileSt
  simp only [hpit, hrul]
  rfl

theorem given_iff (file text t : List Nat) : GivenText file text t ↔ t = (linesOf file text).flatMap Line.text := by
  have e : ∀ ls : List Line, (ls.map nline).flatMap NLine.text = ls.flatMap Line.text := by
    intro ls; rw [List.flatMap_map]; rfl
  constructor
  · rintro ⟨ls, out, h1, h2, rfl⟩
    rw [← e, (linesOf_iff file text out).2 ⟨ls, h1, h2⟩]
  · rintro rfl
    obtain ⟨ls, h1, h2⟩ := (linesOf_iff file text _).1 rfl
    exact ⟨ls, _, h1, h2, (e _).symm⟩

/-- what `reader` returns -/
theorem reader_iff (lp : Bool) (file text : List Nat) (out : FileOut) :
    reader lp file text = .ok out ↔ 0 ∉ text ∧ ∃ t F, GivenText file text t ∧ FileAt F t ∧ F.Ok ∧ IsLhs F.uses F.goal ∧
      ∃ acts tags, ActsOf F.uses 0 (tagged F.all) F.alts acts tags ∧ out = finalOut lp F acts := by
  unfold reader
  by_cases h0 : 0 ∈ text
  · rw [if_pos (by simpa using h0)]
    simp [h0]
  · rw [if_neg (by simpa using h0)]
    simp only [h0, not_false_eq_true, true_and]
    constructor
    · intro h
      cases h1 : readText ((linesOf file text).flatMap Line.text) with
      | error e => rw [h1] at h; cases h
      | ok s =>
        rw [h1] at h
        change (checkSymbols s).bind _ = _ at h
        obtain ⟨F, hF, hok, acts, tags, ha, rfl⟩ := (readText_meaning _ _).1 h1
        cases h2 : checkSymbols (fileSt F tags acts) with
        | error e => rw [h2] at h; cases h
        | ok syms =>
          rw [h2] at h
          obtain ⟨hl, rfl⟩ := (check_iff hF hok tags acts syms).1 h2
          refine ⟨_, F, (given_iff _ _ _).2 rfl, hF, hok, hl, acts, tags, ha, ?_⟩
          have := Except.ok.inj h
          rw [← this, ← pack_final tags acts lp hl]; rfl
    · rintro ⟨t, F, hg, hF, hok, hl, acts, tags, ha, rfl⟩
      have hg := (given_iff _ _ _).1 hg
      subst hg
      rw [(readText_meaning _ _).2 ⟨F, hF, hok, acts, tags, ha, rfl⟩]
      change (checkSymbols (fileSt F tags acts)).bind _ = _
      rw [(check_iff hF hok tags acts _).2 ⟨hl, rfl⟩]
      rw [← pack_final tags acts lp hl]; rfl

end Verif.Byacc.Rd
