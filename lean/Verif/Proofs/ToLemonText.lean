import Verif.Proofs.ToLemonWords
import Verif.Proofs.NakedUses
import Verif.Spec.ByaccLemon
/-
Auxiliary facts: the words lemon reads in the file byacc writes for it.
-/
set_option autoImplicit false
namespace Verif.Byacc.Rd
open Spec Spec.YText ToLemon
open Classical

/-- what is known about the names -/
structure Lk (F : File) (tok nt : List Nat → List Nat) : Prop where
  tokAre : ∀ n ∈ tokenNames F.uses, lemonTokenName n = some (tok n)
  ntAre : ∀ n, IsLhs F.uses n → lemonRuleName n = some (nt n)
  names : LemonNames F tok nt

section
variable {F : File} {t : List Nat} {tok nt : List Nat → List Nat} {lp : Bool} {acts : List (Nat × List Nat)} {o : FileOut}

theorem Lk.poTok (h : Lk F tok nt) {n : List Nat} (hn : n ∈ tokenNames F.uses) : PO [lemonTokenName n] [tok n] :=
  po_name (h.tokAre n hn) (.inl (h.names.tokOk n hn).1) (h.names.tokOk n hn).2

theorem Lk.poNt (h : Lk F tok nt) {n : List Nat} (hn : IsLhs F.uses n) : PO [lemonRuleName n] [nt n] :=
  po_name (h.ntAre n hn) (.inr (h.names.ntOk n hn).1) (h.names.ntOk n hn).2

/-- the words of the declarations of tokens -/
def mTokens (tok : List Nat → List Nat) (ts : List (List Nat)) : List (List Nat) :=
  (ts.filter fun n => decide (n ≠ txt "error" ∧ n.head? ≠ some 34)).flatMap fun n => [[37], txt "token", tok n, [46]]

theorem mTokens_pc (hk : Lk F tok nt) (hm : Means lp F acts o) (hd : ∀ n ∈ tokenNames F.uses, dollar n = false) : PC (lemonTokens o) (mTokens tok (tokenNames F.uses)) := by
  unfold lemonTokens mTokens
  have hgo : ∀ {a : List (Option (List Nat))} {xs : List (List Nat)}, PC a xs → PC (a ++ [some [10]]) xs := by
    intro a xs h
    have := h.append pc_newline
    rwa [List.append_nil] at this
  refine hgo ?_
  rw [hm.tokens.1, List.range_succ_eq_map, List.flatMap_cons]
  have e0 : symbolName o 0 = Rd.str "$end" := rfl
  rw [e0]
  simp only [dollar_end, Bool.true_or, Bool.not_true, Bool.false_eq_true, if_false, List.nil_append]
  have key : ∀ (ts : List (List Nat)) (i : Nat), (∀ (j : Nat) (h : j < ts.length), symbolName o (i + j) = ts[j] ∧ dollar ts[j] = false ∧ ts[j] ∈ tokenNames F.uses) →
      PC ((List.range' i ts.length).flatMap (fun i => if !(dollar (symbolName o i) || symbolName o i == Rd.str "error") then
        if (symbolName o i).head? != some 34 then [some (Rd.str "%token "), lemonTokenName (symbolName o i), some (Rd.str " .\n")] else [] else []))
      ((ts.filter fun n => decide (n ≠ txt "error" ∧ n.head? ≠ some 34)).flatMap fun n => [[37], txt "token", tok n, [46]]) := by
    intro ts
    induction ts with
    | nil => intro i _; exact pc_nil
    | cons t ts ih =>
      intro i h
      have h0 := h 0 (by simp)
      simp only [Nat.add_zero, List.getElem_cons_zero] at h0
      have hr := ih (i + 1) (fun j hj => by
        have := h (j + 1) (by simpa using hj)
        simpa [Nat.add_assoc, Nat.add_comm 1 j] using this)
      rw [List.length_cons, List.range'_succ, List.flatMap_cons, h0.1, h0.2.1, List.filter_cons]
      by_cases hE : t = txt "error"
      · subst hE; simpa [str_eq_txt] using hr
      · by_cases hQ : t.head? = some 34
        · simpa [hE, hQ, str_eq_txt] using hr
        · have hc : (!(false || t == Rd.str "error")) = true := by simp [hE, str_eq_txt]
          have hc2 : (t.head? != some 34) = true := by simpa using hQ
          rw [if_pos hc, if_pos hc2, if_pos (by simpa using ⟨hE, hQ⟩), List.flatMap_cons]
          have h1 : PC ([some (Rd.str "%token ")] ++ ([lemonTokenName t] ++ [some (Rd.str " .\n")])) ([[37], txt "token"] ++ ([tok t] ++ [[46]])) :=
            pc_token.append ((hk.poTok h0.2.2).append (starts_blank _ _) pc_dot)
          exact h1.append hr
  have := key (tokenNames F.uses) 1 (fun j hj => by
    refine ⟨?_, hd _ (List.getElem_mem hj), List.getElem_mem hj⟩
    rw [Nat.add_comm]; exact (tokens_map hm j hj).1)
  have e : (List.map Nat.succ (List.range (tokenNames F.uses).length)) = List.range' 1 (tokenNames F.uses).length := by
    rw [List.range'_eq_map_range]
    refine List.map_congr_left fun i _ => ?_
    rw [Nat.add_comm]
  rw [e]
  exact this

/-- the words for one level -/
noncomputable def mLevel (tok : List Nat → List Nat) (us : List Use) (ts : List (List Nat)) (k : Nat) : List (List Nat) :=
  match ts.filter (fun n => decide (levelOf us n = k)) with
  | [] => []
  | n :: ns => [37] :: (precName (kindOf us n)).getD [] :: (n :: ns).map tok ++ [[46]]

theorem po_toks (hk : Lk F tok nt) (l : List (List Nat)) (hl : ∀ n ∈ l, n ∈ tokenNames F.uses) :
    PO (l.flatMap fun n => [some [32], lemonTokenName n]) (l.map tok) ∧ ((l.flatMap fun n => [some [32], lemonTokenName n]) = [] ∨ Starts (l.flatMap fun n => [some [32], lemonTokenName n])) := by
  induction l with
  | nil => exact ⟨pc_nil.po, .inl rfl⟩
  | cons n l ih =>
    obtain ⟨i1, i2⟩ := ih fun m hm => hl m (by simp [hm])
    rw [List.flatMap_cons, List.map_cons]
    have h1 : PO ([some [32]] ++ [lemonTokenName n]) ([] ++ [tok n]) := pc_blank.appendO (hk.poTok (hl n (by simp)))
    exact ⟨h1.appendO i2 i1, .inr (starts_blank _ _)⟩

theorem mLevelFrom_eq (us : List Use) (k : Nat) (ts : List (List Nat)) : ∀ (i : Nat), (∀ (j : Nat) (h : j < ts.length), symbolName o (i + j) = ts[j] ∧ dollar ts[j] = false ∧
      o.prec.prec.getD (i + j) 0 = levelOf us ts[j] ∧ o.prec.assoc.getD (i + j) .TOKEN = kindOf us ts[j]) →
    lemonLevelFrom o k true i ts.length = ((ts.filter fun n => decide (levelOf us n = k)).flatMap (fun m => [some [32], lemonTokenName m]), true) ∧
    ((∀ n ∈ ts, levelOf us n = k → precName (kindOf us n) = none) → lemonLevelFrom o k false i ts.length = ([], false)) ∧
    ((∀ n ∈ ts, levelOf us n = k → precName (kindOf us n) ≠ none) → lemonLevelFrom o k false i ts.length =
      match ts.filter (fun n => decide (levelOf us n = k)) with
      | [] => ([], false)
      | n :: ns => (some (37 :: (precName (kindOf us n)).getD [] ++ Rd.str " /*" ++ decInt k ++ Rd.str "*/") :: (n :: ns).flatMap (fun m => [some [32], lemonTokenName m]), true)) := by
  induction ts with
  | nil => intro i _; exact ⟨rfl, fun _ => rfl, fun _ => rfl⟩
  | cons t ts ih =>
    intro i h
    obtain ⟨h1, h2, h3, h4⟩ := h 0 (by simp)
    simp only [Nat.add_zero, List.getElem_cons_zero] at h1 h2 h3 h4
    obtain ⟨r1, r2, r3⟩ := ih (i + 1) (fun j hj => by
      have := h (j + 1) (by simpa using hj)
      simpa [Nat.add_assoc, Nat.add_comm 1 j] using this)
    rw [List.length_cons]
    simp only [lemonLevelFrom, h1, h2, h3, h4]
    by_cases hk : levelOf us t = k
    · simp only [if_true, r1, List.filter_cons, hk, decide_true, beq_self_eq_true, Bool.not_false, Bool.and_self]
      refine ⟨by simp, fun hp => ?_, fun hp => ?_⟩
      · rw [hp t (by simp) hk]
        simp only [Bool.false_eq_true, if_false]
        exact r2 fun n hn => hp n (by simp [hn])
      · have := hp t (by simp) hk
        cases hq : precName (kindOf us t) with
        | none => exact absurd hq this
        | some a =>
          simp only [Bool.false_eq_true, if_false, Option.getD_some, List.flatMap_cons, show Byacc.str = Rd.str from rfl]
          simp
    · have e : (levelOf us t == (k : Int) && !false) = false := by simp [hk]
      simp only [e, Bool.false_eq_true, if_false, List.filter_cons, hk, decide_false]
      exact ⟨r1, fun hp => r2 fun n hn => hp n (by simp [hn]), fun hp => r3 fun n hn => hp n (by simp [hn])⟩

theorem mLevel_pc (hk : Lk F tok nt) (hm : Means lp F acts o) (hd : ∀ n ∈ tokenNames F.uses, dollar n = false) (k : Nat) :
    PC (lemonLevel o k) (if k = 0 then [] else mLevel tok F.uses (tokenNames F.uses) k) := by
  obtain ⟨-, r2, r3⟩ := mLevelFrom_eq (o := o) F.uses k (tokenNames F.uses) 1 (fun j hj => by
    obtain ⟨a, b, c⟩ := tokens_map hm j hj
    rw [Nat.add_comm] at a b c
    exact ⟨a, hd _ (List.getElem_mem hj), b, c⟩)
  have e0 : lemonLevelFrom o k false 0 o.num.ntokens = lemonLevelFrom o k false 1 (tokenNames F.uses).length := by
    rw [hm.tokens.1, lemonLevelFrom]
    have e0 : symbolName o 0 = Rd.str "$end" := rfl
    rw [e0, dollar_end]
    simp
  unfold lemonLevel
  rw [e0]
  by_cases h0 : k = 0
  · rw [if_pos h0]
    rw [r2 (fun n _ h => ?_)]
    · exact pc_nil
    · subst h0
      unfold levelOf kindOf at *
      cases hp : Spec.YText.precOf F.uses n with
      | none => rfl
      | some p =>
        have := (precOf_file (k := p.1) (a := p.2) hp).1
        rw [hp] at h
        simp at h; omega
  · have hpn : ∀ n ∈ tokenNames F.uses, levelOf F.uses n = k → precName (kindOf F.uses n) ≠ none := by
      intro n _ h
      unfold levelOf kindOf at *
      cases hp : Spec.YText.precOf F.uses n with
      | none => rw [hp] at h; simp at h; omega
      | some p =>
        have := (precOf_file (k := p.1) (a := p.2) hp).2.2.1
        simp only [Option.elim_some]
        revert this
        cases p.2 <;> simp [precName]
    rw [if_neg h0, r3 hpn]
    unfold mLevel
    have hsub : ∀ n ∈ (tokenNames F.uses).filter (fun n => decide (levelOf F.uses n = k)), n ∈ tokenNames F.uses ∧ levelOf F.uses n = k := by
      intro n hn
      obtain ⟨a, b⟩ := List.mem_filter.1 hn
      exact ⟨a, by simpa using b⟩
    generalize (tokenNames F.uses).filter (fun n => decide (levelOf F.uses n = k)) = l at hsub
    cases l with
    | nil => exact pc_nil
    | cons n ns =>
      dsimp only
      have hn := hsub n (by simp)
      cases hq : precName (kindOf F.uses n) with
      | none => exact absurd hq (hpn n hn.1 hn.2)
      | some a =>
        have h1 := (po_toks hk (n :: ns) fun m hm => (hsub m hm).1).1
        exact (pc_prec hq k).append (h1.append (starts_blank _ _) pc_dot)

/-- the words of a rule -/
noncomputable def mRule (F : File) (tok nt : List Nat → List Nat) (r : SRule) : List (List Nat) :=
  if dollar r.lhs then [] else
    nt r.lhs :: [58, 58, 61] :: (r.rhs.filter (fun n => !dollar n)).map (lemonSymbol F tok nt) ++
      [46] :: match r.prec with | .of n => [[91], tok n, [93]] | _ => []

theorem isTerm_iff (hs : o.syms = (YText.names F.uses).map (finalSym F.uses)) {n : List Nat} (hn : n ∈ YText.names F.uses) : isTermName o n = decide (Terminal F.uses n) := by
  unfold isTermName
  rw [hs]
  have : ((YText.names F.uses).map (finalSym F.uses)).find? (fun b => b.name == n) = some (finalSym F.uses n) := by
    generalize YText.names F.uses = l at hn
    induction l with
    | nil => cases hn
    | cons m l ih =>
      rw [List.map_cons, List.find?_cons]
      by_cases e : m = n
      · subst e
        have : ((finalSym F.uses m).name == m) = true := by simp [finalSym]
        rw [this]
      · have : ((finalSym F.uses m).name == n) = false := by simpa [finalSym] using e
        rw [this]
        rcases List.mem_cons.1 hn with h | h
        · exact absurd h.symm e
        · exact ih h
  rw [this]
  simp only [Option.any_some, finalSym, Terminal]
  by_cases h1 : IsLhs F.uses n
  · simp [h1]
  · by_cases h2 : hiddenOf F.uses n = none
    · simp [h1, h2]
    · have : (hiddenOf F.uses n).isSome = true := Option.isSome_iff_ne_none.2 h2
      simp [h1, h2, this]

theorem mSym_po (hk : Lk F tok nt) (hm : Means lp F acts o) (hs : o.syms = (YText.names F.uses).map (finalSym F.uses)) {n : List Nat} (hn : n ∈ YText.names F.uses)
    (hh : hiddenOf F.uses n = none) : PO (lemonSym o (symNumber F.uses F.goal n)) [lemonSymbol F tok nt n] ∧ Starts (lemonSym o (symNumber F.uses F.goal n)) := by
  unfold lemonSym lemonSymbol
  simp only [symbolName_number hm hn, isTerm_iff hs hn]
  by_cases ht : Terminal F.uses n
  · have hT : n ∈ tokenNames F.uses := List.mem_filter.2 ⟨hn, by simpa using ht⟩
    rw [if_pos (by simpa using ht), if_pos ht]
    refine ⟨?_, starts_blank _ _⟩
    have h1 : PO ([some [32]] ++ [lemonTokenName n]) ([] ++ [tok n]) := pc_blank.appendO (hk.poTok hT)
    unfold symComment
    split
    · exact (h1.append (b := [some (precComment _ _)]) ⟨32, _, _, rfl, by simp [Words.inName, Words.letter, Words.digit]⟩ (pc_comment _ _)).po
    · obtain ⟨z, e, hz⟩ := h1
      refine ⟨z, ?_, hz⟩
      simpa [written] using e
  · rw [if_neg (by simpa using ht), if_neg ht]
    have hl : IsLhs F.uses n := by
      by_contra hc
      exact ht ⟨hc, hh⟩
    exact ⟨pc_blank.appendO (hk.poNt hl), starts_blank _ _⟩

theorem mBody_pc (hk : Lk F tok nt) (hm : Means lp F acts o) (hs : o.syms = (YText.names F.uses).map (finalSym F.uses)) (hdol : ∀ n ∈ YText.names F.uses, dollar n = (hiddenOf F.uses n).isSome)
    (x : NakedIn) (i : Nat) (hi : i ≠ 2) (r : SRule)
    (hr : r.lhs ∈ YText.names F.uses ∧ ¬ Terminal F.uses r.lhs ∧ ∀ y ∈ r.rhs, y ∈ YText.names F.uses) (hp : ∀ n, r.prec = .of n → n ∈ tokenNames F.uses)
    (hl : o.gram.lhs i = symNumber F.uses F.goal r.lhs) (hb : x.buckets.getD i none = fileBucket F.uses r.prec) :
    PC (lemonHead o i ++ lemonBody o x i (r.rhs.map (symNumber F.uses F.goal))) (mRule F tok nt r) := by
  have hnl : ∀ ps xs, PC ps xs → PC ((if o.gram.lhs i ≠ o.gram.lhs (i - 1) then [some [10]] else []) ++ ps) xs := by
    intro ps xs h
    split
    · exact pc_newline.append h
    · exact h
  unfold lemonHead lemonBody mRule
  simp only [hl, symbolName_number hm hr.1, hb]
  rw [List.append_assoc, ← hl]
  refine hnl _ _ ?_
  cases hd : dollar r.lhs with
  | true => 
    simp only [Bool.not_true, Bool.false_and, Bool.false_eq_true, if_false, if_true]
    have : (r.rhs.map (symNumber F.uses F.goal)).flatMap (fun _ => ([] : List (Option (List Nat)))) = [] := by simp
    rw [this]
    split <;> exact pc_nil
  | false =>
    simp only [Bool.not_false, Bool.true_and, Bool.false_eq_true, if_false, if_true]
    rw [if_neg hi]
    have hL : IsLhs F.uses r.lhs := by
      have := hdol _ hr.1
      rw [hd] at this
      have hn : hiddenOf F.uses r.lhs = none := by simpa using this.symm
      by_contra hc
      exact hr.2.1 ⟨hc, hn⟩
    have h1 : PC ([lemonRuleName r.lhs] ++ [some (Byacc.str " ::=")]) ([nt r.lhs] ++ [[58, 58, 61]]) := (hk.poNt hL).append (starts_blank _ _) pc_arrow
    have h2 : ∀ l : List (List Nat), (∀ y ∈ l, y ∈ YText.names F.uses) →
        PO ((l.map (symNumber F.uses F.goal)).flatMap fun s => if (!dollar (symbolName o s)) = true then lemonSym o s else []) ((l.filter (fun n => !dollar n)).map (lemonSymbol F tok nt)) ∧
        (((l.map (symNumber F.uses F.goal)).flatMap fun s => if (!dollar (symbolName o s)) = true then lemonSym o s else []) = [] ∨
          Starts ((l.map (symNumber F.uses F.goal)).flatMap fun s => if (!dollar (symbolName o s)) = true then lemonSym o s else [])) := by
      intro l
      induction l with
      | nil => intro _; exact ⟨pc_nil.po, .inl rfl⟩
      | cons y l ih =>
        intro h
        have hy := h y (by simp)
        obtain ⟨i1, i2⟩ := ih fun z hz => h z (by simp [hz])
        rw [List.map_cons, List.flatMap_cons, symbolName_number hm hy, List.filter_cons]
        cases hc : dollar y with
        | true => exact ⟨i1, i2⟩
        | false =>
          have := hdol _ hy
          rw [hc] at this
          obtain ⟨k1, k2⟩ := mSym_po hk hm hs hy (by simpa using this.symm)
          simp only [Bool.not_false, if_true, List.map_cons]
          refine ⟨k1.appendO i2 i1, .inr ?_⟩
          obtain ⟨c, t, r, e, hc⟩ := k2
          exact ⟨c, t, r ++ _, by rw [e]; rfl, hc⟩
    have h3 : PO (if r.rhs.map (symNumber F.uses F.goal) = [] then [some (Byacc.str " /*empty*/")] else
        (r.rhs.map (symNumber F.uses F.goal)).flatMap fun s => if (!dollar (symbolName o s)) = true then lemonSym o s else []) ((r.rhs.filter (fun n => !dollar n)).map (lemonSymbol F tok nt)) := by
      split
      · rename_i he
        rw [List.map_eq_nil_iff] at he
        rw [he]; exact pc_empty.po
      · exact (h2 _ hr.2.2).1
    have h4 : PC (match fileBucket F.uses r.prec with
        | some b => [some (Byacc.str " . ["), lemonTokenName b.name, some (Byacc.str "]"), some (precComment b.prec b.assoc), some [10]]
        | none => [some (Byacc.str " .\n")]) ([46] :: match r.prec with | .of n => [[91], tok n, [93]] | _ => []) ∧
        Starts (match fileBucket F.uses r.prec with
        | some b => [some (Byacc.str " . ["), lemonTokenName b.name, some (Byacc.str "]"), some (precComment b.prec b.assoc), some [10]]
        | none => [some (Byacc.str " .\n")]) := by
      cases hq : r.prec with
      | of n =>
        have hn := hp n hq
        refine ⟨?_, starts_blank _ _⟩
        have k := pc_open.append ((hk.poTok hn).append (b := [some (Byacc.str "]")]) ⟨93, _, _, rfl, by simp [Words.inName, Words.letter, Words.digit]⟩ pc_close)
        exact (k.append (pc_comment _ _)).append pc_newline
      | rhs => exact ⟨pc_dot, starts_blank _ _⟩
      | nowhere => exact ⟨pc_dot, starts_blank _ _⟩
    exact h1.append (h3.append h4.2 h4.1)

theorem mRules_pc (hk : Lk F tok nt) (hm : Means lp F acts o) (hs : o.syms = (YText.names F.uses).map (finalSym F.uses)) (hdol : ∀ n ∈ YText.names F.uses, dollar n = (hiddenOf F.uses n).isSome)
    (x : NakedIn) (rs : List SRule) : ∀ (i k : Nat), 3 ≤ i →
    (∀ r ∈ rs, r.lhs ∈ YText.names F.uses ∧ ¬ Terminal F.uses r.lhs ∧ ∀ y ∈ r.rhs, y ∈ YText.names F.uses) → (∀ r ∈ rs, ∀ n, r.prec = .of n → n ∈ tokenNames F.uses) →
    o.gram.ritem.drop k = blocks i (rs.map (numRule F.uses F.goal)) →
    (∀ (j : Nat) (h : j < rs.length), o.gram.lhs (i + j) = symNumber F.uses F.goal rs[j].lhs ∧ x.buckets.getD (i + j) none = fileBucket F.uses rs[j].prec) →
    PC (lemonRules o x i k rs.length) (rs.flatMap (mRule F tok nt)) := by
  induction rs with
  | nil => intros; exact pc_nil
  | cons r rs ih =>
    intro i k hi hn hp hd hl
    have hr := hn r (by simp)
    obtain ⟨hl0, hb0⟩ := hl 0 (by simp)
    simp only [Nat.add_zero, List.getElem_cons_zero] at hl0 hb0
    rw [List.map_cons, blocks] at hd
    have hrhs : ((o.gram.ritem.drop k).takeWhile (fun y => decide (0 ≤ y))).map Int.toNat = r.rhs.map (symNumber F.uses F.goal) := by
      rw [hd]
      have aux : ∀ (l : List Nat) (rest : List Int), ((l.map (fun x : Nat => (x : Int)) ++ (-(i : Int)) :: rest).takeWhile (fun y => decide (0 ≤ y))).map Int.toNat = l := by
        intro l rest
        induction l with
        | nil => rw [List.map_nil, List.nil_append, List.takeWhile_cons, if_neg (by simp; omega)]; rfl
        | cons y l ih => rw [List.map_cons, List.cons_append, List.takeWhile_cons, if_pos (by simp), List.map_cons, ih]; rfl
      exact aux _ _
    rw [List.length_cons, lemonRules, List.flatMap_cons]
    simp only [hrhs]
    refine (mBody_pc hk hm hs hdol x i (by omega) r hr (hp r (by simp)) hl0 hb0).append ?_
    refine ih (i + 1) _ (by omega) (fun q hq => hn q (by simp [hq])) (fun q hq => hp q (by simp [hq])) ?_ ?_
    · rw [show k + (r.rhs.map (symNumber F.uses F.goal)).length + 1 = k + ((r.rhs.map (symNumber F.uses F.goal)).length + 1) by omega, ← List.drop_drop, hd]
      have : (numRule F.uses F.goal r).2 = r.rhs.map (symNumber F.uses F.goal) := rfl
      rw [this]
      have aux : ∀ (l : List Nat) (c : Int) (rest : List Int), (l.map (fun x : Nat => (x : Int)) ++ c :: rest).drop (l.length + 1) = rest := by
        intro l c rest
        induction l with
        | nil => rfl
        | cons y l ih => exact ih
      exact aux _ _ _
    · intro j hj
      have := hl (j + 1) (by simpa using hj)
      simpa [Nat.add_assoc, Nat.add_comm 1 j] using this

end

end Verif.Byacc.Rd
