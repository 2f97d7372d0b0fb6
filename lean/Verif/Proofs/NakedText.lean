import Verif.Byacc.Naked
import Verif.Proofs.TextFile
/-
Auxiliary facts: the grammar without its actions, as a text made from the names in the file.
-/
set_option autoImplicit false
namespace Verif.Byacc.Rd
open Spec Spec.YText
open Classical

/-! The text in terms of names -/

/-- a symbol in a right-hand side -/
noncomputable def nSym (us : List Use) (n : List Nat) : List Nat :=
  32 :: n ++ if levelOf us n ≠ 0 then precComment (levelOf us n) (kindOf us n) else []

def nTokens (ts : List (List Nat)) : List Nat := (ts.filter fun n => decide (n ≠ txt "error")).flatMap (fun n => txt "%token " ++ n ++ [10]) ++ [10]

/-- one level -/
noncomputable def nLevel (us : List Use) (ts : List (List Nat)) (k : Nat) : List Nat :=
  match ts.filter (fun n => decide (levelOf us n = k)) with
  | [] => []
  | n :: ns => 37 :: (precName (kindOf us n)).getD [] ++ txt " /*" ++ decInt k ++ txt "*/" ++ (n :: ns).flatMap (fun m => 32 :: m) ++ [10]

def nHead (i : Nat) (prev n : List Nat) : List Nat :=
  if n ≠ prev then (if i > 3 && !dollar n then txt "\t;\n" else []) ++ (if dollar n then [] else n ++ txt " :\n\t") else txt "\t|"

noncomputable def nPrec (us : List Use) : PrecBy → List Nat
  | .of n => txt " %prec " ++ n ++ precComment (levelOf us n) (kindOf us n)
  | _ => []

noncomputable def nBody (us : List Use) (r : SRule) : List Nat :=
  if dollar r.lhs then [] else
    (if r.rhs ≠ [] then (r.rhs.filter (fun n => !dollar n)).flatMap (nSym us) else txt " /*empty*/") ++ nPrec us r.prec ++ [10]

noncomputable def nRules (us : List Use) (i : Nat) (prev : List Nat) : List SRule → List Nat
  | [] => []
  | r :: rs => nHead i prev r.lhs ++ nBody us r ++ nRules us (i + 1) r.lhs rs

noncomputable def nText (F : File) : List Nat :=
  nTokens (tokenNames F.uses) ++ (List.range' 1 (levels F.all)).flatMap (nLevel F.uses (tokenNames F.uses)) ++ txt "\n%start " ++ F.goal ++ [10] ++ txt "\n%%\n\n" ++
    nRules F.uses 3 (txt "$accept") F.rules ++ txt "\t;\n"

/-! Facts about levels -/

theorem levels_append (a b : List Decl) : levels (a ++ b) = levels a + levels b := by
  unfold levels; rw [List.filter_append, List.length_append]

theorem declUses_level (pre ds : List Decl) (x : Sym) (a : Assoc) (k : Nat) (tag : Option (List Nat)) (c : Option Nat)
    (h : Use.token x a k tag c ∈ declUses pre ds) : k ≤ levels (pre ++ ds) ∧ (a ≠ .TOKEN → levels pre < k) := by
  induction ds generalizing pre with
  | nil => cases h
  | cons d ds ih =>
    rw [declUses, List.mem_append] at h
    rcases h with h | h
    · cases d with
      | tokens b tg items =>
        simp only [Decl.uses, List.mem_map, Use.token.injEq] at h
        obtain ⟨y, hy, -, rfl, rfl, -⟩ := h
        rw [show pre ++ Decl.tokens b tg items :: ds = (pre ++ [Decl.tokens b tg items]) ++ ds by simp]
        simp only [levels_append]
        refine ⟨by omega, fun hb => ?_⟩
        have : levels [Decl.tokens b tg items] = 1 := by unfold levels; simp [hb]
        omega
      | types tg xs => simp [Decl.uses] at h
      | start n => simp [Decl.uses] at h
      | _ => simp [Decl.uses] at h
    · have := ih _ h
      rw [show pre ++ d :: ds = (pre ++ [d]) ++ ds by simp]
      refine ⟨this.1, fun hb => ?_⟩
      have := this.2 hb
      rw [levels_append] at this; omega

/-- a level has one kind -/
theorem declUses_kind (pre ds : List Decl) (x y : Sym) (a b : Assoc) (k : Nat) (tag tag' : Option (List Nat)) (c c' : Option Nat)
    (h : Use.token x a k tag c ∈ declUses pre ds) (h' : Use.token y b k tag' c' ∈ declUses pre ds) (ha : a ≠ .TOKEN) (hb : b ≠ .TOKEN) : a = b := by
  induction ds generalizing pre with
  | nil => cases h
  | cons d ds ih =>
    rw [declUses, List.mem_append] at h h'
    have key : ∀ {x : Sym} {a : Assoc} {tag c}, Use.token x a k tag c ∈ Decl.uses pre d → k = levels (pre ++ [d]) ∧ ∃ tg items, d = .tokens a tg items := by
      intro x a tag c h
      cases d with
      | tokens b tg items =>
        simp only [Decl.uses, List.mem_map, Use.token.injEq] at h
        obtain ⟨y, hy, -, rfl, rfl, -⟩ := h
        exact ⟨rfl, _, _, rfl⟩
      | types tg xs => simp [Decl.uses] at h
      | start n => simp [Decl.uses] at h
      | _ => simp [Decl.uses] at h
    rcases h with h | h <;> rcases h' with h' | h'
    · obtain ⟨-, _, _, rfl⟩ := key h
      obtain ⟨-, _, _, e⟩ := key h'
      cases e; rfl
    · have h1 := (key h).1
      have h2 := (declUses_level _ _ _ _ _ _ _ h').2 hb
      omega
    · have h1 := (key h').1
      have h2 := (declUses_level _ _ _ _ _ _ _ h).2 ha
      omega
    · exact ih _ h h'

theorem use_token_decl {F : File} {x : Sym} {a : Assoc} {k : Nat} {tag : Option (List Nat)} {c : Option Nat} (h : Use.token x a k tag c ∈ F.uses) :
    Use.token x a k tag c ∈ declUses [] F.all := by
  unfold File.uses at h
  rcases List.mem_append.1 h with h | h
  · exact h
  · exfalso
    rcases List.mem_cons.1 h with h | h
    · cases h
    · exact (ruleUses_inRule _ _ _ _ _ h : False)

/-- where a precedence comes from -/
theorem precOf_use {us : List Use} {n : List Nat} {k : Nat} {a : Assoc} (h : Spec.YText.precOf us n = some (k, a)) :
    ∃ x tag c, Use.token x a k tag c ∈ us ∧ x.key = n ∧ a ≠ .TOKEN := by
  unfold Spec.YText.precOf at h
  have := List.mem_of_getLast? h
  obtain ⟨u, hu, he⟩ := List.mem_filterMap.1 this
  cases u with
  | token x b l tg c =>
    simp only at he
    split at he
    · rename_i hc
      cases he
      exact ⟨x, tg, c, hu, hc.1, hc.2⟩
    · cases he
  | _ => cases he

theorem precOf_file {F : File} {n : List Nat} {k : Nat} {a : Assoc} (h : Spec.YText.precOf F.uses n = some (k, a)) :
    1 ≤ k ∧ k ≤ levels F.all ∧ a ≠ .TOKEN ∧ IsToken F.uses n := by
  obtain ⟨x, tag, c, h1, h2, h3⟩ := precOf_use h
  have h4 := declUses_level _ _ _ _ _ _ _ (use_token_decl h1)
  refine ⟨?_, by simpa using h4.1, h3, .inr ⟨_, h1, h2, .inl ⟨_, _, _, _, _, rfl⟩⟩⟩
  have := h4.2 h3; omega

theorem level_kind {F : File} {n m : List Nat} {k : Nat} {a b : Assoc} (h : Spec.YText.precOf F.uses n = some (k, a)) (h' : Spec.YText.precOf F.uses m = some (k, b)) :
    a = b := by
  obtain ⟨x, tag, c, h1, -, h3⟩ := precOf_use h
  obtain ⟨x', tag', c', h1', -, h3'⟩ := precOf_use h'
  exact declUses_kind _ _ _ _ _ _ _ _ _ _ _ (use_token_decl h1) (use_token_decl h1') h3 h3'

/-! The text -/

/-- the buckets of the rules -/
noncomputable def fileBucket (us : List Use) : PrecBy → Option BSym
  | .of n => some (finalSym us n)
  | _ => none

noncomputable def finalNaked (F : File) : NakedIn :=
  ⟨(levels F.all : Nat), none :: none :: none :: F.rules.map fun r => fileBucket F.uses r.prec⟩

/-- what `readerNaked` returns -/
theorem readerNaked_iff (lp : Bool) (file text : List Nat) (out : FileOut) (x : NakedIn) :
    readerNaked lp file text = .ok (out, x) ↔ 0 ∉ text ∧ ∃ t F, GivenText file text t ∧ FileAt F t ∧ F.Ok ∧ IsLhs F.uses F.goal ∧
      ∃ acts tags, ActsOf F.uses 0 (tagged F.all) F.alts acts tags ∧ out = finalOut lp F acts ∧ x = finalNaked F := by
  have hx : ∀ (F : File) (tags : Bool) (acts : List (Nat × List Nat)), (⟨(fileSt F tags acts).d.prec, none :: none :: none ::
      (fileSt F tags acts).rd.rprec.reverse.map (bucketAt ((names F.uses).map (finalSym F.uses)))⟩ : NakedIn) = finalNaked F := by
    intro F tags acts
    obtain ⟨done, ⟨-, -, h3⟩, hR, hG⟩ := file_rules F
    unfold finalNaked
    congr 1
    change none :: none :: none :: (endRule (fileRd F)).rprec.reverse.map _ = _
    rw [h3, ← hR, List.map_map, List.map_map]
    congr 3
    refine List.map_congr_left fun r hr => ?_
    simp only [Function.comp_apply, ruleAt]
    cases hp : r.prec with
    | undef => rfl
    | zero => rfl
    | ofSym n =>
      obtain ⟨m, hm, rfl⟩ := (hG r hr).2.2 n hp
      have h1 : (names F.uses).idxOf m < (names F.uses).length := List.idxOf_lt_length_iff.2 hm
      simp only [bucketAt, precAtN, fileBucket, getD_idxOf _ _ hm, List.getElem?_map, List.getElem?_eq_getElem h1, List.getElem_idxOf h1, Option.map_some]
  unfold readerNaked
  by_cases h0 : 0 ∈ text
  · rw [if_pos (by simpa using h0)]
    simp [h0]
  · rw [if_neg (by simpa using h0)]
    simp only [h0, not_false_eq_true, true_and]
    constructor
    · intro h
      cases h1 : readText ((linesOf file text).flatMap Line.text) with
      | error e => rw [h1] at h; cases h
      | ok s =>
        rw [h1] at h
        change (checkSymbols s).bind _ = _ at h
        obtain ⟨F, hF, hok, acts, tags, ha, rfl⟩ := (readText_meaning _ _).1 h1
        cases h2 : checkSymbols (fileSt F tags acts) with
        | error e => rw [h2] at h; cases h
        | ok syms =>
          rw [h2] at h
          obtain ⟨hl, rfl⟩ := (check_iff hF hok tags acts syms).1 h2
          have := Except.ok.inj h
          refine ⟨_, F, (given_iff _ _ _).2 rfl, hF, hok, hl, acts, tags, ha, ?_, ?_⟩
          · rw [← pack_final tags acts lp hl]; exact (Prod.ext_iff.1 this).1.symm
          · rw [← hx F tags acts]; exact (Prod.ext_iff.1 this).2.symm
    · rintro ⟨t, F, hg, hF, hok, hl, acts, tags, ha, rfl, rfl⟩
      have hg := (given_iff _ _ _).1 hg
      subst hg
      rw [(readText_meaning _ _).2 ⟨F, hF, hok, acts, tags, ha, rfl⟩]
      change (checkSymbols (fileSt F tags acts)).bind _ = _
      rw [(check_iff hF hok tags acts _).2 ⟨hl, rfl⟩]
      rw [← pack_final tags acts lp hl, ← hx F tags acts]; rfl

variable {lp : Bool} {F : File} {acts : List (Nat × List Nat)} {o : FileOut}

/-- the names of the tokens by their numbers -/
theorem tokens_map (hm : Means lp F acts o) (j : Nat) (hj : j < (tokenNames F.uses).length) :
    symbolName o (j + 1) = (tokenNames F.uses)[j] ∧ o.prec.prec.getD (j + 1) 0 = levelOf F.uses (tokenNames F.uses)[j] ∧
      o.prec.assoc.getD (j + 1) .TOKEN = kindOf F.uses (tokenNames F.uses)[j] := by
  have hmem : (tokenNames F.uses)[j] ∈ tokenNames F.uses := List.getElem_mem hj
  have hn : (tokenNames F.uses)[j] ∈ names F.uses := (List.mem_filter.1 hmem).1
  have ht : Terminal F.uses (tokenNames F.uses)[j] := by simpa using (List.mem_filter.1 hmem).2
  have e : symNumber F.uses F.goal (tokenNames F.uses)[j] = j + 1 := by
    unfold symNumber
    rw [if_pos ht, (tokenNames_nodup F.uses).idxOf_getElem]
  have h1 := symbolName_number hm hn
  obtain ⟨h2, h3⟩ := hm.sprec _ hn
  rw [e] at h1 h2 h3
  exact ⟨h1, by rw [List.getD_eq_getElem?_getD, h2]; rfl, by rw [List.getD_eq_getElem?_getD, h3]; rfl⟩

theorem dollar_end : dollar (Rd.str "$end") = true := by decide

theorem nTokens_eq (hm : Means lp F acts o) (hd : ∀ n ∈ tokenNames F.uses, dollar n = false) : nakedTokens o = nTokens (tokenNames F.uses) := by
  unfold nakedTokens nTokens
  congr 1
  rw [hm.tokens.1, List.range_succ_eq_map, List.flatMap_cons]
  have e0 : symbolName o 0 = Rd.str "$end" := rfl
  rw [e0]
  simp only [dollar_end, Bool.true_or, Bool.not_true, Bool.false_eq_true, if_false, List.nil_append]
  have key : ∀ (ts : List (List Nat)) (i : Nat), (∀ (j : Nat) (h : j < ts.length), symbolName o (i + j) = ts[j] ∧ dollar ts[j] = false) →
      (List.range' i ts.length).flatMap (fun i => if !(dollar (symbolName o i) || symbolName o i == Rd.str "error") then Rd.str "%token " ++ symbolName o i ++ [10] else []) =
      (ts.filter fun n => decide (n ≠ txt "error")).flatMap (fun n => txt "%token " ++ n ++ [10]) := by
    intro ts
    induction ts with
    | nil => intro i _; rfl
    | cons t ts ih =>
      intro i h
      have h0 := h 0 (by simp)
      simp only [Nat.add_zero, List.getElem_cons_zero] at h0
      have hr := ih (i + 1) (fun j hj => by
        have := h (j + 1) (by simpa using hj)
        simpa [Nat.add_assoc, Nat.add_comm 1 j] using this)
      rw [List.length_cons, List.range'_succ, List.flatMap_cons, hr, h0.1, h0.2, List.filter_cons]
      by_cases hE : t = txt "error"
      · subst hE; simp [str_eq_txt]
      · simp [hE, str_eq_txt]
  have := key (tokenNames F.uses) 1 (fun j hj => by
    refine ⟨?_, hd _ (List.getElem_mem hj)⟩
    rw [Nat.add_comm]; exact (tokens_map hm j hj).1)
  rw [← this, List.range'_eq_map_range, List.flatMap_map, List.flatMap_map]
  refine List.flatMap_congr fun i _ => ?_
  rw [Nat.add_comm]; rfl

theorem nLevelFrom_eq (us : List Use) (k : Nat) (ts : List (List Nat)) : ∀ (i : Nat), (∀ (j : Nat) (h : j < ts.length), symbolName o (i + j) = ts[j] ∧ dollar ts[j] = false ∧
      o.prec.prec.getD (i + j) 0 = levelOf us ts[j] ∧ o.prec.assoc.getD (i + j) .TOKEN = kindOf us ts[j]) →
    nakedLevelFrom o k true i ts.length = ((ts.filter fun n => decide (levelOf us n = k)).flatMap (fun m => 32 :: m), true) ∧
    ((∀ n ∈ ts, levelOf us n = k → precName (kindOf us n) = none) → nakedLevelFrom o k false i ts.length = ([], false)) ∧
    ((∀ n ∈ ts, levelOf us n = k → precName (kindOf us n) ≠ none) → nakedLevelFrom o k false i ts.length =
      match ts.filter (fun n => decide (levelOf us n = k)) with
      | [] => ([], false)
      | n :: ns => (37 :: (precName (kindOf us n)).getD [] ++ txt " /*" ++ decInt k ++ txt "*/" ++ (n :: ns).flatMap (fun m => 32 :: m), true)) := by
  induction ts with
  | nil => intro i _; exact ⟨rfl, fun _ => rfl, fun _ => rfl⟩
  | cons t ts ih =>
    intro i h
    obtain ⟨h1, h2, h3, h4⟩ := h 0 (by simp)
    simp only [Nat.add_zero, List.getElem_cons_zero] at h1 h2 h3 h4
    obtain ⟨r1, r2, r3⟩ := ih (i + 1) (fun j hj => by
      have := h (j + 1) (by simpa using hj)
      simpa [Nat.add_assoc, Nat.add_comm 1 j] using this)
    rw [List.length_cons]
    simp only [nakedLevelFrom, h1, h2, h3, h4]
    by_cases hk : levelOf us t = k
    · simp only [if_true, r1, List.filter_cons, hk, decide_true, beq_self_eq_true, Bool.not_false, Bool.and_self]
      refine ⟨by simp, fun hp => ?_, fun hp => ?_⟩
      · rw [hp t (by simp) hk]
        simp only [Bool.false_eq_true, if_false]
        exact r2 fun n hn => hp n (by simp [hn])
      · have := hp t (by simp) hk
        cases hq : precName (kindOf us t) with
        | none => exact absurd hq this
        | some a =>
          simp only [Bool.false_eq_true, if_false, Option.getD_some, List.flatMap_cons, show Byacc.str = txt from rfl]
          simp
    · have e : (levelOf us t == (k : Int) && !false) = false := by simp [hk]
      simp only [e, Bool.false_eq_true, if_false, List.filter_cons, hk, decide_false]
      exact ⟨r1, fun hp => r2 fun n hn => hp n (by simp [hn]), fun hp => r3 fun n hn => hp n (by simp [hn])⟩

theorem nLevel_eq (hm : Means lp F acts o) (hd : ∀ n ∈ tokenNames F.uses, dollar n = false) (k : Nat) :
    nakedLevel o k = if k = 0 then [] else nLevel F.uses (tokenNames F.uses) k := by
  obtain ⟨-, r2, r3⟩ := nLevelFrom_eq (o := o) F.uses k (tokenNames F.uses) 1 (fun j hj => by
    obtain ⟨a, b, c⟩ := tokens_map hm j hj
    rw [Nat.add_comm] at a b c
    exact ⟨a, hd _ (List.getElem_mem hj), b, c⟩)
  have e0 : nakedLevelFrom o k false 0 o.num.ntokens = nakedLevelFrom o k false 1 (tokenNames F.uses).length := by
    rw [hm.tokens.1, nakedLevelFrom]
    have e0 : symbolName o 0 = Rd.str "$end" := rfl
    rw [e0, dollar_end]
    simp
  unfold nakedLevel
  rw [e0]
  by_cases hk : k = 0
  · rw [if_pos hk]
    rw [r2 (fun n _ h => ?_)]
    · rfl
    · subst hk
      unfold levelOf kindOf at *
      cases hp : Spec.YText.precOf F.uses n with
      | none => rfl
      | some p =>
        have := (precOf_file (k := p.1) (a := p.2) hp).1
        rw [hp] at h
        simp at h; omega
  · rw [if_neg hk, r3 (fun n _ h => ?_)]
    · unfold nLevel
      cases (tokenNames F.uses).filter (fun n => decide (levelOf F.uses n = k)) with
      | nil => rfl
      | cons n ns => rfl
    · unfold levelOf kindOf at *
      cases hp : Spec.YText.precOf F.uses n with
      | none => rw [hp] at h; simp at h; omega
      | some p =>
        have := (precOf_file (k := p.1) (a := p.2) hp).2.2.1
        simp only [Option.elim_some]
        revert this
        cases p.2 <;> simp [precName]

/-- a rule by numbers -/
noncomputable def numRule (us : List Use) (goal : List Nat) (r : SRule) : Nat × List Nat := (symNumber us goal r.lhs, r.rhs.map (symNumber us goal))

theorem nSym_eq (hm : Means lp F acts o) {n : List Nat} (hn : n ∈ names F.uses) :
    32 :: symbolName o (symNumber F.uses F.goal n) ++ symComment o (symNumber F.uses F.goal n) = nSym F.uses n := by
  obtain ⟨h2, h3⟩ := hm.sprec _ hn
  unfold symComment nSym
  rw [symbolName_number hm hn, List.getD_eq_getElem?_getD, List.getD_eq_getElem?_getD, h2, h3]
  rfl

theorem nBody_eq (hm : Means lp F acts o) (x : NakedIn) (i : Nat) (r : SRule) (hr : r.lhs ∈ names F.uses ∧ ∀ y ∈ r.rhs, y ∈ names F.uses)
    (hl : o.gram.lhs i = symNumber F.uses F.goal r.lhs) (hb : x.buckets.getD i none = fileBucket F.uses r.prec) :
    nakedBody o x i (r.rhs.map (symNumber F.uses F.goal)) = nBody F.uses r := by
  unfold nakedBody nBody
  simp only [hl, symbolName_number hm hr.1, hb]
  cases hd : dollar r.lhs with
  | true =>
    simp
  | false =>
    simp only [Bool.not_false, Bool.true_and, Bool.false_eq_true, if_false, if_true, List.append_assoc]
    have e1 : ∀ l : List (List Nat), (∀ y ∈ l, y ∈ names F.uses) → (l.map (symNumber F.uses F.goal)).flatMap (fun s => if (!dollar (symbolName o s)) = true then 32 :: symbolName o s ++ symComment o s else []) =
        (l.filter (fun n => !dollar n)).flatMap (nSym F.uses) := by
      intro l
      induction l with
      | nil => intro _; rfl
      | cons y l ih =>
        intro h
        have hy := h y (by simp)
        rw [List.map_cons, List.flatMap_cons, ih (fun z hz => h z (by simp [hz])), nSym_eq hm hy, symbolName_number hm hy, List.filter_cons]
        cases hc : dollar y <;> simp
    rw [e1 _ hr.2]
    have e2 : (r.rhs.map (symNumber F.uses F.goal) ≠ []) ↔ r.rhs ≠ [] := by simp
    simp only [e2]
    congr 1
    congr 1
    cases r.prec <;> simp [fileBucket, nPrec, finalSym, show Byacc.str = txt from rfl]

theorem nRules_eq (hm : Means lp F acts o) (x : NakedIn) (rs : List SRule) : ∀ (i k : Nat) (prev : List Nat), 3 ≤ i →
    (∀ r ∈ rs, r.lhs ∈ names F.uses ∧ ∀ y ∈ r.rhs, y ∈ names F.uses) →
    o.gram.ritem.drop k = blocks i (rs.map (numRule F.uses F.goal)) →
    (∀ (j : Nat) (h : j < rs.length), o.gram.lhs (i + j) = symNumber F.uses F.goal rs[j].lhs ∧ x.buckets.getD (i + j) none = fileBucket F.uses rs[j].prec) →
    (∀ n ∈ names F.uses, symNumber F.uses F.goal n = o.gram.lhs (i - 1) ↔ n = prev) →
    nakedRules o x i k rs.length = nRules F.uses i prev rs := by
  induction rs with
  | nil => intros; rfl
  | cons r rs ih =>
    intro i k prev hi hn hd hl hp
    have hr := hn r (by simp)
    obtain ⟨hl0, hb0⟩ := hl 0 (by simp)
    simp only [Nat.add_zero, List.getElem_cons_zero] at hl0 hb0
    rw [List.map_cons, blocks] at hd
    have hrhs : ((o.gram.ritem.drop k).takeWhile (fun y => decide (0 ≤ y))).map Int.toNat = r.rhs.map (symNumber F.uses F.goal) := by
      rw [hd]
      have aux : ∀ (l : List Nat) (rest : List Int), ((l.map (fun x : Nat => (x : Int)) ++ (-(i : Int)) :: rest).takeWhile (fun y => decide (0 ≤ y))).map Int.toNat = l := by
        intro l rest
        induction l with
        | nil => rw [List.map_nil, List.nil_append, List.takeWhile_cons, if_neg (by simp; omega)]; rfl
        | cons y l ih => rw [List.map_cons, List.cons_append, List.takeWhile_cons, if_pos (by simp), List.map_cons, ih]; rfl
      exact aux _ _
    rw [List.length_cons, nakedRules, nRules]
    simp only [hrhs]
    rw [nBody_eq hm x i r hr hl0 hb0]
    congr 1
    · congr 1
      unfold nakedHead nHead
      simp only [hl0, symbolName_number hm hr.1, show Byacc.str = txt from rfl]
      have := hp r.lhs hr.1
      by_cases hc : r.lhs = prev
      · rw [if_neg (by simp [this.2 hc]), if_neg (by simp [hc])]
      · rw [if_pos (fun h => hc (this.1 h)), if_pos hc, if_neg (show ¬ i = 2 by omega)]
    · refine ih (i + 1) _ r.lhs (by omega) (fun q hq => hn q (by simp [hq])) ?_ ?_ ?_
      · rw [show k + (r.rhs.map (symNumber F.uses F.goal)).length + 1 = k + ((r.rhs.map (symNumber F.uses F.goal)).length + 1) by omega, ← List.drop_drop, hd]
        have : (numRule F.uses F.goal r).2 = r.rhs.map (symNumber F.uses F.goal) := rfl
        rw [this]
        have aux : ∀ (l : List Nat) (c : Int) (rest : List Int), (l.map (fun x : Nat => (x : Int)) ++ c :: rest).drop (l.length + 1) = rest := by
          intro l c rest
          induction l with
          | nil => rfl
          | cons y l ih => exact ih
        exact aux _ _ _
      · intro j hj
        have := hl (j + 1) (by simpa using hj)
        simpa [Nat.add_assoc, Nat.add_comm 1 j] using this
      · intro n hm'
        rw [show i + 1 - 1 = i by omega, hl0]
        exact ⟨fun h => number_inj _ _ hm' hr.1 h, fun h => by rw [h]⟩

theorem hid_dollar2 {n : List Nat} (h : Hid n) : ∃ r, n = 36 :: 36 :: r := by
  obtain ⟨k, rfl⟩ := h
  exact ⟨_, rfl⟩

/-- the text for a file -/
theorem nakedText_eq (lp : Bool) {F : File} {t : List Nat} (hF : FileAt F t) (hok : F.Ok) (hl : IsLhs F.uses F.goal) (acts : List (Nat × List Nat))
    (hd : ∀ n ∈ names F.uses, dollar n = true → Hid n) : nakedText (finalOut lp F acts) (finalNaked F) = nText F := by
  have hm := means_final lp hF hok hl acts
  have hdt : ∀ n ∈ tokenNames F.uses, dollar n = false := by
    intro n hn
    have h1 := (List.mem_filter.1 hn).1
    have h2 : Terminal F.uses n := by simpa using (List.mem_filter.1 hn).2
    by_contra hc
    exact (hid_hidden hF h1).1 (hd n h1 (by simpa using hc)) h2.2
  have hpk : Packs (finalOut lp F acts).gram (augCFG ((tokenNames F.uses).length + 1) (F.rules.map (numRule F.uses F.goal))) := by
    have := packs_packGrammar lp ((tokenNames F.uses).length + 1) ((names F.uses).length + 2) (F.rules.map (srcRule F.uses F.goal))
    have e : (F.rules.map (srcRule F.uses F.goal)).map SrcRule.rule = F.rules.map (numRule F.uses F.goal) := by
      rw [List.map_map]
      refine List.map_congr_left fun r _ => ?_
      simp only [Function.comp_apply, SrcRule.rule, srcRule, numRule, symBucket, List.map_map]
      rfl
    rw [e] at this
    exact this
  generalize ho : finalOut lp F acts = o at *
  have hg : (o.syms[o.goal]?.map BSym.name).getD [] = F.goal := by rw [hm.goal]; rfl
  have hna : txt "$accept" ∉ names F.uses := by
    intro h
    obtain ⟨r, e⟩ := hid_dollar2 (hd _ h (by decide))
    rw [show txt "$accept" = [36, 97, 99, 99, 101, 112, 116] by decide] at e
    cases e
  have hrn : ∀ r ∈ F.rules, r.lhs ∈ names F.uses ∧ ∀ y ∈ r.rhs, y ∈ names F.uses := by
    intro r hr
    obtain ⟨a, -, b, -⟩ := rules_names hF r hr
    exact ⟨a, b⟩
  have hacc : symbolName o ((tokenNames F.uses).length + 1) = Byacc.str "$accept" := by
    unfold symbolName
    rw [if_neg (by omega), if_pos hm.tokens.1.symm]
  have hlhs2 : o.gram.lhs 2 = (tokenNames F.uses).length + 1 := hpk.lhs 0 _ _ rfl
  have hrules : nakedRules o (finalNaked F) 2 1 (o.gram.nrules - 2) = nRules F.uses 3 (txt "$accept") F.rules := by
    rw [hm.nrules, show F.rules.length + 3 - 2 = F.rules.length + 1 by omega, nakedRules]
    have hflat := hpk.flat
    have e1 : ((o.gram.ritem.drop 1).takeWhile (fun y => decide (0 ≤ y))).map Int.toNat = [(tokenNames F.uses).length + 2, 0] := by
      rw [hflat]
      change (([(((tokenNames F.uses).length + 1 + 1 : Nat) : Int), ((0 : Nat) : Int)] ++ (-((2 : Nat) : Int)) :: blocks 3 (F.rules.map (numRule F.uses F.goal))).takeWhile
        (fun y => decide (0 ≤ y))).map Int.toNat = _
      rw [List.cons_append, List.takeWhile_cons, if_pos (by simp; omega), List.cons_append, List.takeWhile_cons, if_pos (by simp), List.nil_append, List.takeWhile_cons,
        if_neg (by simp)]
      rfl
    simp only [e1]
    have e2 : nakedHead o 2 = [] := by
      unfold nakedHead
      simp only [hlhs2, hacc]
      rw [if_pos (by rw [show 2 - 1 = 1 from rfl, hpk.low.2]; omega)]
      rfl
    have e3 : nakedBody o (finalNaked F) 2 [(tokenNames F.uses).length + 2, 0] = [] := by
      unfold nakedBody
      simp only [hlhs2, hacc]
      rfl
    rw [e2, e3, List.nil_append, List.nil_append]
    refine nRules_eq hm (finalNaked F) F.rules 3 4 (txt "$accept") (by omega) hrn ?_ ?_ ?_
    · rw [hflat]
      simp [augCFG, blocks]
    · intro j hj
      refine ⟨?_, ?_⟩
      · have := hpk.lhs (j + 1) (numRule F.uses F.goal F.rules[j]).1 (numRule F.uses F.goal F.rules[j]).2 (by
          simp [augCFG, List.getElem?_eq_getElem hj])
        rw [show 3 + j = j + 1 + 2 by omega, this]; rfl
      · unfold finalNaked
        rw [show 3 + j = j + 1 + 1 + 1 by omega]
        simp [List.getElem?_eq_getElem hj]
    · intro n hn
      rw [show 3 - 1 = 2 from rfl, hlhs2]
      exact ⟨fun h => absurd h (number_token F.uses F.goal hn).2.2, fun h => absurd (h ▸ hn) hna⟩
  unfold nakedText nText
  rw [nTokens_eq hm hdt, hg, hrules]
  have e : (List.range ((finalNaked F).levels.toNat + 1)).flatMap (fun k : Nat => nakedLevel o k) =
      (List.range' 1 (levels F.all)).flatMap (nLevel F.uses (tokenNames F.uses)) := by
    have hk : (finalNaked F).levels.toNat = levels F.all := by unfold finalNaked; simp
    rw [hk, List.range_succ_eq_map, List.flatMap_cons]
    rw [show nakedLevel o ((0 : Nat) : Int) = [] by rw [nLevel_eq hm hdt]; rfl, List.nil_append, List.range'_eq_map_range, List.flatMap_map, List.flatMap_map]
    refine List.flatMap_congr fun k _ => ?_
    rw [nLevel_eq hm hdt, if_neg (by omega), Nat.add_comm]
  rw [e]
  rfl

end Verif.Byacc.Rd
