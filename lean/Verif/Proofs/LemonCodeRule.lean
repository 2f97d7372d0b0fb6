import Verif.Proofs.LemonCode
import Verif.Proofs.LemonReadItems
/-
Helper lemmas for C75: `translate_code`.
-/
set_option autoImplicit false
namespace Verif.Lemon
open Verif.Spec.RuleCode
open Verif.Spec.GFile (text)
open Verif.Spec.Words (letter digit inName)

theorem decimalInt_eq (i : Int) : decimalInt i = num i := by
  unfold decimalInt num
  cases i with
  | ofNat n =>
    rw [if_neg (by simp)]
    rw [decimal_eq]
    rfl
  | negSucc n =>
    rw [if_pos (by simp), decimal_eq]
    have : toString (Int.negSucc n) = "-" ++ toString (n + 1) := rfl
    rw [this]
    simp [text]

theorem decimal_num (n : Nat) : decimal n = num (n : Int) := by rw [decimal_eq]; rfl

/-- the labels of a rule -/
def RRule.labels (r : RRule) : Labels := ⟨r.lhsalias, r.rhs.map Prod.snd⟩

/-- the code of a rule as it is given, a line end if there is none -/
def RRule.source (r : RRule) : List Nat := r.code.getD [10]

theorem yymsp_entry (n i : Nat) : yymsp ((i : Int) - n + 1) = entry n i := by
  rw [yymsp, entry, decimalInt_eq]
  have e1 : text "yymsp[" = [121, 121, 109, 115, 112, 91] := by decide
  have e2 : text "]" = [93] := by decide
  rw [e1, e2]

theorem minor_eq (n i d : Nat) : yymsp ((i : Int) - n + 1) ++ dotMinor ++ dotYY d = minor n i d := by
  rw [yymsp_entry, minor, dotYY, decimal_num]
  have e1 : text ".minor.yy" = [46, 109, 105, 110, 111, 114] ++ [46, 121, 121] := by decide
  rw [e1, dotMinor]
  simp

theorem major_eq (n i : Nat) : yymsp ((i : Int) - n + 1) ++ dotMajor = major n i := by
  rw [yymsp_entry, major]
  have e1 : text ".major" = [46, 109, 97, 106, 111, 114] := by decide
  rw [e1, dotMajor]

theorem destroy_eq (x n i : Nat) : destructorCall x ((i : Int) - n + 1) = destroy x n i := by
  rw [destructorCall, destroy, yymsp_entry, decimal_num, dotMinor]
  have e1 : text "  yy_destructor(yypParser," = [32, 32, 121, 121, 95, 100, 101, 115, 116, 114, 117, 99, 116, 111, 114, 40, 121, 121, 112, 80, 97, 114, 115, 101, 114, 44] := by decide
  have e2 : text ",&" = [44, 38] := by decide
  have e3 : text ".minor);\n" = [46, 109, 105, 110, 111, 114] ++ [41, 59, 10] := by decide
  rw [e1, e2, e3]
  simp

/-- the value of the left side is kept in a variable: the first symbol has a label that is not that of the left side, and there is no comment -/
def RRule.isLocal (r : RRule) (ps : List Piece) : Bool := r.labels.comment.isSome && !(ps.contains .mark)

/-- the field of the symbol with number `i` -/
def RRule.field (s : RState) (r : RRule) (i : Nat) : Nat := ((r.rhs[i]?.bind fun p => s.refDtnum p.1)).getD 0

/-- `lhsDirect` in terms of the pieces -/
theorem lhsDirect_eq (r : RRule) (ps : List Piece) (hd : Divides r.labels.comment r.source ps) :
    lhsDirect r r.source = if ∀ m, r.labels.comment = some m → m.length < 900 then some (!r.isLocal ps, r.labels.comment.bind fun m => markLen m ps) else none := by
  have hh : r.labels.rhs.head? = r.rhs.head?.map Prod.snd := by simp [RRule.labels]
  unfold lhsDirect
  rcases Option.eq_none_or_eq_some r.labels.comment with hc | ⟨m, hc⟩
  · rw [if_pos (by simp [hc])]
    simp only [RRule.isLocal, hc, Option.isSome_none, Bool.false_and, Bool.not_false, Option.bind_none]
    unfold Labels.comment at hc
    rw [hh] at hc
    have hl : r.labels.lhs = r.lhsalias := rfl
    rw [hl] at hc
    rcases h1 : r.rhs.head?.map Prod.snd with _ | _ | b
    · rfl
    · rfl
    · rw [h1] at hc
      rcases h2 : r.lhsalias with _ | a
      · rfl
      · rw [h2] at hc
        simp only at hc ⊢
        split at hc
        · rename_i e; simp [e]
        · simp at hc
  · obtain ⟨a, b, h1, h2, hab, rfl⟩ := comment_form _ _ hc
    rw [hh] at h2
    have h1 : r.lhsalias = some a := h1
    rw [h1, h2]
    simp only [hab, if_false]
    rw [hc] at hd
    have hs := strstr_divides hd (by simp [overwrites])
    by_cases hlen : (overwrites a b).length < 900
    · rw [if_pos (by omega), if_pos (by rw [hc]; simpa using hlen)]
      rw [hs, RRule.isLocal, hc]
      simp only [Option.isSome_some, Bool.true_and, Bool.not_not, Option.bind_some]
      by_cases hm : .mark ∈ ps
      · obtain ⟨u, v, e, hu⟩ := mark_split ps hm
        have : ps.contains .mark = true := by simpa using hm
        rw [this, e, markLen_append _ _ _ hu]
      · have : ps.contains .mark = false := by simpa using hm
        rw [this, markLen_none _ _ hm]
    · rw [if_neg (by omega), if_neg (by rw [hc]; simpa using hlen)]

/-- the environment of the loop -/
def RRule.env (s : RState) (r : RRule) (loc : Bool) (skip : Option Nat) : CodeEnv :=
  { s := s, lhsalias := r.lhsalias, rhs := r.rhs, skip := skip
    zLhs := if !loc then yymsp (1 - (r.rhs.length : Int)) ++ dotMinor ++ dotYY (s.dtnum r.lhs) else yylhsminor ++ dotYY (s.dtnum r.lhs)
    zOvwrt := overwrites (r.lhsalias.getD []) (((r.rhs.head?.map Prod.snd).getD none).getD []) }

/-- the state in which the loop begins -/
def RRule.begin (s : RState) (r : RRule) : CodeSt :=
  ⟨[], false, sameLabel r, (List.replicate r.rhs.length false).set 0 (sameLabel r),
    match r.rhs with
    | (sp, _) :: _ => if sameLabel r ∧ s.dtnum r.lhs ≠ s.refField sp then [CodeErr.differentTypes] else []
    | [] => []⟩

/-- the message for the label of the left side -/
def RRule.lhsErrs (r : RRule) (used : Bool) : List CodeErr :=
  match r.lhsalias with
  | some a => if used then [] else [CodeErr.lhsUnused a]
  | none => []

/-- what is left after the loop -/
def RRule.finish (s : RState) (r : RRule) (loc : Bool) (st : CodeSt) : Trans :=
  let pre := match r.rhs with
    | (sp, none) :: _ => if s.hasDestructor sp then destructorCall (s.refIndex sp) (1 - (r.rhs.length : Int)) else []
    | _ => []
  let errs1 := r.lhsErrs st.lhsused
  let tail := r.rhs.zipIdx.map fun p => codeTail s r st.used p.2 p.1
  let suffix := tail.flatMap Prod.snd ++ if !loc then [] else
    [32, 32] ++ yymsp (1 - (r.rhs.length : Int)) ++ dotMinor ++ dotYY (s.dtnum r.lhs) ++ [32, 61, 32] ++ (r.env s loc none).zLhs ++ [59, 10]
  { code := if st.out = [] then r.source else st.out
    line := if r.code.isSome then r.line else r.ruleline
    noCode := r.code.isNone && pre.isEmpty && suffix.isEmpty
    pre := pre
    suffix := suffix
    lhsLocal := loc
    errs := st.errs ++ errs1 ++ tail.flatMap Prod.fst }

theorem translateCode_eq (s : RState) (r : RRule) (ps : List Piece) (hd : Divides r.labels.comment r.source ps) :
    translateCode s r = if ∀ m, r.labels.comment = some m → m.length < 900 then
      (codeLoop (r.env s (r.isLocal ps) (r.labels.comment.bind fun m => markLen m ps)) r.source.length none r.source (r.begin s)).map (r.finish s (r.isLocal ps)) else none := by
  unfold translateCode
  have : r.code.getD [10] = r.source := rfl
  simp only [this]
  rw [lhsDirect_eq r ps hd]
  split
  · simp only [Option.bind_some, RRule.env, RRule.begin]
    congr 1
    funext st
    simp only [RRule.finish, RRule.env, Bool.not_not]
    cases r.isLocal ps <;> rfl
  · rfl

theorem env_labels (s : RState) (r : RRule) (loc : Bool) (skip : Option Nat) : (r.env s loc skip).labels = r.labels := rfl

theorem env_value (s : RState) (r : RRule) (loc : Bool) (skip : Option Nat) : (r.env s loc skip).value = place r.rhs.length (s.dtnum r.lhs) (r.field s) loc := by
  funext x
  cases x with
  | lhs =>
    simp only [CodeEnv.value, place, RRule.env]
    cases loc with
    | false =>
      simp only [Bool.not_false, if_true, Bool.false_eq_true, if_false]
      have := minor_eq r.rhs.length 0 (s.dtnum r.lhs)
      rw [← this]
      congr 3
      push_cast
      omega
    | true =>
      simp only [Bool.not_true, Bool.false_eq_true, if_false, if_true, dotYY, yylhsminor, decimal_num]
      have e : text "yylhsminor.yy" = [121, 121, 108, 104, 115, 109, 105, 110, 111, 114] ++ [46, 121, 121] := by decide
      rw [e]
      simp
  | rhs i =>
    simp only [CodeEnv.value, place, CodeEnv.place]
    exact minor_eq _ _ _

theorem env_token (s : RState) (r : RRule) (loc : Bool) (skip : Option Nat) : (r.env s loc skip).token = major r.rhs.length := by
  funext i
  exact major_eq _ _

theorem env_skip (s : RState) (r : RRule) (ps : List Piece) (hd : Divides r.labels.comment r.source ps) :
    SkipOK (r.env s (r.isLocal ps) (r.labels.comment.bind fun m => markLen m ps)) (r.labels.comment.getD [47]) ps := by
  rcases Option.eq_none_or_eq_some r.labels.comment with hc | ⟨m, hc⟩
  · rw [hc] at hd ⊢
    have hm : .mark ∉ ps := fun h => by obtain ⟨m', e, _⟩ := hd.marked.mp h; simp at e
    exact .inr ⟨markLen_none _ _ hm, fun k hk => by simp [RRule.env] at hk⟩
  · rw [hc] at hd ⊢
    simp only [Option.getD_some, Option.bind_some]
    by_cases hm : .mark ∈ ps
    · obtain ⟨u, v, e, hu⟩ := mark_split ps hm
      exact .inl ⟨by rw [e, markLen_append _ _ _ hu]; simp, rfl⟩
    · exact .inr ⟨markLen_none _ _ hm, fun k hk => by simp [RRule.env, markLen_none _ _ hm] at hk⟩

theorem divides_text (r : RRule) (ps : List Piece) (hd : Divides r.labels.comment r.source ps) : textOf (r.labels.comment.getD [47]) ps = r.source := by
  rcases Option.eq_none_or_eq_some r.labels.comment with hc | ⟨m, hc⟩
  · rw [hc] at hd ⊢
    have hm : .mark ∉ ps := fun h => by obtain ⟨m', e, _⟩ := hd.marked.mp h; simp at e
    have hp : Plain ps := (divides_plain hd hm).1
    have h1 := lexPieces_textOf [] ps hp
    have h2 := lexPieces_text [47] (textOf [] ps)
    rw [h1] at h2
    rw [hd.text]
    exact h2
  · rw [hc] at hd ⊢
    exact hd.text.symm

theorem comment_slash' (L : Labels) : ∃ m', L.comment.getD [47] = 47 :: m' := by
  rcases Option.eq_none_or_eq_some L.comment with hc | ⟨m, hc⟩
  · exact ⟨[], by rw [hc]; rfl⟩
  · obtain ⟨m', h⟩ := comment_slash L m hc
    exact ⟨m', by rw [hc]; exact h⟩

theorem env_ovwrt (s : RState) (r : RRule) (ps : List Piece) (loc : Bool) (skip : Option Nat) (hd : Divides r.labels.comment r.source ps) (hm : .mark ∈ ps) :
    (r.env s loc skip).zOvwrt = r.labels.comment.getD [47] := by
  obtain ⟨m', e, _⟩ := hd.marked.mp hm
  obtain ⟨a, b, h1, h2, _, rfl⟩ := comment_form _ _ e
  rw [e]
  have h1 : r.lhsalias = some a := h1
  have h2 : r.rhs.head?.map Prod.snd = some (some b) := by simpa [RRule.labels] using h2
  simp [RRule.env, h1, h2]

theorem divides_ok {L : Labels} {m : Option (List Nat)} {z : List Nat} {ps : List Piece} (hd : Divides m z ps) (hb : ¬ LabelBeforeMark L ps) (he : ¬ EndsInLabel L ps) : PiecesOK L ps :=
  ⟨hd.names, hd.others, hd.apart, hb, he, fun u v e => (hd.first u v e).1⟩

/-- the loop for the code of a rule -/
theorem codeLoop_rule (s : RState) (r : RRule) (ps : List Piece) (hi : r.labels.Idents) (hd : Divides r.labels.comment r.source ps) (hb : ¬ LabelBeforeMark r.labels ps)
    (hf : ∀ p ∈ r.rhs, p.2.isSome → (s.refDtnum p.1).isSome) (he : ¬ EndsInLabel r.labels ps) (st : CodeSt) :
    let E := r.env s (r.isLocal ps) (r.labels.comment.bind fun m => markLen m ps)
    ∃ st', codeLoop E r.source.length none r.source st = some st' ∧ LoopDone E (r.labels.comment.getD [47]) false ps st st' := by
  have ht := divides_text r ps hd
  have := codeLoop_pieces (r.env s (r.isLocal ps) (r.labels.comment.bind fun m => markLen m ps)) (r.labels.comment.getD [47]) hi (comment_slash' _) (by
    intro i x hx
    unfold Labels.ref at hx
    split at hx
    · simp at hx
    · split at hx
      · rename_i h
        simp only [Option.some.injEq, Ref.rhs.injEq] at hx
        have hlt : (r.rhs.map Prod.snd).idxOf (some x) < (r.rhs.map Prod.snd).length := List.idxOf_lt_length_of_mem h
        have hg : (r.rhs.map Prod.snd)[(r.rhs.map Prod.snd).idxOf (some x)] = some x := List.getElem_idxOf hlt
        change (r.rhs.map Prod.snd).idxOf (some x) = i at hx
        have hlt' : i < r.rhs.length := by rw [hx] at hlt; simpa using hlt
        simp only [CodeEnv.dtOf]
        change (r.rhs[i]?.bind fun p => s.refDtnum p.1).isSome = true
        rw [List.getElem?_eq_getElem hlt', Option.bind_some]
        apply hf _ (List.getElem_mem hlt')
        simp only [List.getElem_map, hx] at hg
        rw [hg]; rfl
      · simp at hx) ps.length ps r.source.length none false st (Nat.le_refl _) (divides_ok hd hb he) (env_skip s r ps hd) (fun hm => env_ovwrt s r ps _ _ hd hm)
    (by simp) (by rw [ht]) (by simp)
  rw [ht] at this
  exact this

/-- the loop for code that ends in a label -/
theorem codeLoop_rule_end (s : RState) (r : RRule) (ps : List Piece) (hi : r.labels.Idents) (hd : Divides r.labels.comment r.source ps) (hb : ¬ LabelBeforeMark r.labels ps)
    (he : EndsInLabel r.labels ps) (st : CodeSt) :
    codeLoop (r.env s (r.isLocal ps) (r.labels.comment.bind fun m => markLen m ps)) r.source.length none r.source st = none := by
  have ht := divides_text r ps hd
  have := codeLoop_ends (r.env s (r.isLocal ps) (r.labels.comment.bind fun m => markLen m ps)) (r.labels.comment.getD [47]) hi (comment_slash' _) ps.length ps r.source.length none st
    (Nat.le_refl _) hd.names hd.others hd.apart hb he (fun u v e => (hd.first u v e).1) (env_skip s r ps hd) (fun hm => env_ovwrt s r ps _ _ hd hm) (by simp) (by rw [ht])
  rw [ht] at this
  exact this

end Verif.Lemon
