import Verif.Props.C75
import Verif.Props.C74
/-
C75 for grammar files.
-/
set_option autoImplicit false
namespace Verif.Lemon
open Verif.Spec.RuleCode Verif.Spec.GFile Verif.Spec.Words

variable {o : Opts} {items : List Verif.Spec.GFile.Item} {s : RState}

/-- the field of the value of an element of a right side -/
def elemField (o : Opts) (items : List Verif.Spec.GFile.Item) (s : RState) (e : Elem) : Nat := if e.name ∈ nonterminals o items then s.dtnum e.name else 0

theorem reads_ident {n : Nat} {z e : List Nat} {ws : List (Nat × List Nat)} (h : Reads n z ws e) : ∀ w ∈ ws, Letter w.2 → Ident w.2 := by
  induction h with
  | nil => simp
  | skip _ _ ih => exact ih
  | @word line w0 x rest e0 ws0 hw _ ih =>
    intro w hm hl
    rcases List.mem_cons.mp hm with rfl | hm
    · have hl' : ∃ c t, x = c :: t ∧ letter c := by
        rcases hl with ⟨c, t, e, h1, h2⟩ | ⟨c, t, e, h1, h2⟩
        · exact ⟨c, t, e, .inl ⟨h1, h2⟩⟩
        · exact ⟨c, t, e, .inr ⟨h1, h2⟩⟩
      obtain ⟨c, t, e, hc⟩ := hl'
      cases hw with
      | string h => simp only [List.cons.injEq] at e; rw [← e.1] at hc; simp [letter] at hc
      | code h => simp only [List.cons.injEq] at e; rw [← e.1] at hc; simp [letter] at hc
      | name hc' hb hr =>
        simp only [List.cons.injEq] at e
        rw [← e.1] at hc
        exact ⟨_, _, rfl, hc, hb⟩
      | arrow => simp only [List.cons.injEq] at e; rw [← e.1] at hc; simp [letter] at hc
      | alternative hc' hd hb hr =>
        simp only [List.cons.injEq] at e
        rw [← e.1] at hc
        rcases hc' with rfl | rfl <;> simp [letter] at hc
      | char hc' ha hb hs =>
        simp only [List.cons.injEq] at e
        rw [← e.1] at hc
        exact absurd hc hc'.2.1
    · exact ih w hm hl

theorem file_word {ws : List (Nat × Word)} (hf : IsFile items ws) (it : Verif.Spec.GFile.Item) (hi : it ∈ items) (x : Option Nat × Word) (hx : x ∈ it.words) :
    ∃ w ∈ ws, w.2 = x.2 := by
  unfold IsFile at hf
  have hm : x ∈ items.flatMap Verif.Spec.GFile.Item.words := List.mem_flatMap.mpr ⟨it, hi, hx⟩
  revert hm
  generalize items.flatMap Verif.Spec.GFile.Item.words = l at hf
  intro hm
  induction hf with
  | nil => cases hm
  | cons h _ ih =>
    rcases List.mem_cons.mp hm with rfl | hm
    · exact ⟨_, List.mem_cons_self, h.1⟩
    · obtain ⟨w, hw, e⟩ := ih hm
      exact ⟨w, List.mem_cons_of_mem _ hw, e⟩

/-- the labels of a rule in a file are identifiers -/
theorem file_idents {z : List Nat} {ws : List (Nat × Word)} (hz : HasWords z ws) (hf : IsFile items ws) (hv : Valid o items)
    {l : Word} {a : Option Word} {rhs : List Elem} {line : Nat} (hr : .rule l a rhs line ∈ items) : (⟨a, rhs.map Elem.label⟩ : Labels).Idents := by
  have hform := valid_form hv _ hr
  constructor
  · intro x hx
    simp only at hx
    subst hx
    obtain ⟨w, hw, e⟩ := file_word hf _ hr (any x) (by simp [Verif.Spec.GFile.Item.words])
    have := reads_ident hz w hw (by rw [e]; exact hform.2.1 x rfl)
    rw [e] at this
    exact this
  · intro x hx
    simp only [List.mem_map] at hx
    obtain ⟨e, he, hl⟩ := hx
    have hp : .label x ∈ e.posts := by
      unfold Elem.label at hl
      have := List.mem_of_getLast? hl
      rw [List.mem_filterMap] at this
      obtain ⟨p, hp, h⟩ := this
      cases p with
      | alt sep X => simp at h
      | label a => simp at h; subst h; exact hp
    have hlet := (hform.2.2 e he).2 _ hp
    obtain ⟨w, hw, e'⟩ := file_word hf _ hr (any x) (by
      simp only [Verif.Spec.GFile.Item.words, List.mem_append, List.mem_flatMap]
      refine .inl (.inr ⟨e, he, ?_⟩)
      simp only [Elem.words, List.mem_cons, List.mem_flatMap]
      exact .inr ⟨_, hp, by simp [Post.words]⟩)
    have := reads_ident hz w hw (by rw [e']; exact hlet)
    rw [e'] at this
    exact this

theorem class_dtnum (hv : Valid o items) (hh : Holds o items s) (he : isClass items (text "error") = false) (c : Word) :
    ∀ d, (membersOf items c).head?.map s.dtnum = some d → d = 0 := by
  intro d hd
  obtain ⟨x, hx, rfl⟩ := Option.map_eq_some_iff.mp hd
  exact (C74_union_partial hv hh he).2.2.1 x (members_tokens hv c x (List.mem_of_mem_head? hx))

/-- what the data of an element say -/
theorem elem_data (hv : Valid o items) (hh : Holds o items s) (he : isClass items (text "error") = false)
    {l : Word} {a : Option Word} {rhs : List Elem} {line : Nat} (hr : .rule l a rhs line ∈ items) (e : Elem) (hm : e ∈ rhs) :
    ((s.refDtnum (refOf (isClass items) e)).isSome ↔ ¬ (isClass items e.name = true ∧ membersOf items e.name = [])) ∧
    (∀ d, s.refDtnum (refOf (isClass items) e) = some d → d = elemField o items s e) ∧
    (Upper e.name → e.alts = [] → (s.hasDestructor (refOf (isClass items) e) = true ↔ argsOf items "token_destructor" ≠ []) ∧
      s.refIndex (refOf (isClass items) e) = tokenNumber o items e.name) ∧
    (e.name ∈ nonterminals o items → (s.hasDestructor (refOf (isClass items) e) = true ↔ argsOf items "default_destructor" ≠ [] ∨ destructorsOf items e.name ≠ []) ∧
      s.refIndex (refOf (isClass items) e) = 1 + (tokens o items).length + (nonterminals o items).idxOf e.name) := by
  have hok := elem_ok hv hh hr e hm
  have harg : ∀ k, (s.args k).isSome = true ↔ argsOf items k.text.1 ≠ [] := by
    intro k
    rw [hh.args k]
    unfold argOf
    split
    · rename_i h; simp [h]
    · rename_i h; simp [h]
  have hdes : ∀ x, (symOf o items x).destructor.isSome = true ↔ destructorsOf items x ≠ [] := by
    intro x
    simp only [symOf, destructorOf]
    cases destructorsOf items x <;> simp
  have hnu : ∀ x, x ∈ nonterminals o items → ¬ Upper x ∧ isClass items x = false := fun x hx => ⟨((mem_nonterminals x).mp hx).2.1, ((mem_nonterminals x).mp hx).2.2.2⟩
  rcases hok.cases with ⟨hu, ha⟩ | ⟨hu, ha⟩ | hc | ⟨hn, ha⟩
  · -- a token
    have hcl := upper_not_class hv hu
    have htok : e.name ∈ tokens o items := (mem_tokens _).mpr ⟨hok.mem, hu⟩
    have hnn : e.name ∉ nonterminals o items := fun h => (hnu _ h).1 hu
    have hty : (s.sym e.name).type = .TERMINAL := by rw [sym_holds hh _ hok.mem]; simp [symOf, hcl, hu]
    have h0 := (C74_union_partial hv hh he).2.2.1 _ htok
    rw [refOf_plain ha]
    simp only [RState.refDtnum, hty, reduceCtorEq, if_false, RState.hasDestructor, if_true, RState.refIndex]
    refine ⟨by simp [hcl], ?_, ?_, fun h => absurd h hnn⟩
    · intro d hd
      simp only [Option.some.injEq] at hd
      rw [elemField, if_neg hnn, ← hd, h0]
    · intro _ _
      exact ⟨harg .tokenDestructor, index_token hv hh _ htok⟩
  · -- alternatives
    have hcl := upper_not_class hv hu
    have htok : e.name ∈ tokens o items := (mem_tokens _).mpr ⟨hok.mem, hu⟩
    have hnn : e.name ∉ nonterminals o items := fun h => (hnu _ h).1 hu
    have h0 := (C74_union_partial hv hh he).2.2.1 _ htok
    rw [refOf_alts hv hu ha]
    simp only [RState.refDtnum, List.head?_cons, Option.map_some]
    refine ⟨by simp [hcl], ?_, fun _ h => absurd h ha, fun h => absurd h hnn⟩
    intro d hd
    simp only [Option.some.injEq] at hd
    rw [elemField, if_neg hnn, ← hd, h0]
  · -- a class
    have hnn : e.name ∉ nonterminals o items := fun h => by rw [(hnu _ h).2] at hc; simp at hc
    have hnup : ¬ Upper e.name := fun h => by rw [upper_not_class hv h] at hc; simp at hc
    have hsym : s.sym e.name = symOf o items e.name := sym_holds hh _ hok.mem
    rw [refOf_class hc]
    simp only [RState.refDtnum, hsym]
    have hty : (symOf o items e.name).type = .MULTITERMINAL := by simp [symOf, hc]
    have hsub : (symOf o items e.name).subsym = membersOf items e.name := rfl
    rw [hty, if_pos rfl, hsub]
    refine ⟨?_, ?_, fun h => absurd h hnup, fun h => absurd h hnn⟩
    · cases membersOf items e.name <;> simp [hc]
    · intro d hd
      rw [elemField, if_neg hnn, class_dtnum hv hh he _ d hd]
  · -- a nonterminal
    have hcl := (hnu _ hn).2
    have hnup := (hnu _ hn).1
    have hsym : s.sym e.name = symOf o items e.name := sym_holds hh _ hok.mem
    have hty : (symOf o items e.name).type = .NONTERMINAL := by simp [symOf, hcl, hnup]
    rw [refOf_plain ha]
    simp only [RState.refDtnum, hsym, hty, reduceCtorEq, if_false, RState.hasDestructor, RState.refIndex]
    refine ⟨by simp [hcl], ?_, fun h => absurd h hnup, fun _ => ⟨?_, index_nonterminal hv hh _ hn⟩⟩
    · intro d hd
      simp only [Option.some.injEq] at hd
      rw [elemField, if_pos hn, ← hd]
    · rw [Bool.or_eq_true, harg, hdes]
      rfl

theorem dtnum_class (hv : Valid o items) (hh : Holds o items s) (c : Word) (hc : isClass items c = true) : s.dtnum c = 0 := by
  have hn : s.nsymbol = s.realSymbols.length := by
    rw [realSymbols_eq hv hh, nsymbol_eq hv hh]; simp; omega
  obtain ⟨_, _, u3, _, _, _⟩ := unionLoop_spec s s.realSymbols (List.replicate (s.nsymbol * 2) none) (found_replicate _)
    (by rw [fill_replicate, List.length_replicate, hn]; have : 0 < s.nsymbol := by { rw [nsymbol_eq hv hh]; omega }
        omega)
  change s.union.2.length = _ at u3
  have : (s.realSymbols.findIdx fun y => y.name == c) = s.realSymbols.length := by
    rw [List.findIdx_eq_length]
    intro y hy
    rw [realSymbols_eq hv hh] at hy
    have hcn : c ∉ text "$" :: tokens o items ++ nonterminals o items := by
      intro hm
      rcases List.mem_append.mp hm with hm | hm
      · rcases List.mem_cons.mp hm with rfl | hm
        · rw [isClass, List.any_eq_true] at hc
          obtain ⟨it, hit, h⟩ := hc
          have hform := valid_form hv it hit
          cases it <;> simp at h
          subst h
          exact dollar_not_letter (.inr hform.1)
        · have := upper_not_class hv ((mem_tokens _).mp hm).2
          rw [hc] at this; simp at this
      · have := ((mem_nonterminals _).mp hm).2.2.2
        rw [hc] at this; simp at this
    obtain ⟨x, hx, rfl⟩ := List.mem_map.mp hy
    simp only [beq_eq_false_iff_ne]
    rintro rfl
    exact hcn hx
  rw [RState.dtnum, this, List.getD_eq_getElem?_getD, List.getElem?_eq_none (by omega)]
  rfl

/-- C75 for files: what the code of the rules in a valid file becomes.  `C75_around_partial` and `elem_data` tell what is put around it.

Missing: the comment directly behind a label is not found (`C75_mark_violated`), and a labelled token class must have members (`C75_class_violated`). -/
theorem C75_file_partial (o : Opts) (z : List Nat) (ws : List (Nat × Word)) (items : List Verif.Spec.GFile.Item) (hz : HasWords z ws) (hf : IsFile items ws) (hv : Valid o items)
    (he : isClass items (text "error") = false) :
    ∃ s, parseText (ropts o) o.yacc z = some s ∧ errorcnt s = 0 ∧ s.1.rules.length = (parts items).length ∧
      ∀ (k : Nat) (l : Word) (a : Option Word) (rhs : List Elem) (line : Nat) (rest : List Verif.Spec.GFile.Item), (parts items)[k]? = some (.rule l a rhs line, rest) → ∃ r, s.1.rules[k]? = some r ∧
        ∀ ps, Divides (Labels.comment ⟨a, rhs.map Elem.label⟩) (((rest.findSome? Verif.Spec.GFile.Item.codeOf).map Prod.snd).getD (text "\n")) ps →
          ¬ LabelBeforeMark ⟨a, rhs.map Elem.label⟩ ps → (∀ e ∈ rhs, e.label.isSome → isClass items e.name = true → membersOf items e.name ≠ []) →
          ((translateCode s.1 r).isSome ↔ ¬ EndsInLabel ⟨a, rhs.map Elem.label⟩ ps ∧ ∀ m, Labels.comment ⟨a, rhs.map Elem.label⟩ = some m → m.length < 900) ∧
          ∀ t, translateCode s.1 r = some t →
            (t.errs = [] ↔ Proper ⟨a, rhs.map Elem.label⟩ ps (∀ e, rhs.head? = some e → s.1.dtnum l = elemField o items s.1 e)) ∧
            (t.errs = [] → t.code = replace ((Labels.comment ⟨a, rhs.map Elem.label⟩).getD []) ⟨a, rhs.map Elem.label⟩
              (place rhs.length (s.1.dtnum l) (fun i => ((rhs.map (elemField o items s.1))[i]?).getD 0) t.lhsLocal) (major rhs.length) false ps) := by
  obtain ⟨s, h1, h2, h3, hh⟩ := C72_says o z ws items hz hf hv
  refine ⟨s, h1, h2, by rw [hh.rules, List.length_map], ?_⟩
  intro k l a rhs line rest hk
  refine ⟨ruleOf o (isClass items) (.rule l a rhs line, rest), by rw [hh.rules, List.getElem?_map, hk]; rfl, ?_⟩
  have hmem : (Verif.Spec.GFile.Item.rule l a rhs line) ∈ items := by
    have hp : (Verif.Spec.GFile.Item.rule l a rhs line, rest) ∈ parts items := List.mem_of_getElem? hk
    exact mem_parts _ _ hp
  intro ps hd hb hcl
  set r := ruleOf o (isClass items) (.rule l a rhs line, rest) with hrdef
  have hlab : r.labels = ⟨a, rhs.map Elem.label⟩ := by
    simp only [hrdef, RRule.labels, ruleOf, List.map_map]
    rfl
  have hsrc : r.source = ((rest.findSome? Verif.Spec.GFile.Item.codeOf).map Prod.snd).getD (text "\n") := rfl
  have hlen : r.rhs.length = rhs.length := by simp [hrdef, ruleOf]
  have hi : r.labels.Idents := by rw [hlab]; exact file_idents hz hf hv hmem
  have hd' : Divides r.labels.comment r.source ps := by rw [hlab, hsrc]; exact hd
  have hb' : ¬ LabelBeforeMark r.labels ps := by rw [hlab]; exact hb
  have hf' : ∀ p ∈ r.rhs, p.2.isSome → (s.1.refDtnum p.1).isSome := by
    intro p hp hps
    simp only [hrdef, ruleOf, List.mem_map] at hp
    obtain ⟨e, hem, rfl⟩ := hp
    exact (elem_data hv hh he hmem e hem).1.mpr (fun h => hcl e hem hps h.1 h.2)
  have hfield : r.field s.1 = fun i => ((rhs.map (elemField o items s.1))[i]?).getD 0 := by
    funext i
    simp only [RRule.field, hrdef, ruleOf, List.getElem?_map]
    rcases Option.eq_none_or_eq_some rhs[i]? with h | ⟨e, h⟩
    · simp [h]
    · simp only [h, Option.map_some, Option.bind_some, Option.getD_some]
      obtain ⟨g1, g2, _, _⟩ := elem_data hv hh he hmem e (List.mem_of_getElem? h)
      rcases Option.eq_none_or_eq_some (s.1.refDtnum (refOf (isClass items) e)) with h' | ⟨d, h'⟩
      · rw [h'] at g1 ⊢
        simp only [Option.isSome_none, Bool.false_eq_true, false_iff, not_not] at g1
        have : e.name ∉ nonterminals o items := fun hn => by rw [((mem_nonterminals _).mp hn).2.2.2] at g1; simp at g1
        simp [elemField, this]
      · rw [h']
        simp [g2 d h']
  have hfirst : ∀ e ∈ rhs, s.1.refField (refOf (isClass items) e) = elemField o items s.1 e := by
    intro e hem
    have hok := elem_ok hv hh hmem e hem
    obtain ⟨_, g2, _, _⟩ := elem_data hv hh he hmem e hem
    rcases hok.cases with ⟨hu, ha⟩ | ⟨hu, ha⟩ | hc | ⟨hn, ha⟩
    · apply g2
      rw [refOf_plain ha, RState.refDtnum, if_neg]
      · rfl
      · rw [sym_holds hh _ hok.mem]; simp [symOf, upper_not_class hv hu, hu]
    · rw [refOf_alts hv hu ha, RState.refField, elemField, if_neg]
      intro h
      exact ((mem_nonterminals _).mp h).2.1 hu
    · rw [refOf_class hc, RState.refField, elemField, if_neg]
      · exact dtnum_class hv hh _ hc
      · intro h
        rw [((mem_nonterminals _).mp h).2.2.2] at hc
        simp at hc
    · rw [refOf_plain ha, RState.refField, elemField, if_pos hn]
  refine ⟨by rw [C75_safe_partial hi hd' hb' hf', hlab], ?_⟩
  intro t ht
  refine ⟨?_, ?_⟩
  · rw [C75_errors_partial hi hd' hb' hf' ht, hlab]
    have : (∀ p, r.rhs.head? = some p → s.1.dtnum r.lhs = s.1.refField p.1) ↔ (∀ e, rhs.head? = some e → s.1.dtnum l = elemField o items s.1 e) := by
      simp only [hrdef, ruleOf]
      cases rhs with
      | nil => simp
      | cons e rhs =>
        simp only [List.map_cons, List.head?_cons, Option.some.injEq, forall_eq']
        rw [hfirst e (by simp)]
    rw [this]
  · intro hne
    have := C75_code_partial hi hd' hb' hf' ht hne
    rw [hlab, hlen, hfield] at this
    exact this

/-! ### examples -/

theorem divides_lex (m : Option (List Nat)) (z : List Nat) (h : ∀ m', m = some m' → ¬ m' <:+: z) : Divides m z (lexPieces z) := by
  have hp := plain_lexPieces z
  refine ⟨(lexPieces_text _ z).symm, hp.names, hp.others, hp.apart, ?_, ?_⟩
  · constructor
    · intro hm; exact absurd hm hp.mark
    · rintro ⟨m', e, hi⟩; exact absurd hi (h m' e)
  · intro u v e
    exact absurd (by rw [e]; simp) hp.mark

def c75Items : List Verif.Spec.GFile.Item := [.type (text "e") (text "{int") 1, .type (text "n") (text "{char*") 2, .destructor (text "n") (text "{ free($$); ") 3,
  .rule (text "e") (some (text "A")) [⟨text "e", [.label (text "B")]⟩, ⟨text "PLUS", []⟩, ⟨text "n", [.label (text "C")]⟩] 4, .code (text " A = B+f(C,@C); ") 4,
  .rule (text "e") none [⟨text "n", []⟩, ⟨text "n", []⟩] 5, .code (text " g(); ") 5,
  .rule (text "n") none [⟨text "NUM", []⟩] 6]

def c75Text : List Nat := text "%type e {int}\n%type n {char*}\n%destructor n { free($$); }\ne(A) ::= e(B) PLUS n(C). { A = B+f(C,@C); }\ne ::= n n. { g(); }\nn ::= NUM.\n"

/-- The text is that of a valid file; the hypotheses of the theorems hold for the first rule, and the code of it becomes that shown. -/
example : (∃ ws, HasWords c75Text ws ∧ IsFile c75Items ws) ∧ Valid c72Opts c75Items ∧ isClass c75Items (text "error") = false ∧
    (Divides (Labels.comment ⟨some (text "A"), [some (text "B"), none, some (text "C")]⟩) (text " A = B+f(C,@C); ")
      (lexPieces (text " A = B+f(C,@C); "))) ∧
    ¬ LabelBeforeMark ⟨some (text "A"), [some (text "B"), none, some (text "C")]⟩ (lexPieces (text " A = B+f(C,@C); ")) ∧
    ((parseText (ropts c72Opts) false c75Text).map fun s => s.1.rules.map fun r => (translateCode s.1 r).map fun t => (t.pre.isEmpty, t.code, t.suffix.isEmpty)) =
      some [some (true, text " yylhsminor.yy2 = yymsp[-2].minor.yy2+f(yymsp[0].minor.yy5,yymsp[0].major); ", false), some (false, text " g(); ", false), some (true, text "\n", true)] := by
  refine ⟨⟨_, file_of_check _ _ (by decide +kernel)⟩, valid_of_check _ _ (by decide +kernel), by decide, divides_lex _ _ ?_, ?_, by decide +kernel⟩
  · intro m' h
    have : Labels.comment ⟨some (text "A"), [some (text "B"), none, some (text "C")]⟩ = some (text "/*A-overwrites-B*/") := by decide
    rw [this] at h
    simp only [Option.some.injEq] at h
    subst h
    decide
  · rintro ⟨u, x, v, e, _⟩
    exact (plain_lexPieces (text " A = B+f(C,@C); ")).mark (by rw [e]; simp)

/-! ### violations -/

/-- C75 is violated: if the code ends in a label, the loop goes on behind the text of the code. -/
theorem C75_end_violated : ((parseText (ropts c72Opts) false (text "e(A) ::= I(B). {A=B}")).map fun s => (errorcnt s, s.1.rules.map (translateCode s.1))) =
    some (0, [none]) := by decide +kernel

/-- C75 is violated: the comment is not found directly behind a label.  The labels in it are replaced, and the use of `B` after the value has been
overwritten is not reported; with a space before the comment it is. -/
theorem C75_mark_violated :
    ((parseText (ropts c72Opts) false (text "e(A) ::= e(B). {A=1+B/*A-overwrites-B*/;f(B);}")).map fun s => s.1.rules.map fun r => (translateCode s.1 r).map fun t => (t.code, t.errs)) =
      some [some (text "yymsp[0].minor.yy0=1+yymsp[0].minor.yy0/*yymsp[0].minor.yy0-overwrites-yymsp[0].minor.yy0*/;f(yymsp[0].minor.yy0);", [])] ∧
    ((parseText (ropts c72Opts) false (text "e(A) ::= e(B). {A=1+B /*A-overwrites-B*/;f(B);}")).map fun s => s.1.rules.map fun r => (translateCode s.1 r).map fun t => t.errs) =
      some [some [.usedAfter (text "B")]] := by constructor <;> decide +kernel

/-- C75 is violated: with a label on a token class without members, NULL is used. -/
theorem C75_class_violated : ((parseText (ropts c72Opts) false (text "%token_class id.\ne(A) ::= id(B). {A=B;}")).map fun s => (errorcnt s, s.1.rules.map (translateCode s.1))) =
    some (0, [none]) := by decide +kernel

/-- C75 is violated: there is a destructor for tokens, but the value of `I|J` or of a token class is not destroyed, though it has no label. -/
theorem C75_alternatives_violated :
    ((parseText (ropts c72Opts) false (text "%token_destructor {free($$);}\n%token_class c I|J.\ne ::= K I|J c. {f();}")).map fun s => s.1.rules.map fun r => (translateCode s.1 r).map fun t => (t.pre.isEmpty, t.suffix)) =
      some [some (false, [])] := by decide +kernel

/-- C75 is violated: `@A` for the number of the token is not replaced if `A` is also the label of the left side. -/
theorem C75_major_violated :
    ((parseText (ropts c72Opts) false (text "e(A) ::= I(A). {A=f(@A);}")).map fun s => s.1.rules.map fun r => (translateCode s.1 r).map fun t => (t.code, t.errs)) =
      some [some (text "yymsp[0].minor.yy0=f(@yymsp[0].minor.yy0);", [])] := by decide +kernel

end Verif.Lemon
