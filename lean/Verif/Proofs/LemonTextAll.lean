import Verif.Proofs.LemonTextLayout
import Verif.Props.C49
/-
Lemmas: the whole C file made by lemon.
-/
set_option autoImplicit false
namespace Verif.Lemon.LT
open Verif.Spec.LText
open Verif.Spec.GFile (text directive)
open Verif.Spec.RuleCode (num)

variable {I : LText} {u v w : LW}

/-! ### lines of the template -/

theorem fgetsGo_line (n : Nat) (t : List Nat) : ∀ (cur l : List Nat), 10 ∉ l → cur.length + l.length + 1 ≤ n →
    fgetsGo n cur (l ++ 10 :: t) = (cur ++ l ++ [10]) :: fgetsGo n [] t := by
  intro cur l
  induction l generalizing cur with
  | nil => intro _ _; simp [fgetsGo]
  | cons c l ih =>
    intro h1 h2
    simp only [List.length_cons] at h2
    simp only [List.mem_cons, not_or] at h1
    rw [List.cons_append, fgetsGo, if_neg (by rintro (h | h); exact h1.1 h.symm; omega)]
    rw [ih _ h1.2 (by simp; omega)]
    simp

theorem templateLines_ok {t : List Nat} {ls : List (List Nat)} (h : TemplateOK t ls) : templateLines t = ls.map (· ++ [10]) := by
  obtain ⟨e, h⟩ := h
  subst e
  unfold templateLines
  induction ls with
  | nil => rfl
  | cons l ls ih =>
    rw [List.flatMap_cons, List.append_assoc, List.singleton_append, fgetsGo_line _ _ _ _ (h l (by simp)).1 (by have := (h l (by simp)).2; simp; omega)]
    rw [ih (fun l hl => h l (by simp [hl]))]
    simp

theorem linesOK_template {t : List Nat} {ls : List (List Nat)} (h : TemplateOK t ls) : LinesOK (templateLines t) := by
  rw [templateLines_ok h]
  intro l hl
  obtain ⟨x, hx, rfl⟩ := List.mem_map.1 hl
  exact ⟨x, rfl, (h.lines x hx).1⟩

theorem isMark_line (l : List Nat) : isMark (l ++ [10]) = [37, 37].isPrefixOf l := by
  unfold isMark
  rcases l with _ | ⟨a, _ | ⟨b, l⟩⟩
  · decide
  · simp [List.isPrefixOf]
  · show ((a == 37) && ((b == 37) && true)) = ((37 == a) && ((37 == b) && true))
    rw [Bool.eq_iff_iff]
    simp only [Bool.and_eq_true, beq_iff_eq, and_true]
    constructor <;> exact fun h => ⟨h.1.symm, h.2.symm⟩

theorem splitOnP_map {α β : Type} (f : α → β) (p : β → Bool) (l : List α) : (l.map f).splitOnP p = (l.splitOnP fun a => p (f a)).map (List.map f) := by
  induction l with
  | nil => simp
  | cons a l ih =>
    rw [List.map_cons, List.splitOnP_cons, List.splitOnP_cons, ih]
    split
    · simp
    · cases l.splitOnP fun a => p (f a) <;> simp

/-! ### the name of the parser -/

theorem renameGo_step (name : List Nat) (prev : Option Nat) (c : Nat) (t : List Nat) (h : ¬ text "Parse" <+: c :: t) :
    renameGo name prev (c :: t) = c :: renameGo name (some c) t := by
  rw [renameGo.eq_def]
  split
  · rename_i e
    exact absurd ⟨_, e.symm⟩ h
  · rename_i e
    simp only [List.cons.injEq] at e
    rw [e.1, e.2]
  · rename_i e; simp at e

theorem renameGo_alpha (name : List Nat) (p c : Nat) (t : List Nat) (h : isAlpha p = true) : renameGo name (some p) (c :: t) = c :: renameGo name (some c) t := by
  by_cases hp : text "Parse" <+: c :: t
  · obtain ⟨t', e⟩ := hp
    rw [show text "Parse" = [80, 97, 114, 115, 101] by decide] at e
    simp only [List.cons_append, List.nil_append, List.cons.injEq] at e
    obtain ⟨rfl, rfl⟩ := e
    have hs : ∀ (p : Option Nat) (c : Nat) (t : List Nat), c ≠ 80 → renameGo name p (c :: t) = c :: renameGo name (some c) t := by
      intro p c t hc
      refine renameGo_step _ _ _ _ ?_
      rintro ⟨x, e⟩
      rw [show text "Parse" = [80, 97, 114, 115, 101] by decide] at e
      simp at e
      exact hc e.1.symm
    rw [hs _ 97 _ (by decide), hs _ 114 _ (by decide), hs _ 115 _ (by decide), hs _ 101 _ (by decide), renameGo, if_pos (by simpa using h)]
  · exact renameGo_step _ _ _ _ hp

theorem isAlpha_iff (c : Nat) : isAlpha c = true ↔ Alpha c := by
  unfold isAlpha Alpha
  simp [isUpper, isLower]

theorem renameGo_rest (name t : List Nat) (w : List Nat) (hw : ∀ c ∈ w, Alpha c) : ∀ p, Alpha p → renameGo name (some p) (w ++ t) = w ++ renameGo name (some (w.getLast?.getD p)) t := by
  induction w with
  | nil => intro p _; rfl
  | cons c w ih =>
    intro p hp
    rw [List.cons_append, renameGo_alpha _ _ _ _ ((isAlpha_iff p).2 hp), ih (fun x hx => hw x (by simp [hx])) c (hw c (by simp))]
    cases w <;> simp [List.getLast?_cons]

theorem renameGo_between (name t : List Nat) (w : List Nat) (hw : ∀ c ∈ w, ¬ Alpha c) : ∀ prev, renameGo name prev (w ++ t) = w ++ renameGo name (w.getLast?.or prev) t := by
  induction w with
  | nil => intro p; simp
  | cons c w ih =>
    intro p
    rw [List.cons_append, renameGo_step _ _ _ _ ?_, ih (fun x hx => hw x (by simp [hx])) (some c)]
    · cases w <;> simp [List.getLast?_cons]
    · rintro ⟨x, e⟩
      rw [show text "Parse" = [80, 97, 114, 115, 101] by decide] at e
      simp at e
      exact hw c (by simp) (by rw [← e.1]; exact .inl (by omega))

theorem prefix_letters {w t : List Nat} (ht : ∀ c, t.head? = some c → ¬ Alpha c) (h : text "Parse" <+: w ++ t) : text "Parse" <+: w := by
  by_cases hl : (text "Parse").length ≤ w.length
  · exact List.prefix_of_prefix_length_le h (List.prefix_append w t) hl
  · obtain ⟨x, e⟩ := List.prefix_of_prefix_length_le (List.prefix_append w t) h (by omega)
    rw [← e] at h
    obtain ⟨y, rfl⟩ := (List.prefix_append_right_inj w).1 h
    rcases x with _ | ⟨c, x⟩
    · rw [← e] at hl
      simp at hl
    · exfalso
      refine ht c (by simp) ?_
      have : ∀ c ∈ text "Parse", Alpha c := by unfold Alpha; decide
      exact this c (by rw [← e]; simp)

theorem renameGo_word (name t : List Nat) (w : List Nat) (hne : w ≠ []) (hw : ∀ c ∈ w, Alpha c) (ht : ∀ c, t.head? = some c → ¬ Alpha c) (prev : Option Nat) (hp : ∀ c, prev = some c → ¬ Alpha c) :
    ∃ p, renameGo name prev (w ++ t) = renameWord name w ++ renameGo name (some p) t := by
  unfold renameWord
  by_cases h : text "Parse" <+: w
  · obtain ⟨w', rfl⟩ := h
    rw [if_pos (by simp)]
    refine ⟨w'.getLast?.getD 101, ?_⟩
    have e5 : (text "Parse" ++ w').drop 5 = w' := by rw [show (5 : Nat) = (text "Parse").length by decide]; exact List.drop_left
    rw [e5, List.append_assoc, show text "Parse" = [80, 97, 114, 115, 101] by decide]
    rw [List.append_assoc, ← renameGo_rest name t w' (fun c hc => hw c (by simp [hc])) 101 (by unfold Alpha; omega)]
    simp only [List.cons_append, List.nil_append]
    rw [renameGo, if_neg]
    cases prev with
    | none => simp
    | some p =>
      have := hp p rfl
      rw [← isAlpha_iff] at this
      simpa using this
  · rw [if_neg (by simpa [List.isPrefixOf_iff_prefix] using h)]
    rcases w with _ | ⟨c, w⟩
    · exact absurd rfl hne
    · rw [List.cons_append, renameGo_step name prev c (w ++ t) (fun hh => h (prefix_letters (w := c :: w) ht hh)), renameGo_rest name t w (fun x hx => hw x (by simp [hx])) c (hw c (by simp))]
      exact ⟨_, rfl⟩

theorem renameGo_words (name : List Nat) (ws : List (List Nat)) (t : List Nat) (ht : ∀ c, t.head? = some c → ¬ Alpha c)
    (hk : ∀ w ∈ ws, w ≠ [] ∧ ((∀ c ∈ w, Alpha c) ∨ ∀ c ∈ w, ¬ Alpha c)) (hl : ws.IsChain fun a b => ¬ ((∀ c ∈ a, Alpha c) ∧ ∀ c ∈ b, Alpha c)) :
    ∀ prev, ((∀ c, prev = some c → ¬ Alpha c) ∨ ∀ w, ws.head? = some w → ∀ c ∈ w, ¬ Alpha c) → ∃ p, renameGo name prev (ws.flatten ++ t) = ws.flatMap (renameWord name) ++ renameGo name p t := by
  induction ws with
  | nil => intro prev _; exact ⟨prev, rfl⟩
  | cons w ws ih =>
    intro prev hp
    have hk' := hk w (by simp)
    have ih' := ih (fun x hx => hk x (by simp [hx])) (by cases hl <;> simp_all)
    rw [List.flatten_cons, List.append_assoc]
    by_cases hw : ∀ c ∈ w, Alpha c
    · have hprev : ∀ c, prev = some c → ¬ Alpha c := by
        rcases hp with hp | hp
        · exact hp
        · exfalso
          rcases w with _ | ⟨c, w⟩
          · exact hk'.1 rfl
          · exact hp _ rfl c (by simp) (hw c (by simp))
      have hnext : ∀ c, (ws.flatten ++ t).head? = some c → ¬ Alpha c := by
        intro c hc
        rcases ws with _ | ⟨x, ws⟩
        · exact ht c (by simpa using hc)
        · have hx := hk x (by simp)
          have hcn : ¬ ∀ c ∈ x, Alpha c := by
            intro hx'
            rw [List.isChain_cons_cons] at hl
            exact hl.1 ⟨hw, hx'⟩
          rcases x with _ | ⟨d, x⟩
          · exact absurd rfl hx.1
          · simp at hc
            subst hc
            rcases hx.2 with h | h
            · exact absurd h hcn
            · exact h d (by simp)
      obtain ⟨p, e⟩ := renameGo_word name (ws.flatten ++ t) w hk'.1 hw hnext prev hprev
      rw [e]
      obtain ⟨q, e2⟩ := ih' (some p) (.inr (by
        intro x hx c hc
        rcases ws with _ | ⟨y, ws⟩
        · simp at hx
        · simp at hx
          subst hx
          have hcn : ¬ ∀ c ∈ y, Alpha c := by
            intro hx'
            rw [List.isChain_cons_cons] at hl
            exact hl.1 ⟨hw, hx'⟩
          rcases (hk y (by simp)).2 with h | h
          · exact absurd h hcn
          · exact h c hc))
      exact ⟨q, by rw [e2]; simp⟩
    · have hn : ∀ c ∈ w, ¬ Alpha c := hk'.2.resolve_left hw
      rw [renameGo_between _ _ _ hn]
      obtain ⟨q, e2⟩ := ih' (w.getLast?.or prev) (.inl (by
        intro c hc
        rcases List.eq_nil_or_concat w with rfl | ⟨w', x, rfl⟩
        · exact absurd rfl hk'.1
        · simp at hc
          subst hc
          exact hn x (by simp)))
      refine ⟨q, ?_⟩
      rw [e2, List.flatMap_cons, List.append_assoc]
      congr 1
      unfold renameWord
      rw [if_neg]
      rw [List.isPrefixOf_iff_prefix]
      rintro ⟨x, rfl⟩
      exact hn 80 (by simp; left; decide) (.inl (by omega))

/-- every text can be divided into words -/
theorem words_exist (l : List Nat) : ∃ ws, Divided l ws := by
  classical
  induction l with
  | nil => exact ⟨[], rfl, by simp, by simp⟩
  | cons c l ih =>
    obtain ⟨ws, h1, h2, h3⟩ := ih
    by_cases hc : Alpha c
    · rcases ws with _ | ⟨w, ws⟩
      · exact ⟨[[c]], by rw [h1]; rfl, by intro w hw; simp at hw; subst hw; exact ⟨by simp, .inl (by simpa using hc)⟩, by simp⟩
      · by_cases hw : ∀ x ∈ w, Alpha x
        · refine ⟨(c :: w) :: ws, by rw [h1]; rfl, ?_, ?_⟩
          · intro x hx
            rcases List.mem_cons.1 hx with rfl | hx
            · exact ⟨by simp, .inl (by intro y hy; rcases List.mem_cons.1 hy with rfl | hy; exact hc; exact hw y hy)⟩
            · exact h2 x (by simp [hx])
          · rcases ws with _ | ⟨v, ws⟩
            · simp
            · rw [List.isChain_cons_cons] at h3 ⊢
              exact ⟨fun h => h3.1 ⟨hw, h.2⟩, h3.2⟩
        · refine ⟨[c] :: w :: ws, by rw [h1]; rfl, ?_, ?_⟩
          · intro x hx
            rcases List.mem_cons.1 hx with rfl | hx
            · exact ⟨by simp, .inl (by simpa using hc)⟩
            · exact h2 x hx
          · rw [List.isChain_cons_cons]
            exact ⟨fun h => hw h.2, h3⟩
    · refine ⟨[c] :: ws, by rw [h1]; rfl, ?_, ?_⟩
      · intro x hx
        rcases List.mem_cons.1 hx with rfl | hx
        · exact ⟨by simp, .inr (by simpa using hc)⟩
        · exact h2 x hx
      · rcases ws with _ | ⟨v, ws⟩
        · simp
        · rw [List.isChain_cons_cons]
          exact ⟨fun h => hc (h.1 c (by simp)), h3⟩

/-- however a line is divided into words, it is written with the words renamed -/
theorem renameLine_words (n l : List Nat) (ws : List (List Nat)) (h : Divided l ws) : renameLine (some n) (l ++ [10]) = ws.flatMap (renameWord n) ++ [10] := by
  obtain ⟨e, h2, h3⟩ := h
  obtain ⟨p, e2⟩ := renameGo_words n ws [10] (by simp [Alpha]) h2 h3 none (.inl (by simp))
  unfold renameLine
  dsimp only
  rw [e, e2, renameGo_step _ _ _ _ (by rintro ⟨x, e⟩; rw [show text "Parse" = [80, 97, 114, 115, 101] by decide] at e; simp at e), renameGo.eq_def]

theorem renameLine_renames (name : Option (List Nat)) (l : List Nat) : ∃ out, Renames name l out ∧ renameLine name (l ++ [10]) = out ++ [10] := by
  unfold Renames
  cases name with
  | none => exact ⟨l, rfl, rfl⟩
  | some n =>
    obtain ⟨ws, h⟩ := words_exist l
    exact ⟨_, ⟨ws, h, rfl⟩, renameLine_words n l ws h⟩

theorem section_ok {t : List Nat} {ls : List (List Nat)} (h : TemplateOK t ls) (i : Nat) : Section I ls i (secAt I (templateLines t) i) := by
  unfold Section secAt sections
  rw [templateLines_ok h, splitOnP_map]
  simp only [isMark_line]
  have e : ((ls.splitOnP fun l => [37, 37].isPrefixOf l).map (List.map (· ++ [10]))).getD i [] = ((ls.splitOnP fun l => [37, 37].isPrefixOf l).getD i []).map (· ++ [10]) := by
    rw [List.getD_eq_getElem?_getD, List.getD_eq_getElem?_getD, List.getElem?_map]
    cases (ls.splitOnP fun l => [37, 37].isPrefixOf l)[i]? <;> rfl
  rw [e]
  generalize (ls.splitOnP fun l => [37, 37].isPrefixOf l).getD i [] = L
  induction L with
  | nil => exact ⟨[], .nil, rfl⟩
  | cons l L ih =>
    obtain ⟨outs, h1, h2⟩ := ih
    obtain ⟨out, h3, h4⟩ := renameLine_renames (I.s.args .name) l
    refine ⟨out :: outs, .cons h3 h1, ?_⟩
    rw [List.map_cons, List.flatMap_cons, h4, h2]
    simp [lines]

/-! ### the first part -/

theorem header_lines (filename : List Nat) (m : Macros) (h : m.used.length = m.names.length) : (reportHeader filename m).1 = lines (headerLines filename m) := by
  have hall : ((m.names.zip m.used).all fun p => !p.2) = true ↔ m.used.count true = 0 := by
    rw [List.count_eq_zero, List.all_eq_true]
    constructor
    · intro hp ht
      obtain ⟨i, hi, e⟩ := List.mem_iff_getElem.1 ht
      have := hp (m.names[i]'(by omega), true) (by rw [List.mem_iff_getElem]; exact ⟨i, by simp; omega, by simp [e]⟩)
      simp at this
    · intro hn p hp
      have := (List.of_mem_zip hp).2
      cases hb : p.2
      · rfl
      · rw [hb] at this; exact absurd this hn
  unfold reportHeader headerLines
  dsimp only
  by_cases hc : m.used.count true = 0
  · rw [if_pos hc, if_pos (hall.2 hc)]
    simp only [lines, List.cons_append, List.nil_append, List.flatMap_cons, List.flatMap_nil, List.append_nil]
    rw [show headerStart = text "/* This file is automatically generated by Lemon from input grammar" ++ [10] ++ text "** source file \"" by decide,
      show headerFile = text "\". */" ++ [10] by decide, show ([46, 10, 42, 47, 10] : List Nat) = text "." ++ [10] ++ (text "*/" ++ [10]) by decide]
    simp only [List.append_assoc]
  · rw [if_neg hc, if_neg (fun h => hc (hall.1 h))]
    have ho : headerOptions m = lines (((m.names.zip m.used).filter (·.2)).map fun p => text "**   -D" ++ p.1) := by
      unfold headerOptions lines
      generalize m.names.zip m.used = L
      induction L with
      | nil => rfl
      | cons p L ih =>
        rw [List.map_cons, List.flatten_cons, List.filter_cons, ih]
        split <;> simp [show text "**   -D" = [42, 42, 32, 32, 32, 45, 68] by decide]
    rw [ho]
    rw [show headerStart = text "/* This file is automatically generated by Lemon from input grammar" ++ [10] ++ text "** source file \"" by decide,
      show headerFile = text "\". */" ++ [10] by decide,
      show ([32, 119, 105, 116, 104, 32, 116, 104, 101, 115, 101, 32, 111, 112, 116, 105, 111, 110, 115, 58, 10, 42, 42, 10] : List Nat) = text " with these options:" ++ [10] ++ (text "**" ++ [10]) by decide,
      show ([42, 47, 10] : List Nat) = text "*/" ++ [10] by decide]
    simp only [lines, List.cons_append, List.nil_append, List.flatMap_cons, List.flatMap_nil, List.append_nil, List.flatMap_append, List.append_assoc]

theorem mem_takeWhile_true {p : Nat → Bool} {l : List Nat} {c : Nat} (h : c ∈ l.takeWhile p) : p c = true := by
  induction l with
  | nil => simp at h
  | cons a l ih =>
    rw [List.takeWhile_cons] at h
    split at h
    · rcases List.mem_cons.1 h with rfl | h
      · assumption
      · exact ih h
    · simp at h

theorem noBlank (t : List Nat) : NoBlank t (t.drop (blankLines t)) := by
  have ht : t = t.takeWhile isSpace ++ t.dropWhile isSpace := (List.takeWhile_append_dropWhile ..).symm
  have hsp : ∀ c ∈ t.takeWhile isSpace, isSpace c := fun c hc => mem_takeWhile_true hc
  have htail : ∀ c, (t.dropWhile isSpace).head? = some c → ¬ isSpace c = true := by
    intro c hc h
    have := List.head?_dropWhile_not isSpace t
    rw [hc] at this
    simp [h] at this
  unfold blankLines
  generalize t.takeWhile isSpace = ws at ht hsp ⊢
  generalize t.dropWhile isSpace = t' at ht htail
  have hws : ws = (ws.reverse.dropWhile (· != 10)).reverse ++ (ws.reverse.takeWhile (· != 10)).reverse := by
    rw [← List.reverse_append, List.takeWhile_append_dropWhile, List.reverse_reverse]
  have hQ : 10 ∉ (ws.reverse.takeWhile (· != 10)).reverse := by
    intro h
    have := mem_takeWhile_true (List.mem_reverse.1 h)
    simp at this
  have hD : (ws.reverse.dropWhile (· != 10)) = [] ∨ (ws.reverse.dropWhile (· != 10)).head? = some 10 := by
    have := List.head?_dropWhile_not (· != 10) ws.reverse
    cases h : (ws.reverse.dropWhile (· != 10)) with
    | nil => exact .inl rfl
    | cons c l =>
      rw [h] at this
      simp at this
      exact .inr (by simp [this])
  generalize ws.reverse.dropWhile (· != 10) = D at hws hD ⊢
  generalize (ws.reverse.takeWhile (· != 10)).reverse = Q at hws hQ
  have er : t.drop D.length = Q ++ t' := by
    rw [ht, hws, List.append_assoc, ← List.length_reverse (as := D), List.drop_left]
  rw [er]
  refine ⟨D.reverse, by rw [ht, hws]; simp, fun c hc => hsp c (by rw [hws]; simp; exact .inl (by simpa using hc)), ?_, ?_⟩
  · rcases hD with h | h
    · left; rw [h]; rfl
    · right; rw [List.getLast?_reverse]; exact h
  · intro w2 x e hw
    have h10 : isSpace 10 = true := by decide
    rcases List.append_eq_append_iff.1 e with ⟨a, h1, h2⟩ | ⟨a, h1, h2⟩
    · cases a with
      | nil =>
        simp at h2
        exact htail 10 (by rw [h2]; rfl) h10
      | cons c a => exact htail c (by rw [h2]; rfl) (hw c (by rw [h1]; simp))
    · cases a with
      | nil =>
        simp at h2
        exact htail 10 (by rw [← h2]; rfl) h10
      | cons c a =>
        simp at h2
        exact hQ (by rw [h1, ← h2.1]; simp)

/-! ### the whole file -/

theorem reads_start (w : LW) (ls : List (List Nat)) (h : w.rest = ls) : Reads I ls 0 w [] w := ⟨⟨[], by simp, rfl⟩, fun i => by rw [h]; simp⟩

theorem adds_header : Adds u (reportHeader I.filename I.defs).1 (u.header I) := ⟨⟨[.text (reportHeader I.filename I.defs).1], rfl, by simp [written]⟩, rfl⟩

/-- the byte in front of the text of `%include` -/
theorem prevIncl (b : Nat) : (if b = 0 then none else some 10 : Option Nat) = none ∨ (if b = 0 then none else some 10 : Option Nat) = some 10 := by
  split
  · exact .inl rfl
  · exact .inr rfl

theorem reads_back {ls : List (List Nat)} {n : Nat} {s : List Nat} (h : Reads I ls n u s w) :
    ∃ (tables overflow failure error accept code : List Nat), IsTables I tables ∧
    VerbatimArg I .stackOverflow overflow ∧ VerbatimArg I .parseFailure failure ∧ VerbatimArg I .syntaxError error ∧ VerbatimArg I .parseAccept accept ∧
    VerbatimArg I .code code ∧ Reads I ls (n + 14) u (s ++ secAt I ls n ++ lines (defineLines I) ++ secAt I ls (n + 1) ++ tables ++ secAt I ls (n + 2) ++ lines (fallbackLines I) ++
      secAt I ls (n + 3) ++ lines (symbolLines I) ++ secAt I ls (n + 4) ++ lines (ruleLines I) ++ secAt I ls (n + 5) ++ destructorsText I ++ secAt I ls (n + 6) ++ overflow ++
      secAt I ls (n + 7) ++ lines (lhsLines I) ++ secAt I ls (n + 8) ++ lines (lenLines I) ++ secAt I ls (n + 9) ++ actionsText I ++ secAt I ls (n + 10) ++ failure ++
      secAt I ls (n + 11) ++ error ++ secAt I ls (n + 12) ++ accept ++ secAt I ls (n + 13) ++ code) (w.back I) := by
  have h5 := h.xfer
  unfold LW.back
  dsimp only
  generalize LW.xfer I w = w5 at h5 ⊢
  have h6 := (h5.adds (adds_defines (I := I))).xfer
  generalize LW.xfer I (LW.constants I (LW.defines I w5)) = w6 at h6 ⊢
  obtain ⟨tb, ht, h7⟩ := adds_tables (I := I) (u := w6)
  have h7 := ((((((((((h6.adds h7).xfer).adds (adds_fallbacks (I := I))).xfer).adds (adds_symNames (I := I))).xfer).adds (adds_ruleNames (I := I))).xfer).adds (adds_destructors (I := I))).xfer)
  generalize LW.xfer I (LW.destructors I _) = w7 at h7 ⊢
  obtain ⟨ov, ho, h8⟩ := adds_printArg (I := I) (u := w7) .stackOverflow
  have h9 := (((((((h7.adds h8).xfer).adds (adds_ruleLhs (I := I))).xfer).adds (adds_ruleNRhs (I := I))).xfer).adds (adds_actions (I := I))).xfer
  generalize LW.xfer I (LW.actions I _) = w9 at h9 ⊢
  obtain ⟨fl, hf, h10⟩ := adds_printArg (I := I) (u := w9) .parseFailure
  have h11 := (h9.adds h10).xfer
  generalize LW.xfer I (LW.print I none (I.s.args .parseFailure) w9) = w11 at h11 ⊢
  obtain ⟨er, he, h12⟩ := adds_printArg (I := I) (u := w11) .syntaxError
  have h13 := (h11.adds h12).xfer
  generalize LW.xfer I (LW.print I none (I.s.args .syntaxError) w11) = w13 at h13 ⊢
  obtain ⟨ac, ha, h14⟩ := adds_printArg (I := I) (u := w13) .parseAccept
  have h15 := (h13.adds h14).xfer
  generalize LW.xfer I (LW.print I none (I.s.args .parseAccept) w13) = w15 at h15 ⊢
  obtain ⟨co, hc, h16⟩ := adds_printArg (I := I) (u := w15) .code
  exact ⟨tb, ov, fl, er, ac, co, ht, ho, hf, he, ha, hc, h15.adds h16⟩

theorem layout_report {ls : List (List Nat)} (hu : I.defs.used.length = I.defs.names.length) (h : TemplateOK I.template ls) :
    Layout I ls (written (reportText I).code) := by
  have h0 := (reads_start (I := I) (LW.mk [] 1 (templateLines I.template) false) (templateLines I.template) rfl).adds (adds_header (I := I))
  rw [List.nil_append, header_lines _ _ hu] at h0
  have h1 : Reads I (templateLines I.template) 1 (LW.mk [] 1 (templateLines I.template) false)
      (lines (headerLines I.filename I.defs) ++ if I.incl.head? = some 47 then [] else secAt I (templateLines I.template) 0)
      (if I.incl.head? = some 47 then ((LW.mk [] 1 (templateLines I.template) false).header I).skip else ((LW.mk [] 1 (templateLines I.template) false).header I).xfer I) := by
    split
    · rw [List.append_nil]; exact h0.skip
    · exact h0.xfer
  obtain ⟨inc, hi, h2⟩ := adds_print (I := I) (u := if I.incl.head? = some 47 then ((LW.mk [] 1 (templateLines I.template) false).header I).skip else ((LW.mk [] 1 (templateLines I.template) false).header I).xfer I)
    _ (prevIncl (blankLines ((I.s.args .incl).getD []))) I.incl
  have h3 := h1.adds h2
  have e3 : ((LW.mk [] 1 (templateLines I.template) false).header I).includes I = (if I.mhflag then (LW.print I (if blankLines ((I.s.args .incl).getD []) = 0 then none else some 10) (some I.incl)
      (if I.incl.head? = some 47 then ((LW.mk [] 1 (templateLines I.template) false).header I).skip else ((LW.mk [] 1 (templateLines I.template) false).header I).xfer I)).line (cstr "#include \"" ++ I.incName ++ cstr "\"")
      else LW.print I (if blankLines ((I.s.args .incl).getD []) = 0 then none else some 10) (some I.incl)
      (if I.incl.head? = some 47 then ((LW.mk [] 1 (templateLines I.template) false).header I).skip else ((LW.mk [] 1 (templateLines I.template) false).header I).xfer I)) := rfl
  generalize LW.print I (if blankLines ((I.s.args .incl).getD []) = 0 then none else some 10) (some I.incl)
    (if I.incl.head? = some 47 then ((LW.mk [] 1 (templateLines I.template) false).header I).skip else ((LW.mk [] 1 (templateLines I.template) false).header I).xfer I) = w3 at h3 e3
  have h4 : Adds w3 (lines (if I.mhflag then [text "#include \"" ++ I.incName ++ text "\""] else [])) (((LW.mk [] 1 (templateLines I.template) false).header I).includes I) := by
    rw [e3]
    split
    · exact (adds_line _).of_eq (by simp [lines, text_cstr])
    · exact Adds.refl _
  obtain ⟨tb, ov, fl, er, ac, co, ht, ho, hf, he, ha, hc, h6⟩ := reads_back (((h3.adds h4).xfer).adds (adds_tokens (I := I)))
  obtain ⟨⟨x, e, hx⟩, -⟩ := h6
  refine ⟨secAt I (templateLines I.template), I.incl, inc, tb, ov, fl, er, ac, co, section_ok h, noBlank _, hi, ht, ho, hf, he, ha, hc, ?_⟩
  unfold reportText LW.front
  rw [e, List.nil_append, hx]
end Verif.Lemon.LT
