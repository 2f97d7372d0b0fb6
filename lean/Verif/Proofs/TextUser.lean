import Verif.Spec.OutUser
import Verif.Proofs.TextTok
import Verif.Proofs.TextActs
set_option autoImplicit false
namespace Verif.Byacc
open Rd Spec.OutText Spec.YText

/-! The user's code in the output -/

variable {I : TextIn}

theorem str_num (n : Nat) : (toString n).toList.map Char.toNat = decDigits n := by
  rw [show (toString n).toList = Nat.toDigits 10 n by simp [toString]]; rfl

theorem inOrder_grow {ps : List (List Nat)} {t : List Nat} (b : List Nat) (h : InOrder ps t) : InOrder ps (t ++ b) := by
  cases h with
  | nil => exact .nil _
  | snoc ps p a c h hl => rw [List.append_assoc (a ++ p)]; exact .snoc ps p a _ h hl

theorem inOrder_ft {ps : List (List Nat)} {f : OFile} {w w' : Wr} (h : InOrder ps (fileText I f w)) (hg : Grow w w') : InOrder ps (fileText I f w') := by
  obtain ⟨b, e⟩ := grow_fileText (I := I) f hg
  rw [e]
  exact inOrder_grow b h

/-- The parts are in the file, which ends with a newline. -/
def Has (I : TextIn) (f : OFile) (ps : List (List Nat)) (w : Wr) : Prop := InOrder ps (fileText I f w) ∧ LineStart (fileText I f w)

theorem Has.mk' {f : OFile} {ps : List (List Nat)} {w w' : Wr} (h : Has I f ps w) (hg : Grow w w') (hl : LineStart (fileText I f w')) : Has I f ps w' :=
  ⟨inOrder_ft h.1 hg, hl⟩

theorem Has.add {f : OFile} {ps : List (List Nat)} {w w' : Wr} (p x : List Nat) (h : Has I f ps w) (e : fileText I f w' = fileText I f w ++ p ++ x)
    (hx : (p ++ x).getLast? = some 10) : Has I f (ps ++ [p]) w' := by
  refine ⟨e ▸ .snoc ps p _ _ h.1 h.2, ?_⟩
  rw [e, List.append_assoc]
  exact lineStart_append hx

theorem ft_section (f : OFile) (l : List (List Nat)) (w : Wr) : fileText I f (w.section f l) = fileText I f w ++ l.flatMap (fun s => s ++ [10]) := by
  unfold Wr.section
  induction l generalizing w with
  | nil => simp
  | cons s l ih => rw [List.foldl_cons, ih, ft_put, ft_bumpIf, List.flatMap_cons]; simp

theorem Has.section {ps : List (List Nat)} {w : Wr} (f : OFile) (l : List (List Nat)) (h : Has I f ps w) : Has I f ps (w.section f l) := by
  refine h.mk' (grow_section _ _ (Grow.refl _)) ?_
  rw [ft_section]
  cases l using List.reverseRecOn with
  | nil => simpa using h.2
  | append_singleton l s => rw [List.flatMap_append]; exact lineStart_append (by simp)

theorem Has.ite {f : OFile} {ps : List (List Nat)} {w w' : Wr} {c : Prop} [Decidable c] (h1 : c → Has I f ps w') (h2 : ¬ c → Has I f ps w) :
    Has I f ps (if c then w' else w) := by
  split
  · next h => exact h1 h
  · next h => exact h2 h

theorem ft_lineno (w : Wr) : ∃ x, fileText I .code (w.codeLineno I .code) = fileText I .code w ++ x ∧ (x = [] ∨ x.getLast? = some 10) := by
  unfold Wr.codeLineno
  split
  · exact ⟨lineText (w.outline + 2) I.codeName, by simp [fileText, bytes, Piece.bytes], .inr (last_lineText _ _)⟩
  · exact ⟨[], by simp, .inl rfl⟩

theorem last_append {p x : List Nat} (hp : p.getLast? = some 10) (hx : x = [] ∨ x.getLast? = some 10) : (p ++ x).getLast? = some 10 := by
  rcases hx with rfl | hx
  · simpa using hp
  · rw [List.getLast?_append, hx]; rfl

theorem Has.codeLines {ps : List (List Nat)} {w : Wr} (name : String) (b : Option CodeBlock) (h : Has I .code ps w) :
    Has I .code (ps ++ codePart (str name) b) (w.codeLines I .code name b) := by
  unfold Wr.codeLines codePart
  cases b with
  | none => simpa using h
  | some b =>
    dsimp only
    rw [if_pos rfl, if_pos rfl]
    obtain ⟨x, e, hx⟩ := ft_lineno (I := I) ((((((w.bump b.num).bump 3).put .code [10]).put .code (str "/* %code \"" ++ str name ++ str "\" block start */\n")).put .code b.lines).put .code
      (str "/* %code \"" ++ str name ++ str "\" block end */\n"))
    have h1 : Has I .code ps (((w.bump b.num).bump 3).put .code [10]) := h.mk' (grow_put _ _ (grow_bump _ (grow_bump _ (Grow.refl _))))
      (by rw [ft_put]; exact lineStart_append rfl)
    refine h1.add _ x ?_ (last_append ?_ hx)
    · rw [e]
      simp only [ft_put, List.append_assoc]
      rfl
    · rw [show txt "\" block end */\n" = txt "\" block end */" ++ [10] by decide]
      simp

/-- top of the file; the first block need not start on a line of its own -/
theorem top_has (name : String) (b : Option CodeBlock) (w : Wr) : InOrder (codePart (str name) b) (fileText I .code (w.codeLines I .code name b)) := by
  unfold codePart
  cases b with
  | none => exact .nil _
  | some b =>
    have h0 : Has I .code [] (w.put .code [10]) := ⟨.nil _, by rw [ft_put]; exact lineStart_append rfl⟩
    have := (h0.codeLines name (some b)).1
    have e : (w.codeLines I .code name (some b)) = (w.codeLines I .code name (some b)) := rfl
    obtain ⟨x, e, hx⟩ := ft_lineno (I := I) ((((((w.bump b.num).bump 3).put .code [10]).put .code (str "/* %code \"" ++ str name ++ str "\" block start */\n")).put .code b.lines).put .code
      (str "/* %code \"" ++ str name ++ str "\" block end */\n"))
    have : fileText I .code (w.codeLines I .code name (some b)) = (fileText I .code w ++ [10]) ++ (txt "/* %code \"" ++ str name ++ txt "\" block start */\n" ++ b.lines ++
        txt "/* %code \"" ++ str name ++ txt "\" block end */\n") ++ x := by
      unfold Wr.codeLines
      dsimp only
      rw [if_pos rfl, if_pos rfl, e]
      simp only [ft_put, List.append_assoc]
      rfl
    rw [this]
    exact .snoc [] _ _ _ (.nil _) (lineStart_append rfl)

theorem ft_putcs (f : OFile) (w : Wr) (t : List Nat) : fileText I f (w.putcs f t) = fileText I f w ++ t := by
  unfold Wr.putcs
  induction t generalizing w with
  | nil => simp
  | cons c t ih => rw [List.foldl_cons, ih, ft_putc]; simp

theorem ft_inputLineno (w : Wr) (n : Nat) : fileText I .code (w.inputLineno I n) = fileText I .code w ++ directive I.lflag n I.inputName := by
  unfold Wr.inputLineno directive
  cases I.lflag with
  | true => simp
  | false =>
    rw [str_num]
    simp only [Bool.not_false, if_true, Bool.false_eq_true, if_false, ft_put, ft_bump]
    rfl

theorem last_closed (t : List Nat) : (closed t).getLast? = some 10 := by
  unfold closed
  split
  · next h => exact h
  · simp

theorem ft_closed (w : Wr) (t u : List Nat) (hu : u.getLast? = t.getLast?) : fileText I .code (if u.getLast? ≠ some 10 then (w.putcs .code t).putcCode .code 10 else w.putcs .code t) =
    fileText I .code w ++ closed t := by
  unfold closed
  rw [hu]
  split
  · next h => simp [h, ft_putc, ft_putcs]
  · next h =>
    have h : t.getLast? = some 10 := by simpa using h
    simp [h, ft_putcs]

theorem Has.lineno {ps : List (List Nat)} {w : Wr} (h : Has I .code ps w) : Has I .code ps (w.codeLineno I .code) := by
  refine h.mk' (grow_codeLineno _ (Grow.refl _)) ?_
  obtain ⟨x, e, hx⟩ := ft_lineno (I := I) w
  rw [e]
  rcases hx with rfl | hx
  · simpa using h.2
  · exact lineStart_append hx

theorem Has.third {ps : List (List Nat)} {w : Wr} (third : Option (List Nat × List Nat)) (ht : ThirdRead third I.trail) (h : Has I .code ps w) :
    Has I .code (ps ++ thirdPart I.lflag I.inputName third) (w.trailing I) := by
  unfold Wr.trailing
  rcases ht with ⟨rfl, e⟩ | ⟨before, l, after, rest, rfl, e, hl, ha⟩
  · rw [e]; simpa [thirdPart] using h
  · rw [e]
    dsimp only
    have key : ∀ (n : Nat) (t u : List Nat), u.getLast? = t.getLast? →
        Has I .code (ps ++ [directive I.lflag n I.inputName ++ closed t])
          (((if u.getLast? ≠ some 10 then ((w.inputLineno I n).putcs .code t).putcCode .code 10 else (w.inputLineno I n).putcs .code t)).codeLineno I .code) := by
      intro n t u hu
      refine Has.lineno ?_
      refine h.add _ [] ?_ ?_
      · rw [ft_closed _ _ _ hu, ft_inputLineno]; simp
      · rw [List.append_nil, List.getLast?_append, last_closed]; rfl
    have hputcs : ∀ (w : Wr) (a b : List Nat), (w.putcs .code a).putcs .code b = w.putcs .code (a ++ b) := by
      intro w a b; simp [Wr.putcs, List.foldl_append]
    cases l with
    | nil =>
      rw [if_pos (by simp)]
      rcases ha with rfl | ⟨rfl, rfl⟩
      · by_cases hr : rest = []
        · subst hr; simpa [thirdPart] using h
        · rw [if_neg hr]
          have := key (lineAfter before + 1) rest rest rfl
          simpa [thirdPart, hr, lineAfter] using this
      · simpa [thirdPart] using h
    | cons c l =>
      have hc : c ≠ 10 := fun hc => hl (by simp [hc])
      rw [if_neg (by simp [hc]), hputcs]
      have := key (lineAfter before) (c :: l ++ [10] ++ rest) (c :: l ++ [10] ++ rest) rfl
      refine cast ?_ this
      congr 2
      rcases ha with rfl | ⟨rfl, rfl⟩
      · simp [thirdPart, hc]
      · have h1 : (c :: l).getLast? ≠ some 10 := fun h => hl (List.mem_of_getLast? h)
        simp only [thirdPart, hc, if_false]
        congr 2
        unfold closed
        rw [if_neg h1, List.append_nil, if_pos (List.getLast?_concat ..)]

theorem ft_lines (f : OFile) (l : List String) (w : Wr) : fileText I f (w.lines f l) = fileText I f w ++ l.flatMap str := by
  unfold Wr.lines
  induction l generalizing w with
  | nil => simp
  | cons s l ih => rw [List.foldl_cons, ih, Wr.putlCode, ft_put, ft_bumpIf]; simp

theorem Has.destruct {ps : List (List Nat)} {w : Wr} (d : Nat × List Nat) (h : Has I .code ps w) :
    Has I .code (ps ++ destructParts d) (w.destruct I d) := by
  unfold Wr.destruct destructParts
  dsimp only
  rw [str_num, show ∀ a b : List Nat, ps ++ [a, b] = (ps ++ [a]) ++ [b] by simp]
  have h1 : Has I .code (ps ++ [txt "\tcase " ++ decDigits d.1 ++ txt ":\n" ++ d.2 ++ [10]])
      (((((w.bump 1).put .code (str "\tcase " ++ decDigits d.1 ++ str ":\n")).bump (d.2.count 10)).put .code d.2).putcCode .code 10) := by
    refine h.add _ [] ?_ (by simp)
    rw [ft_putc]
    simp only [ft_put, ft_bump, List.append_assoc, List.append_nil]
    rfl
  refine Has.add _ [] h1.lineno ?_ (by decide)
  · rw [ft_lines]
    simp only [List.append_nil]
    rfl

theorem Has.destructs {w : Wr} (l : List (Nat × List Nat)) (ps : List (List Nat)) (h : Has I .code ps w) :
    Has I .code (ps ++ l.flatMap destructParts) (l.foldl (Wr.destruct I) w) := by
  induction l generalizing w ps with
  | nil => simpa using h
  | cons d l ih =>
    rw [List.foldl_cons, List.flatMap_cons, ← List.append_assoc]
    exact ih _ (h.destruct d)

theorem Has.lines {ps : List (List Nat)} {w : Wr} {f : OFile} (l : List String) (hl : (l.flatMap str).getLast? = some 10) (h : Has I f ps w) : Has I f ps (w.lines f l) :=
  h.mk' (grow_lines _ _ (Grow.refl _)) (by rw [ft_lines]; exact lineStart_append hl)

theorem Has.destructImpl {ps : List (List Nat)} {w : Wr} (h : Has I .code ps w) :
    Has I .code (ps ++ I.destructors.flatMap destructParts) (w.destructImpl I) := by
  unfold Wr.destructImpl
  dsimp only
  refine Has.lines _ (by decide) (Has.destructs _ _ (Has.lines _ (by decide) ?_))
  exact h.mk' (grow_putcCode _ _ (Grow.refl _)) (by rw [ft_putc]; exact lineStart_append rfl)

/-- the initial action in the output -/
theorem Has.initial {ps : List (List Nat)} {w : Wr} (h : Has I .code ps w) :
    Has I .code (ps ++ (match I.initialAction with | none => [] | some a => [a ++ [10]])) (w.initial I) := by
  unfold Wr.initial
  cases I.initialAction with
  | none => simpa using h
  | some a => exact h.add _ [] (by rw [ft_put]; simp) (by simp)

theorem restore_map (t : List Nat) : (t.map (fun c => Piece.text [c])).flatMap (Piece.bytes I.codeName) = t := by
  induction t with
  | nil => rfl
  | cons c t ih => simp [Piece.bytes, ih]

end Verif.Byacc
