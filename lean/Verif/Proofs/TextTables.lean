import Verif.Proofs.TextGrow
set_option autoImplicit false
namespace Verif.Byacc
open Rd Spec.OutText Spec.YText

/-! The text of the arrays -/

variable {I : TextIn}

/-- the file with the arrays -/
def outText (I : TextIn) (w : Wr) : List Nat := if I.rflag then w.tab else bytes I.codeName w.code

theorem outText_put (w : Wr) (t : List Nat) : outText I (w.put I.out t) = outText I w ++ t := by
  unfold outText TextIn.out
  cases I.rflag <;> simp [Wr.put, bytes_append, bytes, Piece.bytes]

theorem outText_bump (w : Wr) (k : Nat) : outText I (w.bump k) = outText I w := rfl

theorem outText_newline (w : Wr) : outText I (w.newline I) = outText I w ++ [10] := by
  unfold Wr.newline
  rw [outText_put]
  split <;> rfl

theorem outText_line (w : Wr) (s : String) : outText I (w.line I s) = outText I w ++ txt s ++ [10] := by
  unfold Wr.line
  rw [outText_newline, outText_put]
  rfl

theorem outText_putl (w : Wr) (s : List Nat) : outText I (w.putlCode I.out s) = outText I w ++ s := by
  unfold Wr.putlCode
  rw [outText_put]
  unfold Wr.bumpIf
  split <;> rfl

theorem outText_code (w : Wr) (t : List Nat) : ∃ x, outText I (w.put .code t) = outText I w ++ x ∧ (x = t ∨ x = []) := by
  unfold outText
  cases I.rflag
  · exact ⟨t, by simp [Wr.put, bytes_append, bytes, Piece.bytes], .inl rfl⟩
  · exact ⟨[], by simp [Wr.put], .inr rfl⟩

theorem grow_outText {w w' : Wr} (h : Grow w w') : ∃ b, outText I w' = outText I w ++ b := by
  obtain ⟨⟨a, e⟩, ⟨b, f⟩, -⟩ := h
  unfold outText
  split
  · exact ⟨b, f⟩
  · exact ⟨bytes I.codeName a, by rw [e, bytes_append]⟩

theorem int_text (n : Nat) (v : Int) : ∃ ws d, (∀ c ∈ ws, Space c) ∧ Decimal v d ∧ padLeft n (decInt v) ++ [44] = ws ++ (d ++ [44]) :=
  ⟨List.replicate (n - (decInt v).length) 32, decInt v, by intro c hc; rw [List.mem_replicate] at hc; exact .inl hc.2, (decInt_iff v _).2 rfl,
    by simp [padLeft]⟩

theorem space_nl : ∀ c ∈ ([10] : List Nat), Space c := by intro c hc; simp at hc; subst hc; exact .inr ⟨by omega, by omega⟩

theorem intList_nl (t : List Nat) (l : List Int) (h : IntList t l) : IntList ([10] ++ t) l := by
  cases h with
  | nil _ hw => exact .nil _ (by intro c hc; rcases List.mem_append.1 hc with h | h; exact space_nl c h; exact hw c h)
  | cons ws d t v l hw hd ht =>
    rw [show [10] ++ (ws ++ (d ++ 44 :: t)) = ([10] ++ ws) ++ (d ++ 44 :: t) by simp]
    exact .cons _ _ _ _ _ (by intro c hc; rcases List.mem_append.1 hc with h | h; exact space_nl c h; exact hw c h) hd ht

theorem ints_text (l : List Int) (j : Nat) (w : Wr) :
    ∃ t, outText I (w.ints I l j) = outText I w ++ t ∧ ∀ u m, IntList u m → IntList (t ++ u) (l ++ m) := by
  induction l generalizing j w with
  | nil => exact ⟨[], by simp [Wr.ints], fun u m h => h⟩
  | cons v l ih =>
    obtain ⟨ws, d, h1, h2, h3⟩ := int_text 5 v
    unfold Wr.ints
    split
    · obtain ⟨t, e, f⟩ := ih 1 ((w.newline I).int I v)
      refine ⟨[10] ++ (ws ++ (d ++ 44 :: t)), ?_, ?_⟩
      · rw [e, Wr.int, outText_put, outText_newline, h3]; simp
      · intro u m hu
        rw [show [10] ++ (ws ++ (d ++ 44 :: t)) ++ u = [10] ++ (ws ++ (d ++ 44 :: (t ++ u))) by simp]
        exact intList_nl _ _ (.cons _ _ _ _ _ h1 h2 (f u m hu))
    · obtain ⟨t, e, f⟩ := ih (j + 1) (w.int I v)
      refine ⟨ws ++ (d ++ 44 :: t), ?_, ?_⟩
      · rw [e, Wr.int, outText_put, h3]; simp
      · intro u m hu
        rw [show ws ++ (d ++ 44 :: t) ++ u = ws ++ (d ++ 44 :: (t ++ u)) by simp]
        exact .cons _ _ _ _ _ h1 h2 (f u m hu)

theorem table_text (w : Wr) (name : String) (l : List Int) (hl : l ≠ []) :
    ∃ body, outText I (w.table I name l) = outText I w ++ (if !I.rflag then txt "static " else []) ++ txt "const YYINT " ++ (I.pfx ++ txt name) ++
      txt "[] = {" ++ body ++ txt "};\n" ∧ IntList body l := by
  cases l with
  | nil => exact absurd rfl hl
  | cons v l =>
    unfold Wr.table Wr.startInt
    simp only [List.headD_cons, List.tail_cons]
    obtain ⟨ws, d, h1, h2, h3⟩ := int_text (if 34 - (I.pfx.length + (str name).length) < 6 then 6 else 34 - (I.pfx.length + (str name).length)) v
    obtain ⟨t, e, f⟩ := ints_text (I := I) l 10 (w.put I.out (I.static ++ str "const YYINT " ++ I.pfx ++ str name ++ str "[] = {" ++
      padLeft (if 34 - (I.pfx.length + (str name).length) < 6 then 6 else 34 - (I.pfx.length + (str name).length)) (decInt v) ++ [44]))
    refine ⟨ws ++ (d ++ 44 :: (t ++ [10])), ?_, ?_⟩
    · unfold Wr.endTable
      rw [outText_line, outText_newline, e, outText_put]
      rw [show ∀ x y : List Nat, x ++ y ++ [44] = x ++ (y ++ [44]) by simp, h3]
      have hs : I.static = if !I.rflag then txt "static " else [] := by
        unfold TextIn.static; cases I.rflag <;> rfl
      have hr : txt "};\n" = txt "};" ++ [10] := by decide
      rw [hs, hr]
      simp only [List.append_assoc, List.cons_append, List.nil_append]
      rfl
    · refine .cons _ _ _ _ _ h1 h2 ?_
      have := f [10] [] (.nil _ space_nl)
      simpa using this

theorem lineStart_append {s t : List Nat} (h : t.getLast? = some 10) : LineStart (s ++ t) := by
  right; simp [List.getLast?_append, h]

theorem lineStart_line (w : Wr) (s : String) : LineStart (outText I (w.line I s)) := by
  rw [outText_line]; exact lineStart_append rfl

theorem lineStart_table (w : Wr) (name : String) (l : List Int) : LineStart (outText I (w.table I name l)) := lineStart_line _ _

/-- an array without lines around it -/
theorem hasArray {w w' : Wr} (name : String) (l : List Int) (hl : l ≠ []) (hs : LineStart (outText I w)) (hg : Grow (w.table I name l) w') :
    HasArray (outText I w') (!I.rflag) (I.pfx ++ txt name) [] [] l := by
  obtain ⟨body, e, hb⟩ := table_text (I := I) w name l hl
  obtain ⟨b, eb⟩ := grow_outText (I := I) hg
  exact ⟨outText I w, body, b, by rw [eb, e]; simp, hs, hb⟩

/-- an array between two lines -/
theorem hasArrayIf {w w' : Wr} (name : String) (l : List Int) (hl : l ≠ []) (hs : LineStart (outText I w))
    (hg : Grow (((w.line I "#if YYBTYACC").table I name l).line I "#endif") w') :
    HasArray (outText I w') (!I.rflag) (I.pfx ++ txt name) (txt "#if YYBTYACC\n") (txt "#endif\n") l := by
  obtain ⟨body, e, hb⟩ := table_text (I := I) (w.line I "#if YYBTYACC") name l hl
  obtain ⟨b, eb⟩ := grow_outText (I := I) hg
  refine ⟨outText I w, body, b, ?_, hs, hb⟩
  rw [eb, outText_line, e, outText_line, show txt "#if YYBTYACC\n" = txt "#if YYBTYACC" ++ [10] by decide, show txt "#endif\n" = txt "#endif" ++ [10] by decide]
  simp

theorem lineStart_yyint (w : Wr) : LineStart (outText I (w.yyint I I.out)) := by
  unfold Wr.yyint
  rw [outText_put]
  exact lineStart_append (by decide)

theorem lineStart_stos (w : Wr) (h : LineStart (outText I w)) : LineStart (outText I (w.stos I)) := by
  unfold Wr.stos
  dsimp only
  split
  · exact h
  · rw [outText_putl]; exact lineStart_append (by decide)

theorem lineStart_codeLine (w : Wr) (t : List Nat) (ht : t.getLast? = some 10) (h : LineStart (outText I w)) :
    LineStart (outText I ((w.bump 1).put .code t)) := by
  obtain ⟨x, e, hx⟩ := outText_code (I := I) (w.bump 1) t
  rw [e]
  rcases hx with rfl | rfl
  · exact lineStart_append ht
  · rw [List.append_nil]; exact h

/-! The code file is at the start of a line -/

/-- the code file does not end in the middle of a line -/
def CodeStart (I : TextIn) (w : Wr) : Prop := LineStart (bytes I.codeName w.code)

theorem codeStart_of_out {w w' : Wr} (h : CodeStart I w) (h1 : I.rflag = true → w'.code = w.code) (h2 : LineStart (outText I w')) : CodeStart I w' := by
  unfold CodeStart at *
  cases e : I.rflag with
  | true => rw [h1 e]; exact h
  | false => unfold outText at h2; rw [e] at h2; exact h2

theorem code_put_out (hr : I.rflag = true) (w : Wr) (t : List Nat) : (w.put I.out t).code = w.code := by simp [TextIn.out, hr, Wr.put]

theorem code_newline (hr : I.rflag = true) (w : Wr) : (w.newline I).code = w.code := by
  unfold Wr.newline; rw [code_put_out hr]; split <;> rfl

theorem code_line (hr : I.rflag = true) (w : Wr) (s : String) : (w.line I s).code = w.code := by
  unfold Wr.line; rw [code_newline hr, code_put_out hr]

theorem code_ints (hr : I.rflag = true) (l : List Int) (j : Nat) (w : Wr) : (w.ints I l j).code = w.code := by
  induction l generalizing j w with
  | nil => rfl
  | cons v l ih =>
    unfold Wr.ints
    split
    · rw [ih, Wr.int, code_put_out hr, code_newline hr]
    · rw [ih, Wr.int, code_put_out hr]

theorem code_table (hr : I.rflag = true) (n : String) (l : List Int) (w : Wr) : (w.table I n l).code = w.code := by
  unfold Wr.table Wr.endTable Wr.startInt
  rw [code_line hr, code_newline hr, code_ints hr, code_put_out hr]

theorem code_putl (hr : I.rflag = true) (s : List Nat) (w : Wr) : (w.putlCode I.out s).code = w.code := by
  unfold Wr.putlCode
  rw [code_put_out hr]
  unfold Wr.bumpIf
  split <;> rfl

theorem cs_table {w : Wr} (h : CodeStart I w) (n : String) (l : List Int) : CodeStart I (w.table I n l) :=
  codeStart_of_out h (fun hr => code_table hr n l w) (lineStart_table w n l)

theorem cs_line {w : Wr} (h : CodeStart I w) (s : String) : CodeStart I (w.line I s) :=
  codeStart_of_out h (fun hr => code_line hr w s) (lineStart_line w s)

theorem cs_stos {w : Wr} (h : CodeStart I w) : CodeStart I (w.stos I) := by
  unfold Wr.stos
  dsimp only
  split
  · exact h
  · refine codeStart_of_out h (fun hr => ?_) ?_
    · rw [code_putl hr, code_table hr, code_putl hr]
    · rw [outText_putl]; exact lineStart_append (by decide)

theorem cs_yyint {w : Wr} (h : CodeStart I w) : CodeStart I (w.yyint I I.out) := by
  refine codeStart_of_out h (fun hr => ?_) (lineStart_yyint w)
  unfold Wr.yyint
  rw [code_put_out hr]
  unfold Wr.countLine
  split <;> rfl

theorem cs_code (w : Wr) (k : Nat) {t : List Nat} (ht : t.getLast? = some 10) : CodeStart I ((w.bump k).put .code t) := lineStart_put _ ht

theorem cs_tables {w : Wr} (h : CodeStart I w) : CodeStart I (w.tables I) := by
  unfold Wr.tables
  dsimp only
  exact cs_line (cs_table (cs_line (cs_table (cs_table (cs_code _ _ (by simp)) _ _) _ _) _) _ _) _

/-- code text that was written is still there -/
theorem hasDefine_of {w w' : Wr} (name : String) (v : Int) (d : List Nat) (hd : Decimal v d) (k : Nat) (h : CodeStart I w)
    (hg : Grow ((w.bump k).put .code (str "#define " ++ str name ++ [32] ++ d ++ [10])) w') : HasDefine (bytes I.codeName w'.code) (txt name) v := by
  obtain ⟨⟨l, e⟩, -⟩ := hg
  refine ⟨bytes I.codeName w.code, d, bytes I.codeName l, ?_, h, hd⟩
  rw [e, bytes_append]
  simp only [Wr.put, Wr.bump, bytes_append]
  simp only [bytes, List.flatMap_cons, List.flatMap_nil, Piece.bytes, List.append_nil, List.append_assoc]
  rfl

theorem decimal_nat (n : Nat) : Decimal n (decDigits n) := (decInt_iff n _).2 (by simp [decInt])

theorem cs_defines (w : Wr) (hi : I.iflag = false) : CodeStart I (w.defines I .code) := by
  unfold Wr.defines
  simp only [hi]
  simp only [reduceCtorEq, if_false, ne_eq, not_false_eq_true, decide_true, Bool.true_or, Bool.or_true, if_true, decide_false, Bool.false_and, Bool.or_false, Bool.and_true, Bool.false_eq_true]
  split
  · exact lineStart_put _ (by decide)
  · exact lineStart_put _ (by simp)

end Verif.Byacc
