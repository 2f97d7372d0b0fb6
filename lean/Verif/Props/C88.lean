import Verif.Proofs.TextDefs
import Verif.Props.C87
/-
C88: the arrays in the generated file are the tables of the parser.
-/
set_option autoImplicit false
namespace Verif.Byacc
open Rd Spec.OutText Spec.YText

/-- Every array of numbers is in the file with the tables (the code file, or with `-r` the other one): it starts on a new line, and its
initialisers, read as decimal numbers, are the table.  The arrays that only a backtracking parser needs, and `yystos`, are
in conditional sections. -/
theorem C88_arrays (I : TextIn) (w : Wr) :
    let T := if I.rflag then (w.output I).tab else bytes I.codeName (w.output I).code
    let Has := fun (name : String) (before after : String) (l : List Int) => l ≠ [] → HasArray T (!I.rflag) (I.pfx ++ txt name) (txt before) (txt after) l
    Has "lhs" "" "" I.t.lhs ∧ Has "len" "" "" I.t.len ∧ Has "defred" "" "" (I.t.defred.map Int.ofNat) ∧
    Has "stos" "#if defined(YYDESTRUCT_CALL) || defined(YYSTYPE_TOSTRING)\n" "#endif /* YYDESTRUCT_CALL || YYSTYPE_TOSTRING */\n" I.stos ∧
    Has "dgoto" "" "" (I.t.dgoto.map Int.ofNat) ∧ Has "sindex" "" "" I.t.sindex ∧ Has "rindex" "" "" I.t.rindex ∧
    Has "cindex" "#if YYBTYACC\n" "#endif\n" I.t.cindex ∧ Has "gindex" "" "" I.t.gindex ∧ Has "table" "" "" (I.t.table.map Int.ofNat) ∧
    Has "check" "" "" I.t.check ∧ Has "ctable" "#if YYBTYACC\n" "#endif\n" I.t.ctable := by
  intro T Has
  have hT : T = outText I ((((w.front I).tables I).debug I).back I) := rfl
  have hb : Grow ((w.front I).tables I) ((((w.front I).tables I).debug I).back I) := grow_back (grow_debug (Grow.refl _))
  generalize (((w.front I).tables I).debug I).back I = wE at hT hb
  unfold Wr.tables at hb
  dsimp only at hb
  have l1 := lineStart_yyint (I := I) (w.front I)
  generalize (w.front I).yyint I I.out = w1 at hb l1
  refine ⟨?_, ?_, ?_, ?_, ?_, ?_, ?_, ?_, ?_, ?_, ?_, ?_⟩
  · intro hl
    rw [hT]
    refine hasArray _ _ hl l1 (Grow.trans ?_ hb)
    grow
  · intro hl
    rw [hT]
    refine hasArray _ _ hl (lineStart_table w1 "lhs" I.t.lhs) (Grow.trans ?_ hb)
    grow
  · intro hl
    rw [hT]
    refine hasArray _ _ hl (lineStart_table (w1.table I "lhs" I.t.lhs) "len" I.t.len) (Grow.trans ?_ hb)
    grow
  · intro hl
    rw [hT]
    have l3 := lineStart_table (I := I) ((w1.table I "lhs" I.t.lhs).table I "len" I.t.len) "defred" (I.t.defred.map Int.ofNat)
    generalize ((w1.table I "lhs" I.t.lhs).table I "len" I.t.len).table I "defred" (I.t.defred.map Int.ofNat) = w3 at hb l3
    have hg : Grow (w3.stos I) wE := Grow.trans (by grow) hb
    unfold Wr.stos at hg
    have he : I.stos.isEmpty = false := by simpa using hl
    rw [he] at hg
    simp only [Bool.false_eq_true, if_false] at hg
    obtain ⟨body, e, hbody⟩ := table_text (I := I) (w3.putlCode I.out (str "#if defined(YYDESTRUCT_CALL) || defined(YYSTYPE_TOSTRING)\n")) "stos" I.stos hl
    obtain ⟨b, eb⟩ := grow_outText (I := I) hg
    refine ⟨outText I w3, body, b, ?_, l3, hbody⟩
    rw [eb, outText_putl, e, outText_putl]
    rfl
  all_goals
    have l4 := lineStart_stos (I := I) (((w1.table I "lhs" I.t.lhs).table I "len" I.t.len).table I "defred" (I.t.defred.map Int.ofNat)) (lineStart_table _ _ _)
    generalize (((w1.table I "lhs" I.t.lhs).table I "len" I.t.len).table I "defred" (I.t.defred.map Int.ofNat)).stos I = w4 at hb l4
  · intro hl
    rw [hT]
    exact hasArray _ _ hl l4 (Grow.trans (by grow) hb)
  · intro hl
    rw [hT]
    exact hasArray _ _ hl (lineStart_table w4 "dgoto" (I.t.dgoto.map Int.ofNat)) (Grow.trans (by grow) hb)
  all_goals
    have l5 := lineStart_table (I := I) (w4.table I "dgoto" (I.t.dgoto.map Int.ofNat)) "sindex" I.t.sindex
    generalize (w4.table I "dgoto" (I.t.dgoto.map Int.ofNat)).table I "sindex" I.t.sindex = w5 at hb l5
  · intro hl
    rw [hT]
    exact hasArray _ _ hl l5 (Grow.trans (by grow) hb)
  · intro hl
    rw [hT]
    exact hasArrayIf _ _ hl (lineStart_table w5 "rindex" I.t.rindex) (Grow.trans (by grow) hb)
  all_goals
    have l6 := lineStart_line (I := I) (((w5.table I "rindex" I.t.rindex).line I "#if YYBTYACC").table I "cindex" I.t.cindex) "#endif"
    generalize (((w5.table I "rindex" I.t.rindex).line I "#if YYBTYACC").table I "cindex" I.t.cindex).line I "#endif" = w6 at hb l6
  · intro hl
    rw [hT]
    exact hasArray _ _ hl l6 (Grow.trans (by grow) hb)
  all_goals
    have l7 := lineStart_codeLine (I := I) (w6.table I "gindex" I.t.gindex) (str "#define YYTABLESIZE " ++ decDigits I.t.size ++ [10]) (by simp) (lineStart_table _ _ _)
    generalize ((w6.table I "gindex" I.t.gindex).bump 1).put .code (str "#define YYTABLESIZE " ++ decDigits I.t.size ++ [10]) = w7 at hb l7
  · intro hl
    rw [hT]
    exact hasArray _ _ hl l7 (Grow.trans (by grow) hb)
  · intro hl
    rw [hT]
    exact hasArray _ _ hl (lineStart_table w7 "table" (I.t.table.map Int.ofNat)) (Grow.trans (by grow) hb)
  · intro hl
    rw [hT]
    exact hasArrayIf _ _ hl (lineStart_table (w7.table I "table" (I.t.table.map Int.ofNat)) "check" I.t.check) (Grow.trans (by grow) hb)

/-- The hypotheses hold in the example for C87. -/
example : (c87In false false false none).t.lhs ≠ [] ∧ (c87In false false false none).stos ≠ [] ∧ (c87In false false false none).t.ctable ≠ [] := by decide

/-- The macros with the size of the tables, the final state, the largest token number, and the number of the entry for unknown
tokens are in the code file. -/
theorem C88_defines (I : TextIn) (w : Wr) :
    let T := bytes I.codeName (w.output I).code
    HasDefine T (txt "YYTABLESIZE") I.t.size ∧ HasDefine T (txt "YYFINAL") I.t.final ∧ HasDefine T (txt "YYMAXTOKEN") I.maxtok ∧
      HasDefine T (txt "YYUNDFTOKEN") (I.maxsym + 1) := by
  intro T
  have hT : T = bytes I.codeName ((((w.front I).tables I).debug I).back I).code := rfl
  have c1 : CodeStart I ((w.front I).yyint I I.out) := cs_yyint (cs_front w)
  have hb : Grow (((w.front I).tables I).debug I) ((((w.front I).tables I).debug I).back I) := grow_back (Grow.refl _)
  generalize (((w.front I).tables I).debug I).back I = wE at hT hb
  rw [hT]
  have hc : CodeStart I ((w.front I).tables I) := by
    unfold Wr.tables
    dsimp only
    exact cs_line (cs_table (cs_line (cs_table (cs_table (cs_code _ _ (by simp)) _ _) _ _) _) _ _) _
  refine ⟨?_, ?_⟩
  · have hb : Grow ((w.front I).tables I) wE := Grow.trans (grow_debug (Grow.refl _)) hb
    unfold Wr.tables at hb
    dsimp only at hb
    have c2 := cs_table (cs_line (cs_table (cs_line (cs_table (cs_table (cs_table (cs_stos (cs_table (cs_table (cs_table c1 "lhs" I.t.lhs) "len" I.t.len) "defred" (I.t.defred.map Int.ofNat)))
      "dgoto" (I.t.dgoto.map Int.ofNat)) "sindex" I.t.sindex) "rindex" I.t.rindex) "#if YYBTYACC") "cindex" I.t.cindex) "#endif") "gindex" I.t.gindex
    refine hasDefine_of "YYTABLESIZE" _ (decDigits I.t.size) (decimal_nat _) 1 c2 (Grow.trans ?_ hb)
    rw [show str "#define " ++ str "YYTABLESIZE" ++ [32] ++ decDigits I.t.size ++ [10] = str "#define YYTABLESIZE " ++ decDigits I.t.size ++ [10] by
      simp [show str "#define YYTABLESIZE " = str "#define " ++ str "YYTABLESIZE" ++ [32] by decide]]
    grow
  · generalize (w.front I).tables I = w1 at hb hc
    rw [debug_eq] at hb
    unfold Wr.debugConsts at hb
    dsimp only at hb
    have c3 : ∀ w : Wr, CodeStart I (w.debugFlag I) := by
      intro w
      unfold Wr.debugFlag
      have c := cs_yydebug (I := I) w
      dsimp only
      split
      · next e =>
        unfold CodeStart at *
        simpa [Wr.yydebug, TextIn.out, e, Wr.put, Wr.bump] using c
      · exact c
    refine ⟨?_, ?_, ?_⟩
    · refine hasDefine_of "YYFINAL" _ (decDigits I.t.final) (decimal_nat _) 1 hc (Grow.trans ?_ hb)
      rw [show str "#define " ++ str "YYFINAL" ++ [32] ++ decDigits I.t.final ++ [10] = str "#define YYFINAL " ++ decDigits I.t.final ++ [10] by
        simp [show str "#define YYFINAL " = str "#define " ++ str "YYFINAL" ++ [32] by decide]]
      exact grow_debugEnd _ (grow_put _ _ (grow_bump _ (grow_put _ _ (grow_bump _ (grow_put _ _ (grow_bump _ (grow_debugFlag (Grow.refl _))))))))
    · refine hasDefine_of "YYMAXTOKEN" _ (decInt I.maxtok) ((decInt_iff _ _).2 rfl) 1 (c3 ((w1.bump 1).put .code (str "#define YYFINAL " ++ decDigits I.t.final ++ [10]))) (Grow.trans ?_ hb)
      rw [show str "#define " ++ str "YYMAXTOKEN" ++ [32] ++ decInt I.maxtok ++ [10] = str "#define YYMAXTOKEN " ++ decInt I.maxtok ++ [10] by
        simp [show str "#define YYMAXTOKEN " = str "#define " ++ str "YYMAXTOKEN" ++ [32] by decide]]
      exact grow_debugEnd _ (grow_put _ _ (grow_bump _ (grow_put _ _ (grow_bump _ (Grow.refl _)))))
    · refine hasDefine_of "YYUNDFTOKEN" _ (decInt (I.maxsym + 1)) ((decInt_iff _ _).2 rfl) 1
        (cs_code (((w1.bump 1).put .code (str "#define YYFINAL " ++ decDigits I.t.final ++ [10])).debugFlag I) 1 (t := str "#define YYMAXTOKEN " ++ decInt I.maxtok ++ [10]) (by simp)) (Grow.trans ?_ hb)
      rw [show str "#define " ++ str "YYUNDFTOKEN" ++ [32] ++ decInt (I.maxsym + 1) ++ [10] = str "#define YYUNDFTOKEN " ++ decInt (I.maxsym + 1) ++ [10] by
        simp [show str "#define YYUNDFTOKEN " = str "#define " ++ str "YYUNDFTOKEN" ++ [32] by decide]]
      exact grow_debugEnd _ (grow_put _ _ (grow_bump _ (Grow.refl _)))

theorem foldl_max (g : Int → Int) (l : List Int) (m : Int) :
    let r := l.foldl (fun m v => if g v > m then g v else m) m
    m ≤ r ∧ (∀ v ∈ l, g v ≤ r) ∧ (r = m ∨ ∃ v ∈ l, r = g v) := by
  induction l generalizing m with
  | nil => exact ⟨Int.le_refl _, by simp, .inl rfl⟩
  | cons a l ih =>
    dsimp only at ih ⊢
    rw [List.foldl_cons]
    obtain ⟨h1, h2, h3⟩ := ih (if g a > m then g a else m)
    generalize l.foldl (fun m v => if g v > m then g v else m) (if g a > m then g a else m) = r at *
    have ha : g a ≤ r ∧ m ≤ r := by split at h1 <;> omega
    refine ⟨ha.2, ?_, ?_⟩
    · intro v hv
      rcases List.mem_cons.1 hv with rfl | hv
      · exact ha.1
      · exact h2 v hv
    · rcases h3 with h3 | ⟨v, hv, h3⟩
      · split at h3
        · exact .inr ⟨a, by simp, h3⟩
        · exact .inl h3
      · exact .inr ⟨v, by simp [hv], h3⟩

/-- `YYMAXTOKEN` is the largest number of a token, and the entry for unknown tokens is behind those of all symbols: the symbol for the
`k`-th nonterminal has the number `YYMAXTOKEN + 1 + k + 1`. -/
theorem C88_largest (I : TextIn) :
    (∀ v ∈ I.values.take I.ntokens, v ≤ I.maxtok) ∧ 0 ≤ I.maxtok ∧ (I.maxtok = 0 ∨ I.maxtok ∈ I.values.take I.ntokens) ∧
    I.maxtok ≤ I.maxsym ∧ (∀ v ∈ I.values.drop I.ntokens, I.maxtok + 1 + (v + 1) ≤ I.maxsym) ∧
    (I.maxsym = I.maxtok ∨ ∃ v ∈ I.values.drop I.ntokens, I.maxsym = I.maxtok + 1 + (v + 1)) := by
  obtain ⟨h1, h2, h3⟩ := foldl_max id (I.values.take I.ntokens) 0
  obtain ⟨h4, h5, h6⟩ := foldl_max (fun v => (I.maxtok + 1) + (v + 1)) (I.values.drop I.ntokens) I.maxtok
  refine ⟨h2, h1, ?_, h4, h5, h6⟩
  rcases h3 with h3 | ⟨v, hv, h3⟩
  · exact .inl h3
  · exact .inr (by rw [show I.maxtok = v from h3]; exact hv)

end Verif.Byacc
