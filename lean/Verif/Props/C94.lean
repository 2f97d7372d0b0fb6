import Verif.Props.C93
/-
C94: prototypes and calls.
-/
set_option autoImplicit false
namespace Verif.Byacc
open Rd Spec.OutText Spec.YText

variable {I : TextIn}

theorem sep_cons (a : List Nat) (l : List (List Nat)) : sep (a :: l) = a ++ if l = [] then [] else txt ", " ++ sep l := by
  cases l with
  | nil => simp [sep]
  | cons b l => simp [sep, List.intercalate, List.intersperse]

theorem sep_append (k l : List (List Nat)) : sep (k ++ l) = if k = [] then sep l else if l = [] then sep k else sep k ++ txt ", " ++ sep l := by
  induction k with
  | nil => simp
  | cons a k ih =>
    rw [List.cons_append, sep_cons, ih, if_neg (List.cons_ne_nil _ _), sep_cons]
    cases k with
    | nil =>
      simp only [List.nil_append, if_true, List.append_nil]
      cases l with
      | nil => simp
      | cons b l => simp
    | cons b k =>
      cases l with
      | nil => simp
      | cons c l => simp

theorem types_go (more : Bool) (l : List Param) : paramTypes.go more l = sep (l.map declared) ++ if more && !l.isEmpty then txt ", " else [] := by
  induction l with
  | nil => simp [paramTypes.go, sep]
  | cons p l ih =>
    rw [paramTypes.go, ih, List.map_cons, sep_cons]
    cases l with
    | nil => cases more <;> simp [sep, declared, txt, str]
    | cons q l => cases more <;> simp [declared, txt, str]

theorem types_false (l : List Param) : paramTypes false l = orVoid (l.map declared) := by
  unfold paramTypes orVoid
  cases l with
  | nil => rfl
  | cons p l => simp only [types_go]; simp

theorem types_true (l : List Param) : paramTypes true l = sep (l.map declared) ++ if l = [] then [] else txt ", " := by
  unfold paramTypes
  cases l with
  | nil => rfl
  | cons p l => simp only [types_go]; simp

theorem names_eq (more : Bool) (l : List Param) : paramNames more l = sep (l.map Param.name) ++ if more && !l.isEmpty then txt ", " else [] := by
  induction l with
  | nil => simp [paramNames, sep]
  | cons p l ih =>
    rw [paramNames, ih, List.map_cons, sep_cons]
    cases l with
    | nil => cases more <;> simp [sep, txt, str]
    | cons q l => cases more <;> simp [txt, str]

theorem ft_parseDecl (f : OFile) (w : Wr) : ∃ a, fileText I f (w.parseDecl I f) = fileText I f w ++ a ++ parsePart I.parseParam ++ txt "#endif\n" ∧ a.getLast? = some 10 := by
  unfold Wr.parseDecl parsePart
  dsimp only
  refine ⟨[10] ++ ["/* compatibility with bison */\n", "#ifdef YYPARSE_PARAM\n", "/* compatibility with FreeBSD */\n",
    "# ifdef YYPARSE_PARAM_TYPE\n", "#  define YYPARSE_DECL() yyparse(YYPARSE_PARAM_TYPE YYPARSE_PARAM)\n", "# else\n",
    "#  define YYPARSE_DECL() yyparse(void *YYPARSE_PARAM)\n", "# endif\n", "#else\n"].flatMap str, ?_, by decide⟩
  simp only [ft_lines, ft_put, ft_putc, types_false, List.append_assoc]
  rfl

theorem ft_lexParams (f : OFile) (w : Wr) : fileText I f (w.lexParams I f) = fileText I f w ++ lexPart I.pureParser I.locations I.lexParam := by
  unfold Wr.lexParams lexPart
  cases hp : I.pureParser <;> cases hl : I.locations <;> cases h : I.lexParam with
  | nil =>
    simp only [List.isEmpty_nil, Bool.not_true, Bool.and_false, Bool.false_and, Bool.and_true, Bool.true_and, Bool.false_eq_true, if_false, if_true, ft_lines]
    rw [List.append_right_inj]
    decide
  | cons p l =>
    simp only [List.isEmpty_cons, Bool.not_false, Bool.and_true, Bool.and_false, Bool.true_and, Bool.false_eq_true, if_false, if_true, ft_lines, ft_put, types_false, names_eq, when',
      Bool.false_and, List.nil_append, List.append_assoc, List.append_nil, List.isEmpty_nil]
    simp only [orVoid, List.map_cons, List.cons_append, List.nil_append, List.cons_ne_nil, if_false, reduceCtorEq, sep_cons, List.append_assoc]
    try simp [txt, str]

theorem ft_errorDecl (f : OFile) (w : Wr) : ∃ a b c, fileText I f (w.errorDecl I f) = fileText I f w ++ a ++ errorPart I.locations I.parseParam ++ b ++ errorCall I.locations I.parseParam ++ c ∧
    a.getLast? = some 10 ∧ b.getLast? = some 10 := by
  unfold Wr.errorDecl errorPart errorCall
  dsimp only
  refine ⟨[10] ++ ["/* Parameters sent to yyerror. */\n", "#ifndef YYERROR_DECL\n"].flatMap str, ["#endif\n", "#ifndef YYERROR_CALL\n"].flatMap str, txt "#endif\n", ?_, by decide, by decide⟩
  cases I.locations <;> cases I.parseParam with
  | nil =>
    simp only [ft_lines, ft_put, ft_putc, Bool.false_eq_true, if_false, if_true, List.append_assoc, List.append_right_inj]
    decide
  | cons p l =>
    simp only [ft_lines, ft_put, ft_putc, types_true, names_eq, when', Bool.false_eq_true, if_false, if_true, List.append_assoc, List.nil_append, List.append_right_inj, sep_append, sep_cons,
      List.map_cons, List.cons_append, List.cons_ne_nil, reduceCtorEq]
    cases l <;> simp [txt, str, sep]

theorem ft_destructDecl (f : OFile) (w : Wr) : ∃ a b c, fileText I f (w.destructDecl I f) = fileText I f w ++ a ++ destructPart I.locations I.parseParam ++ b ++ destructCall I.locations I.parseParam ++ c ∧
    a.getLast? = some 10 ∧ b.getLast? = some 10 := by
  unfold Wr.destructDecl destructPart destructCall
  dsimp only
  refine ⟨[10] ++ ["#ifndef YYDESTRUCT_DECL\n"].flatMap str, ["#endif\n", "#ifndef YYDESTRUCT_CALL\n"].flatMap str, txt "#endif\n", ?_, by decide, by decide⟩
  cases I.locations <;> cases I.parseParam with
  | nil =>
    simp only [ft_lines, ft_put, ft_putc, Bool.false_eq_true, if_false, if_true, List.append_assoc, List.append_right_inj, List.isEmpty_nil, Bool.not_true, when', List.map_nil, List.append_nil]
    simp [txt, str, sep, List.intercalate, List.intersperse]
  | cons p l =>
    simp only [ft_lines, ft_put, ft_putc, types_false, names_eq, when', Bool.false_eq_true, if_false, if_true, List.append_assoc, List.nil_append, List.append_right_inj, sep_append, sep_cons,
      List.map_cons, List.cons_append, List.cons_ne_nil, reduceCtorEq, List.isEmpty_cons, Bool.not_false, orVoid]
    simp [txt, str, sep]

theorem snoc_ft {f : OFile} {ps : List (List Nat)} {w w' : Wr} (p a b : List Nat) (h : InOrder ps (fileText I f w)) (e : fileText I f w' = fileText I f w ++ a ++ p ++ b)
    (ha : a.getLast? = some 10) : InOrder (ps ++ [p]) (fileText I f w') :=
  e ▸ .snoc ps p _ b (inOrder_grow a h) (lineStart_append ha)

theorem snoc2_ft {f : OFile} {ps : List (List Nat)} {w w' : Wr} (p q a b c : List Nat) (h : InOrder ps (fileText I f w))
    (e : fileText I f w' = fileText I f w ++ a ++ p ++ b ++ q ++ c) (ha : a.getLast? = some 10) (hb : b.getLast? = some 10) : InOrder (ps ++ [p] ++ [q]) (fileText I f w') :=
  e ▸ .snoc _ q _ c (inOrder_grow b (by have := InOrder.snoc ps p _ [] (inOrder_grow a h) (lineStart_append ha); simpa using this)) (lineStart_append hb)

/-- The macros with the prototypes and calls of the parser, the lexer, `yyerror` and `yydestruct` are in the file with the declarations, in this order, as specified:
the arguments of the calls are those of the prototypes, in their order. -/
theorem C94_declarations (I : TextIn) (w : Wr) :
    InOrder ([parsePart I.parseParam, lexPart I.pureParser I.locations I.lexParam, errorPart I.locations I.parseParam, errorCall I.locations I.parseParam] ++
      if I.destructor then [destructPart I.locations I.parseParam, destructCall I.locations I.parseParam] else [])
      (if I.iflag then (w.output I).ext else bytes I.codeName (w.output I).code) := by
  have ht : (if I.iflag then (w.output I).ext else bytes I.codeName (w.output I).code) = fileText I I.declFile (w.output I) := by
    unfold TextIn.declFile
    split <;> rfl
  rw [ht]
  have hg : Grow (((w.before I).prefix I I.declFile).decls I) (w.output I) := by
    rw [← front_eq]
    exact grow_back (I := I) (grow_debug (I := I) (grow_tables (I := I) (Grow.refl _)))
  generalize (w.before I).prefix I I.declFile = w0 at hg
  unfold Wr.decls at hg
  dsimp only at hg
  generalize I.declFile = f at hg ⊢
  have hg := Grow.trans (grow_tokenDefines (Grow.refl _)) hg
  generalize (if I.locations = true then _ else _) = w1 at hg
  have h1 : InOrder [parsePart I.parseParam] (fileText I f (w1.parseDecl I f)) := by
    obtain ⟨a, e, ha⟩ := ft_parseDecl (I := I) f w1
    exact snoc_ft _ a _ (.nil _) e ha
  generalize w1.parseDecl I f = w2 at hg h1
  have h2 : InOrder [parsePart I.parseParam, lexPart I.pureParser I.locations I.lexParam] (fileText I f (w2.lexDecl I f)) := by
    unfold Wr.lexDecl
    dsimp only
    have k : InOrder [parsePart I.parseParam, lexPart I.pureParser I.locations I.lexParam] (fileText I f
        (((((w2.putcCode f 10).lines f ["/* Parameters sent to lex. */\n", "#ifdef YYLEX_PARAM\n"]).lexGiven I f).lines f ["#else\n"]).lexParams I f)) := by
      obtain ⟨b, e⟩ := grow_fileText (I := I) f
        (grow_lexGiven (I := I) f (grow_lines f ["/* Parameters sent to lex. */\n", "#ifdef YYLEX_PARAM\n"] (grow_putcCode f 10 (Grow.refl w2))))
      refine snoc_ft (w := w2) (lexPart I.pureParser I.locations I.lexParam) (b ++ txt "#else\n") [] h1 ?_ (by
        rw [show txt "#else\n" = txt "#else" ++ [10] by decide, ← List.append_assoc, List.getLast?_concat])
      rw [ft_lexParams, ft_lines, e]
      simp [txt, str]
    split
    · exact inOrder_ft k (grow_lines _ _ (grow_lines _ _ (Grow.refl _)))
    · exact inOrder_ft k (grow_lines _ _ (Grow.refl _))
  generalize w2.lexDecl I f = w3 at hg h2
  have h3 : InOrder [parsePart I.parseParam, lexPart I.pureParser I.locations I.lexParam, errorPart I.locations I.parseParam, errorCall I.locations I.parseParam]
      (fileText I f (w3.errorDecl I f)) := by
    obtain ⟨a, b, c, e, ha, hb⟩ := ft_errorDecl (I := I) f w3
    exact snoc2_ft _ _ a b c h2 e ha hb
  generalize w3.errorDecl I f = w4 at hg h3
  cases hd : I.destructor with
  | false =>
    rw [if_neg (by simp)]
    refine inOrder_ft (w := w4) (by simpa using h3) (Grow.trans ?_ hg)
    simp only [hd, Bool.false_eq_true, if_false]
    exact grow_if (grow_section _ _ (Grow.refl _)) (Grow.refl _)
  | true =>
    rw [if_pos rfl]
    obtain ⟨a, b, c, e, ha, hb⟩ := ft_destructDecl (I := I) f w4
    have h4 := snoc2_ft _ _ a b c h3 e ha hb
    refine inOrder_ft (by simpa using h4) (Grow.trans ?_ hg)
    rw [if_pos hd]
    exact grow_if (grow_section _ _ (Grow.refl _)) (Grow.refl _)

example : lexPart true true [⟨txt "int *", txt "p", []⟩, ⟨txt "char", txt "a", txt "[3]"⟩] =
    txt "# define YYLEX_DECL() yylex(YYSTYPE *yylval, YYLTYPE *yylloc, int *p, char a[3])\n# define YYLEX yylex(&yylval, &yylloc, p, a)\n" := by decide +kernel
example : errorPart true [⟨txt "int *", txt "p", []⟩] ++ errorCall true [⟨txt "int *", txt "p", []⟩] =
    txt "#define YYERROR_DECL() yyerror(YYLTYPE *loc, int *p, const char *s)\n#define YYERROR_CALL(msg) yyerror(&yylloc, p, msg)\n" := by decide +kernel
example : destructPart true [⟨txt "int *", txt "p", []⟩] ++ destructCall true [⟨txt "int *", txt "p", []⟩] =
    txt "#define YYDESTRUCT_DECL() yydestruct(const char *msg, int psymb, YYSTYPE *val, YYLTYPE *loc, int *p)\n#define YYDESTRUCT_CALL(msg, psymb, val, loc) yydestruct(msg, psymb, val, loc, p)\n" := by decide +kernel

end Verif.Byacc
