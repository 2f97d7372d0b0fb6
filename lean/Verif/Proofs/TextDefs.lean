import Verif.Proofs.TextTables
set_option autoImplicit false
namespace Verif.Byacc
open Rd Spec.OutText Spec.YText

/-! The `#define`s -/

variable {I : TextIn}

/-- the text of a file -/
def fileText (I : TextIn) (f : OFile) (w : Wr) : List Nat :=
  match f with
  | .code => bytes I.codeName w.code
  | .tab => w.tab
  | .ext => w.ext
  | .defs => w.defs

theorem ft_put (f : OFile) (w : Wr) (t : List Nat) : fileText I f (w.put f t) = fileText I f w ++ t := by
  cases f <;> simp [fileText, Wr.put, bytes_append, bytes, Piece.bytes]

theorem ft_put_ne (f g : OFile) (w : Wr) (t : List Nat) (h : g ≠ f) : fileText I f (w.put g t) = fileText I f w := by
  cases f <;> cases g <;> first | exact absurd rfl h | rfl

theorem ft_bump (f : OFile) (k : Nat) (w : Wr) : fileText I f (w.bump k) = fileText I f w := by cases f <;> rfl

theorem ft_bumpIf (f g : OFile) (w : Wr) : fileText I f (w.bumpIf g) = fileText I f w := by
  unfold Wr.bumpIf
  split
  · exact ft_bump f 1 w
  · rfl

theorem ft_putc (f : OFile) (w : Wr) (c : Nat) : fileText I f (w.putcCode f c) = fileText I f w ++ [c] := by
  unfold Wr.putcCode
  rw [ft_put]
  split
  · rw [ft_bumpIf]
  · rfl

theorem ft_foldl {α : Type} (f : OFile) (g : Wr → α → Wr) (hg : ∀ w x, fileText I f (g w x) = fileText I f w) (l : List α) (w : Wr) :
    fileText I f (l.foldl g w) = fileText I f w := by
  induction l generalizing w with
  | nil => rfl
  | cons x l ih => rw [List.foldl_cons, ih, hg]

theorem ft_putc_ne (f g : OFile) (h : g ≠ f) (w : Wr) (c : Nat) : fileText I f (w.putcCode g c) = fileText I f w := by
  unfold Wr.putcCode
  rw [ft_put_ne _ _ _ _ h]
  split
  · rw [ft_bumpIf]
  · rfl

theorem ft_putcs_ne (f g : OFile) (h : g ≠ f) (w : Wr) (t : List Nat) : fileText I f (w.putcs g t) = fileText I f w :=
  ft_foldl f _ (fun w c => ft_putc_ne f g h w c) t w

theorem ft_lines_ne (f g : OFile) (h : g ≠ f) (w : Wr) (l : List String) : fileText I f (w.lines g l) = fileText I f w :=
  ft_foldl f _ (fun w c => by rw [Wr.putlCode, ft_put_ne _ _ _ _ h, ft_bumpIf]) l w

theorem ft_ltype_ne (f g : OFile) (h : g ≠ f) (w : Wr) : fileText I f (w.ltype g) = fileText I f w := by
  unfold Wr.ltype; rw [ft_lines_ne f g h, ft_putc_ne f g h]

theorem ft_codeLines_ne (f g : OFile) (h : g ≠ f) (hc : g ≠ .code) (n : String) (b : Option CodeBlock) (w : Wr) :
    fileText I f (w.codeLines I g n b) = fileText I f w := by
  unfold Wr.codeLines
  cases b with
  | none => rfl
  | some b => simp only [hc, if_false]; rw [ft_put_ne _ _ _ _ h, ft_put_ne _ _ _ _ h, ft_put_ne _ _ _ _ h]

theorem ft_define_ne (f g : OFile) (h : g ≠ f) (w : Wr) (i : Nat) : fileText I f (w.define I g i) = fileText I f w := by
  unfold Wr.define
  dsimp only
  split
  · rw [ft_put_ne _ _ _ _ h, ft_bumpIf]
  · rfl

theorem ft_ite (f : OFile) (c : Prop) [Decidable c] (w w1 : Wr) (h : fileText I f w1 = fileText I f w) : fileText I f (if c then w1 else w) = fileText I f w := by
  split
  · exact h
  · rfl

/-- the last part of `output_defines` -/
def Wr.definesEnd (I : TextIn) (f : OFile) (w : Wr) : Wr :=
  if f = .defs || (I.iflag && !I.dflag) then
    let w :=
      if I.unionized then
        let w := match I.union with | some u => w.putcs f u | none => w
        if !I.pureParser then w.put f (str "extern YYSTYPE " ++ I.pfx ++ str "lval;\n") else w
      else w
    if I.locations then (w.ltype f).put f (str "extern YYLTYPE " ++ I.pfx ++ str "lloc;\n") else w
  else w

/-- the part of `output_defines` between the tokens and the values -/
def Wr.definesMid (I : TextIn) (f : OFile) (w : Wr) : Wr :=
  let w := w.bumpIf f
  let w := if f ≠ .defs || I.iflag then w.put f (str "#define YYERRCODE " ++ decInt (I.values.getD 1 0) ++ [10]) else w
  let w := if f = .defs then w.codeLines I f "provides" I.provides else w
  if I.tokenTable && I.rflag && f ≠ .ext then
      ((w.bumpIf f).put f (str "#undef yytname\n")).bumpIf f |>.put f (str "#define yytname yyname\n")
    else w

theorem defines_eq (f : OFile) (w : Wr) : w.defines I f =
    ((((List.range' 2 (I.ntokens - 2)).foldl (Wr.define I f) (if f = .defs then w.codeLines I f "requires" I.requires else w)).definesMid I f).definesEnd I f) := rfl

theorem ft_definesEnd_ne (f g : OFile) (h : g ≠ f) (w : Wr) : fileText I f (w.definesEnd I g) = fileText I f w := by
  unfold Wr.definesEnd
  dsimp only
  have h1 : fileText I f (match I.union with | some u => w.putcs g u | none => w) = fileText I f w := by
    cases I.union with
    | none => rfl
    | some u => exact ft_putcs_ne f g h w u
  generalize (match I.union with | some u => w.putcs g u | none => w) = w1 at h1
  have h2 : fileText I f (if (!I.pureParser) = true then w1.put g (str "extern YYSTYPE " ++ I.pfx ++ str "lval;\n") else w1) = fileText I f w1 :=
    ft_ite f _ _ _ (ft_put_ne _ _ _ _ h)
  generalize (if (!I.pureParser) = true then w1.put g (str "extern YYSTYPE " ++ I.pfx ++ str "lval;\n") else w1) = w2 at h2
  have h3 : fileText I f (if I.unionized = true then w2 else w) = fileText I f w := ft_ite f _ _ _ (h2.trans h1)
  generalize (if I.unionized = true then w2 else w) = w3 at h3
  refine ft_ite f _ _ _ ?_
  rw [ft_ite f _ w3 _ (by rw [ft_put_ne _ _ _ _ h, ft_ltype_ne f g h]), h3]

theorem ft_definesMid_ne (f g : OFile) (h : g ≠ f) (w : Wr) : fileText I f (w.definesMid I g) = fileText I f w := by
  unfold Wr.definesMid
  dsimp only
  rw [ft_ite f _ _ _ (by rw [ft_put_ne _ _ _ _ h, ft_bumpIf, ft_put_ne _ _ _ _ h, ft_bumpIf])]
  by_cases hg : g = .defs
  · rw [if_pos hg, ft_codeLines_ne f g h (by rw [hg]; simp), ft_ite f _ _ _ (ft_put_ne _ _ _ _ h), ft_bumpIf]
  · rw [if_neg hg, ft_ite f _ _ _ (ft_put_ne _ _ _ _ h), ft_bumpIf]

theorem ft_defines_ne (f g : OFile) (h : g ≠ f) (w : Wr) : fileText I f (w.defines I g) = fileText I f w := by
  rw [defines_eq, ft_definesEnd_ne f g h, ft_definesMid_ne f g h, ft_foldl f _ (fun w i => ft_define_ne f g h w i)]
  by_cases hg : g = .defs
  · rw [if_pos hg, ft_codeLines_ne f g h (by rw [hg]; simp)]
  · rw [if_neg hg]

/-- the header is written -/
theorem ft_header (f : OFile) (h : OFile.defs ≠ f) (w : Wr) :
    fileText I f (if I.dflag then ((w.guardStart I).defines I .defs).guardEnd I else w) = fileText I f w := by
  refine ft_ite f _ _ _ ?_
  unfold Wr.guardStart Wr.guardEnd
  rw [ft_put_ne _ _ _ _ h, ft_defines_ne _ _ h, ft_put_ne _ _ _ _ h, ft_put_ne _ _ _ _ h]

/-! Writing to one file does not change the others -/

section
variable {f g : OFile} (h : g ≠ f)
include h

theorem ft_putl_ne (w : Wr) (t : List Nat) : fileText I f (w.putlCode g t) = fileText I f w := by
  rw [Wr.putlCode, ft_put_ne _ _ _ _ h, ft_bumpIf]

theorem ft_countLine (w : Wr) : fileText I f (w.countLine I g) = fileText I f w := by
  unfold Wr.countLine; exact ft_ite f _ _ _ (ft_bump _ _ _)

theorem ft_definePrefixed_ne (w : Wr) (p n : List Nat) : fileText I f (w.definePrefixed I g p n) = fileText I f w := by
  unfold Wr.definePrefixed
  simp only [ft_put_ne f g _ _ h, ft_countLine h]

theorem ft_prefix_ne (w : Wr) : fileText I f (w.prefix I g) = fileText I f w := by
  unfold Wr.prefix
  simp only [ft_put_ne f g _ _ h, ft_countLine h]
  cases I.symbolPrefix with
  | none => rfl
  | some p =>
    simp only [ft_putc_ne f g h, ft_putl_ne h, ft_definePrefixed_ne h, apply_ite (fileText I f), ite_self]
    exact ft_foldl f _ (fun w s => ft_definePrefixed_ne h w p _) _ w

theorem ft_pure_ne (w : Wr) : fileText I f (w.pure I g) = fileText I f w := by
  unfold Wr.pure
  simp only [ft_put_ne f g _ _ h, ft_putc_ne f g h, ft_bumpIf]

theorem ft_stored_ne (hg : g ≠ .code) (w : Wr) : fileText I f (w.stored I g) = fileText I f w := by
  unfold Wr.stored Wr.codeLineno
  simp only [hg, decide_false, Bool.and_false, Bool.false_eq_true, if_false, apply_ite (fileText I f), ft_putcs_ne f g h, ite_self]

theorem ft_stype_ne (w : Wr) : fileText I f (w.stype I g) = fileText I f w := by
  unfold Wr.stype
  simp only [apply_ite (fileText I f), ft_lines_ne f g h, ft_putc_ne f g h, ite_self]

theorem ft_parseDecl_ne (w : Wr) : fileText I f (w.parseDecl I g) = fileText I f w := by
  unfold Wr.parseDecl
  simp only [ft_lines_ne f g h, ft_putc_ne f g h, ft_put_ne f g _ _ h]

theorem ft_lexDecl_ne (w : Wr) : fileText I f (w.lexDecl I g) = fileText I f w := by
  unfold Wr.lexDecl Wr.lexGiven Wr.lexParams
  simp only [apply_ite (fileText I f), ft_lines_ne f g h, ft_putc_ne f g h, ft_put_ne f g _ _ h, ite_self]

theorem ft_errorDecl_ne (w : Wr) : fileText I f (w.errorDecl I g) = fileText I f w := by
  unfold Wr.errorDecl
  simp only [apply_ite (fileText I f), ft_lines_ne f g h, ft_putc_ne f g h, ft_put_ne f g _ _ h, ite_self]

theorem ft_destructDecl_ne (w : Wr) : fileText I f (w.destructDecl I g) = fileText I f w := by
  unfold Wr.destructDecl
  simp only [apply_ite (fileText I f), ft_lines_ne f g h, ft_putc_ne f g h, ft_put_ne f g _ _ h, ite_self]

theorem ft_section_ne (l : List (List Nat)) (w : Wr) : fileText I f (w.section g l) = fileText I f w :=
  ft_foldl f _ (fun w s => by rw [ft_put_ne f g _ _ h, ft_bumpIf]) l w

theorem ft_externs_ne (l : List (List Nat)) (w : Wr) : fileText I f (w.externs g l) = fileText I f w :=
  ft_foldl f _ (fun w s => by simp only [ft_put_ne f g _ _ h, ft_bumpIf, apply_ite (fileText I f), ite_self]) l w

theorem ft_yydebug_ne (w : Wr) : fileText I f (w.yydebug I g) = fileText I f w := by
  unfold Wr.yydebug
  simp only [ft_put_ne f g _ _ h]

end

theorem cs_front (w : Wr) : CodeStart I (w.front I) := by
  rw [front_eq]
  unfold CodeStart
  rw [show ∀ w : Wr, bytes I.codeName w.code = fileText I .code w from fun _ => rfl]
  cases hi : I.iflag with
  | false =>
    unfold Wr.decls
    dsimp only
    generalize (if (I.iflag || !I.rflag) = true then _ else _) = w1
    unfold Wr.tokenDefines
    dsimp only
    have h := cs_defines (I := I) (w1.putcCode .code 10) hi
    unfold CodeStart at h
    rw [show ∀ w : Wr, bytes I.codeName w.code = fileText I .code w from fun _ => rfl] at h
    rw [ft_header .code (by simp), if_neg (by simp [hi])]
    exact h
  | true =>
    have hd : I.declFile = .ext := by simp [TextIn.declFile, hi]
    have hb : LineStart (fileText I .code (w.before I)) := by
      unfold Wr.before
      dsimp only
      rw [if_pos hi, ft_put]
      exact lineStart_append (by simp [show str "\"\n" = [34, 10] by decide])
    unfold Wr.decls Wr.tokenDefines
    dsimp only
    have e : OFile.ext ≠ OFile.code := by simp
    have key : fileText I .code (let f := I.declFile
        let w := (w.before I).prefix I f
        let w := w.pure I f
        let w := w.stored I f
        let w := w.stype I f
        let w := if I.locations then w.ltype f else w
        let w := w.parseDecl I f
        let w := w.lexDecl I f
        let w := w.errorDecl I f
        let w := if I.destructor then w.destructDecl I f else w
        let w := if I.iflag || !I.rflag then w.section f I.skel.xdecls else w
        let w := (w.put .ext [10]).yydebug I .ext
        let w := w.externs .ext I.skel.globalVars
        if !I.pureParser then w.externs .ext I.skel.impureVars else w) = fileText I .code (w.before I) := by
      dsimp only
      rw [hd]
      simp only [apply_ite (fileText I .code), ft_externs_ne e, ft_yydebug_ne e, ft_put_ne _ _ _ _ e, ft_section_ne e, ft_destructDecl_ne e,
        ft_errorDecl_ne e, ft_lexDecl_ne e, ft_parseDecl_ne e, ft_ltype_ne _ _ e, ft_stype_ne e, ft_stored_ne e e, ft_pure_ne e, ft_prefix_ne e, ite_self]
    dsimp only at key
    rw [hi]
    simp only [if_true]
    rw [hi] at key
    generalize (if (!I.pureParser) = true then _ else _) = w1 at key
    rw [ft_header .code (by simp)]
    split
    · rw [ft_put]
      exact lineStart_append (by simp [show str "\"\n" = [34, 10] by decide])
    · rw [ft_defines_ne _ _ e, key]
      exact hb

/-- `output_debug` from `yyrule` on -/
def Wr.ruleTable (I : TextIn) (w : Wr) : Wr :=
  let w := if I.tokenTable then w.line I "#if YYDEBUG" else w
  let w := w.startStr I "rule"
  let w := I.rules.foldl (Wr.rule I) w
  (w.endTable I).line I "#endif"

/-- `output_debug`: the line before `yyname` -/
def Wr.nameTable (I : TextIn) (w : Wr) : Wr :=
  if I.tokenTable then
    if !I.rflag then (w.line I "#undef yytname").line I "#define yytname yyname" else w
  else w.line I "#if YYDEBUG"

/-- `output_debug`: `YYDEBUG` -/
def Wr.debugFlag (I : TextIn) (w : Wr) : Wr :=
  let w := (w.yydebug I .code).bump 3
  if I.rflag then w.yydebug I I.out else w

/-- `output_debug` up to `yyname` -/
def Wr.debugConsts (I : TextIn) (w : Wr) : Wr :=
  let w := (w.bump 1).put .code (str "#define YYFINAL " ++ decDigits I.t.final ++ [10])
  let w := w.debugFlag I
  let w := (w.bump 1).put .code (str "#define YYMAXTOKEN " ++ decInt I.maxtok ++ [10])
  let w := (w.bump 1).put .code (str "#define YYUNDFTOKEN " ++ decInt (I.maxsym + 1) ++ [10])
  (w.bump 1).put .code (str "#define YYTRANSLATE(a) ((a) > YYMAXTOKEN ? YYUNDFTOKEN : (a))\n")

theorem debug_eq (w : Wr) : w.debug I =
    ((((((w.debugConsts I).nameTable I).startStr I "name").nameItems I ((List.range (I.maxsym + 2).toNat).map I.symnam) 80).endTable I).ruleTable I) := rfl

theorem grow_ruleTable {w0 w : Wr} (h : Grow w0 w) : Grow w0 (w.ruleTable I) := by
  unfold Wr.ruleTable
  dsimp only
  with_reducible apply grow_line
  with_reducible apply grow_endTable
  refine grow_foldl _ _ (fun w r => grow_rule r (Grow.refl w)) ?_
  with_reducible apply grow_startStr
  exact grow_if (grow_line _ h) h

theorem grow_nameTable {w0 w : Wr} (h : Grow w0 w) : Grow w0 (w.nameTable I) := by
  unfold Wr.nameTable
  grow

theorem grow_debugFlag {w0 w : Wr} (h : Grow w0 w) : Grow w0 (w.debugFlag I) := by
  unfold Wr.debugFlag
  dsimp only
  grow

/-- from `yyname` on -/
theorem grow_debugEnd {w0 w : Wr} (l : List (Option (List Nat))) (h : Grow w0 w) :
    Grow w0 (((((w.nameTable I).startStr I "name").nameItems I l 80).endTable I).ruleTable I) :=
  grow_ruleTable (grow_endTable (grow_nameItems _ _ (grow_startStr _ (grow_nameTable h))))

theorem cs_yydebug (w : Wr) : CodeStart I (w.yydebug I .code) := lineStart_put _ (by decide)

end Verif.Byacc
