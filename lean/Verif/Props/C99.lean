import Verif.Spec.LemonWhole
import Verif.Proofs.LemonSafe
import Verif.Props.C73
import Verif.Props.C98
/-
C99: the C file that lemon makes from a grammar file has a parser for the grammar in the file.
-/
set_option autoImplicit false
namespace Verif.Lemon
open Verif.Spec.GFile Verif.Spec.Words Verif.Spec.LText LT
open Verif.Spec.RuleCode (num)

theorem hasArray_mono {I : LText} {ls : List (List Nat)} {i : Nat} {t p type : List Nat} {name : String} {l : List Entry} (h : Between I ls i t p) (ha : HasArray p type name l) :
    HasArray t type name l := by
  obtain ⟨a, b, e, hl⟩ := between_split h
  obtain ⟨a', body, b', e', hl', hr⟩ := ha
  refine ⟨a ++ a', body, b' ++ b, ?_, ls_append hl hl', hr⟩
  rw [e, e']
  simp only [List.append_assoc]

theorem report_fields {g : Gram} {fb : Nat → Option Nat} {cs : List CState} {order : List Nat} {nx : Nat} {T : Tables} (h : report g fb cs order nx = some T) :
    T.ruleLhs = g.ruleList.map (fun r => g.index r.lhs) ∧ T.ruleNRhs = g.ruleList.map (fun r => r.rhs.length) ∧ T.fallback = (List.range g.nterm).map fun t => (fb t).getD 0 := by
  unfold report at h
  dsimp only at h
  rw [Option.bind_eq_some_iff] at h
  obtain ⟨p, -, h⟩ := h
  rw [Option.map_eq_some_iff] at h
  obtain ⟨n, -, rfl⟩ := h
  exact ⟨rfl, rfl, rfl⟩

/-- C99, contents.  The tables that lemon computes can be read from the C file that it writes. -/
theorem C99_tables (o : Opts) (z : List Nat) (ws : List (Nat × Word)) (items : List Verif.Spec.GFile.Item) (S : Word) (s : RState) (g : Gram) (compress : Bool)
    (m : Mach) (F : List TSet) (A : Acts) (cs : List CState) (T : Tables) (E : FileConf) (I : LText) (ls : List (List Nat))
    (hz : HasWords z ws) (hf : IsFile items ws) (hv : Valid o items) (hS : Sound o items S) (hh : Holds o items s) (hg : s.gram = some g)
    (hgen : Generated g s.fb compress m F A cs T) (hI : LText.ofFile E s g cs T = some I)
    (hp : Safe ((argOf o items ("token_prefix", false)).getD [])) (hu : E.defs.used.length = E.defs.names.length) (ht : TemplateOK E.template ls) :
    HasTables I ls (written (reportText I).code) T := by
  have hsafe := ofFile_safe hI hz hf hv hh hp
  obtain ⟨rl, rn⟩ := ofFile_ruleInfo hI hv hh hS hg
  obtain ⟨hs, rfl, e3, e4, -⟩ := ofFile_rules hI
  subst hs
  rw [← e4] at hu
  rw [← e3] at ht
  obtain ⟨f1, f2, f3⟩ := report_fields hgen.tables
  have hc := C97_constants I ls hu ht
  simp only [List.forall_mem_cons, List.not_mem_nil, false_implies, implies_true, and_true] at hc
  obtain ⟨c1, c2, c3, -, c5, c6, c7, c8, c9, c10, c11, c12, c13, c14, c15, c16, -, c18, c19, c20⟩ := hc
  obtain ⟨p, hb, a1, a2, a3, a4, a5⟩ := C97_arrays I ls hu ht
  obtain ⟨p9, p10, b9, r9, b10, r10⟩ := C98_rules I ls hu ht hsafe
  have lb := layout_between (layout_report hu ht)
  have hd := between_split lb.2.1
  have h4 := lb.2.2.2.1
  have fx : ∀ (str nm : String) (k : Nat) (v : Int), text str ++ num v ∈ defineLines I → text str = text "#define " ++ (text nm ++ 32 :: List.replicate k 32) → 32 ∉ text nm → 10 ∉ text str →
      HasDefine (written (reportText I).code) (text nm) v := fun str nm k v hm hs hn h10 => hasDefine_of hm (nn_text str v h10) (read_fixed _ k v str hs hn) hd
  refine ⟨c1, c5, c2, c6, c3, c7, c8, c9, c10, c11, c12, c13, c14, c15, c18, c16, c19, c20, ?_, ?_, hasArray_mono hb a1, hasArray_mono hb a2, hasArray_mono hb a3,
    hasArray_mono hb a4, hasArray_mono hb a5, ?_, ⟨p9, b9, ?_⟩, ⟨p10, b10, ?_⟩⟩
  · intro W hW
    refine fx "#define YYWILDCARD " "YYWILDCARD" 0 W ?_ (by decide) (by decide) (by decide)
    have : text "#define YYWILDCARD " ++ num W ∈ wildcardLines I := by rw [wildcardLines, hW]; simp
    simp only [defineLines, List.mem_append, this, true_or, or_true]
  · intro W hW
    refine fx "#define YYERRORSYMBOL " "YYERRORSYMBOL" 0 W ?_ (by decide) (by decide) (by decide)
    have : text "#define YYERRORSYMBOL " ++ num W ∈ errorLines I := by rw [errorLines, hW]; simp
    simp only [defineLines, List.mem_append, this, true_or, or_true]
  · have hnt : g.nterm = I.s.nterminal := gram_nterm hg
    refine ⟨_, h4, ?_⟩
    by_cases hfb : I.s.hasFallback = true
    · left
      constructor
      · rw [read_fallback hsafe (by rw [nterminal_eq hv hh, nsymbol_eq hv hh]; omega) hfb, f3, ints, List.map_map, hnt]
        congr 1
        refine List.map_congr_left fun i hi => ?_
        have hi : i < I.s.nterminal := by simpa using hi
        simp only [Function.comp_apply, RState.fb, if_pos hi]
        cases I.s.symbols[i]?.bind Sym.fallback <;> rfl
      · have h1 : text "#define YYFALLBACK 1" = text "#define YYFALLBACK " ++ num 1 := by decide +kernel
        refine fx "#define YYFALLBACK " "YYFALLBACK" 0 1 ?_ (by decide) (by decide) (by decide)
        simp only [defineLines, hfb, if_true, List.mem_append, ← h1, List.mem_cons, true_or, or_true]
    · right
      constructor
      · rw [fallbackLines, if_neg hfb]; rfl
      · intro v hvv
        rw [f3, List.mem_map] at hvv
        obtain ⟨i, hi, rfl⟩ := hvv
        have hnone : I.s.fb i = none := by
          rcases Option.eq_none_or_eq_some (I.s.fb i) with h | ⟨t', h⟩
          · exact h
          · exfalso
            obtain ⟨X, Y, h, hm⟩ := (fb_iff hv hh _ _).mp h
            apply hfb
            unfold RState.hasFallback
            rw [List.any_eq_true, hh.syms]
            refine ⟨symOf o items X, List.mem_map.2 ⟨X, ((mem_tokens X).1 (fallback_tokens hv h).1).1, rfl⟩, ?_⟩
            simp [symOf, h]
        rw [hnone]
        rfl
  · rw [r9, f1, rl, ints, List.map_map]; rfl
  · rw [r10, f2, rn, List.map_map]; rfl

/-- C99, tokens.  The macro called like a token of the grammar file, with the prefix declared, stands for the number of the token; and the name printed in traces is the name of the token. -/
theorem C99_tokens (o : Opts) (z : List Nat) (ws : List (Nat × Word)) (items : List Verif.Spec.GFile.Item) (s : RState) (g : Gram) (cs : List CState) (T : Tables) (E : FileConf)
    (I : LText) (ls : List (List Nat)) (hz : HasWords z ws) (hf : IsFile items ws) (hv : Valid o items) (hh : Holds o items s) (hI : LText.ofFile E s g cs T = some I)
    (hp : Safe ((argOf o items ("token_prefix", false)).getD [])) (hu : E.defs.used.length = E.defs.names.length) (ht : TemplateOK E.template ls) :
    (∀ X ∈ tokens o items, ∃ p, Between I ls 1 (written (reportText I).code) p ∧
      HasDefine p ((argOf o items ("token_prefix", false)).getD [] ++ X) (tokenNumber o items X)) ∧
    ∃ p l, Between I ls 5 (written (reportText I).code) p ∧ readArray p = some l ∧ l = ([text "$"] ++ tokens o items ++ nonterminals o items).map .str := by
  have hsafe := ofFile_safe hI hz hf hv hh hp
  obtain ⟨hs, -, e3, e4, -⟩ := ofFile_rules hI
  subst hs
  rw [← e4] at hu
  rw [← e3] at ht
  constructor
  · intro X hX
    obtain ⟨h1, h2⟩ := symbols_number hv hh X hX
    have hb := tokenNumber_bounds X hX
    obtain ⟨p, hb, hdf⟩ := C98_tokens I ls hu ht hsafe (by rw [nterminal_eq hv hh, nsymbol_eq hv hh]; omega) (tokenNumber o items X) hb.1 (by rw [nterminal_eq hv hh]; exact hb.2)
    refine ⟨p, hb, ?_⟩
    have e : symbolName I (tokenNumber o items X) = X := by rw [symbolName, h2]; rfl
    rw [e, arg, hh.args] at hdf
    exact hdf
  · obtain ⟨p, q, hb, hr, -⟩ := C98_names I ls hu ht hsafe
    refine ⟨p, _, hb, hr, ?_⟩
    have hn := symbols_names hv hh
    have hl : ([text "$"] ++ tokens o items ++ nonterminals o items).length = I.s.nsymbol := by rw [nsymbol_eq hv hh]; simp; omega
    refine List.ext_getElem (by simp only [List.length_map, List.length_range, hl]) ?_
    intro i h1 h2
    simp only [List.getElem_map, List.getElem_range]
    congr 1
    have hi : i < ([text "$"] ++ tokens o items ++ nonterminals o items).length := by simpa using h2
    rw [symbolName, ← List.getElem?_map, hn, symOrder]
    rw [show text "$" :: tokens o items ++ nonterminals o items ++ [defaultName] ++ classes o items = ([text "$"] ++ tokens o items ++ nonterminals o items) ++ ([defaultName] ++ classes o items) by simp,
      List.getElem?_append_left hi, List.getElem?_eq_getElem hi]
    rfl

/-- C99 from the text of the grammar file to the text of the C file.  Let the text of a grammar file consist of the words of a valid file with start symbol `S`.  Then lemon reads it without
error; and if there are no conflicts, the tables `T` and the numbers of the tokens can be read from the C file that lemon writes, and the parser with the tables `T`, given the
numbers of some tokens and the end of input, accepts without reporting an error, if and only if the tokens are a sentence of the grammar in the file.

Missing: see C73; and the parser is the model of the code in the template (`parseTokens`), not the text of the template. -/
theorem C99_language_partial (o : Opts) (z : List Nat) (ws : List (Nat × Word)) (items : List Verif.Spec.GFile.Item) (S : Word)
    (hz : HasWords z ws) (hf : IsFile items ws) (hv : Valid o items) (hS : Sound o items S) (hsize : fileSize items < 2 ^ 30)
    (herr : ∀ l a rhs line, .rule l a rhs line ∈ items → l ≠ text "error" ∧ rhs.length ≤ 128)
    (hwild : wildcards items = []) (hfb : ∀ X, fallbackOf items X = none) (hp : Safe ((argOf o items ("token_prefix", false)).getD [])) :
    ∃ s g, parseText (ropts o) o.yacc z = some s ∧ errorcnt s = 0 ∧ s.1.gram = some g ∧
      ∀ compress m F A cs T, Generated g s.1.fb compress m F A cs T → (compress = true → T.shiftOfst.length = T.nx) →
        (NoConflicts g m F ∨ (precs items = [] ∧ A.count.err = 0)) →
        ∀ E I ls, LText.ofFile E s.1 g cs T = some I → E.defs.used.length = E.defs.names.length → TemplateOK E.template ls →
          HasTables I ls (written (reportText I).code) T ∧
          (∀ X ∈ tokens o items, ∃ p, Between I ls 1 (written (reportText I).code) p ∧
            HasDefine p ((argOf o items ("token_prefix", false)).getD [] ++ X) (tokenNumber o items X)) ∧
          ∀ c : PConf, c.depth = none → c.track = false → ∀ w : List Word, (∀ X ∈ w, X ∈ tokens o items) →
            (Verif.Spec.GFile.Sentence items S w ↔ ∃ fuel q evs, parseTokens T c fuel (w.map (tokenNumber o items) ++ [0]) .init = some (q, evs) ∧
              .accept ∈ evs ∧ (∀ t, .syntaxError t ∉ evs) ∧ .overflow ∉ evs) := by
  obtain ⟨s, g, h1, h2, h3, h4⟩ := C73_parser_partial o z ws items S hz hf hv hS hsize herr hwild hfb
  obtain ⟨s', h1', -, -, hh⟩ := C72_says o z ws items hz hf hv
  obtain rfl : s = s' := Option.some.inj (h1.symm.trans h1')
  refine ⟨s, g, h1, h2, h3, ?_⟩
  intro compress m F A cs T hgen hrow hn E I ls hI hu ht
  exact ⟨C99_tables o z ws items S s.1 g compress m F A cs T E I ls hz hf hv hS hh h3 hgen hI hp hu ht, (C99_tokens o z ws items s.1 g cs T E I ls hz hf hv hh hI hp hu ht).1,
    h4 compress m F A cs T hgen hrow hn⟩

/-- C99 for all files, with conflicts, fallbacks and wildcards: what the parser accepts without reporting an error is a sentence of the grammar in the file, if some of the tokens are taken for their
fallbacks or the wildcard.

Missing: right sides of 256 and more symbols. -/
theorem C99_accepted_partial (o : Opts) (z : List Nat) (ws : List (Nat × Word)) (items : List Verif.Spec.GFile.Item) (S : Word)
    (hz : HasWords z ws) (hf : IsFile items ws) (hv : Valid o items) (hS : Sound o items S) (hsize : fileSize items < 2 ^ 30)
    (hlen : ∀ l a rhs line, .rule l a rhs line ∈ items → rhs.length < 256) (hp : Safe ((argOf o items ("token_prefix", false)).getD [])) :
    ∃ s g, parseText (ropts o) o.yacc z = some s ∧ errorcnt s = 0 ∧ s.1.gram = some g ∧
      ∀ compress m F A cs T, Generated g s.1.fb compress m F A cs T →
        ∀ E I ls, LText.ofFile E s.1 g cs T = some I → E.defs.used.length = E.defs.names.length → TemplateOK E.template ls →
          HasTables I ls (written (reportText I).code) T ∧
          (∀ X ∈ tokens o items, ∃ p, Between I ls 1 (written (reportText I).code) p ∧
            HasDefine p ((argOf o items ("token_prefix", false)).getD [] ++ X) (tokenNumber o items X)) ∧
          ∀ (c : PConf) (fuel : Nat) (w : List Word) (q : PState) (evs : List Ev), (∀ X ∈ w, X ∈ tokens o items) →
            parseTokens T c fuel (w.map (tokenNumber o items) ++ [0]) .init = some (q, evs) → .accept ∈ evs → (∀ t, .syntaxError t ∉ evs) → .overflow ∉ evs →
            ∃ w', List.Forall₂ (TakenFor items) w w' ∧ Verif.Spec.GFile.Sentence items S w' := by
  obtain ⟨s, g, h1, h2, h3, h4⟩ := C73_accepted_partial o z ws items S hz hf hv hS hsize hlen
  obtain ⟨s', h1', -, -, hh⟩ := C72_says o z ws items hz hf hv
  obtain rfl : s = s' := Option.some.inj (h1.symm.trans h1')
  refine ⟨s, g, h1, h2, h3, ?_⟩
  intro compress m F A cs T hgen E I ls hI hu ht
  exact ⟨C99_tables o z ws items S s.1 g compress m F A cs T E I ls hz hf hv hS hh h3 hgen hI hp hu ht, (C99_tokens o z ws items s.1 g cs T E I ls hz hf hv hh hI hp hu ht).1,
    h4 compress T ⟨m, F, A, cs, hgen⟩⟩

/-! ### example -/

theorem translateAll_isSome (s : RState) (red red' : Nat → Bool) : ∀ l, (s.translateAll red l).isSome → (s.translateAll red' l).isSome := by
  intro l
  induction l with
  | nil => exact fun _ => rfl
  | cons k l ih =>
    intro h
    simp only [RState.translateAll] at h ⊢
    cases h1 : s.rules[k]? with
    | none => simp [h1] at h
    | some r =>
      rw [h1, Option.bind_some] at h
      cases h2 : translateCode s r with
      | none => simp [h2] at h
      | some t =>
        rw [h2, Option.bind_some, Option.isSome_map] at h
        rw [Option.bind_some, h2, Option.bind_some, Option.isSome_map]
        exact ih h

def c99Conf : FileConf :=
  { mhflag := false, nolinenosflag := false, filename := text "g.y", outname := text "g.c", incName := text "g.h", defs := ⟨[text "X"], [true]⟩
    template := text "// head\n%%\nint Parse;\n", below := 0 }

/-- For the file of C73 (with a token class and alternatives) a C file is made, and the hypotheses of `C99_language_partial` hold. -/
example : ∃ s g m F A cs T I, parseText (ropts c72Opts) c72Opts.yacc c73Text = some s ∧ s.1.gram = some g ∧ Generated g s.1.fb true m F A cs T ∧
    LText.ofFile c99Conf s.1 g cs T = some I ∧ TemplateOK c99Conf.template [text "// head", text "%%", text "int Parse;"] ∧ I.rules.length = 4 ∧
    T.shiftOfst.length = T.nx ∧ precs c73Items = [] ∧ A.count.err = 0 ∧ wildcards c73Items = [] ∧ (∀ X, fallbackOf c73Items X = none) ∧
    Safe ((argOf c72Opts c73Items ("token_prefix", false)).getD []) := by
  obtain ⟨s, h1, h2, h3, hh⟩ := C72_says c72Opts _ _ _ c73_words c73_file c73_valid
  obtain ⟨g, hg, u, hfb, _⟩ := C73_grammar c72Opts c73Items s.1 (text "s") c73_valid hh c73_sound (by decide +kernel)
  have hrow : ((parseText (ropts c72Opts) c72Opts.yacc c73Text).bind fun s => s.1.gram.bind fun g => (makeTables true g s.1.fb 20).map fun T =>
      decide (T.shiftOfst.length = T.nx)) = some true := by decide +kernel
  have hcon : ((parseText (ropts c72Opts) c72Opts.yacc c73Text).bind fun s => s.1.gram.bind fun g => conflicts g 20) = some 0 := by decide +kernel
  have htr : ((parseText (ropts c72Opts) c72Opts.yacc c73Text).map fun s => ((s.1.translateAll (fun _ => true) s.1.ruleOrder).isSome, s.1.ruleOrder.length)) = some (true, 4) := by decide +kernel
  rw [h1, Option.bind_some, hg, Option.bind_some] at hrow hcon
  rw [h1, Option.map_some, Option.some.injEq, Prod.mk.injEq] at htr
  obtain ⟨T, k1, k2⟩ := Option.map_eq_some_iff.mp hrow
  obtain ⟨m, F, A, cs, k3⟩ := generates_of u k1
  have ht := translateAll_isSome s.1 _ (doesReduce cs (resortStates g cs) (nxstate cs (resortStates g cs))) _ htr.1
  obtain ⟨rs, hrs⟩ := Option.isSome_iff_exists.1 ht
  have hi : (LText.ofFile c99Conf s.1 g cs T).isSome := by rw [LText.ofFile, hrs]; rfl
  obtain ⟨I, hI⟩ := Option.isSome_iff_exists.1 hi
  have hl := (ofFile_rules hI).2.2.2.2.length_eq
  exact ⟨s, g, m, F, A, cs, T, I, h1, hg, k3, hI, ⟨by decide +kernel, by decide +kernel⟩, hl.symm.trans htr.2, by simpa using k2, by decide, count_of u k3.toPrepared hcon, by decide, fun X => rfl, by unfold Safe; decide⟩

/-- the rules with code come first -/
example : ((parseText (ropts c72Opts) c72Opts.yacc c73Text).map fun s => s.1.ruleOrder) = some [3, 0, 1, 2] := by decide +kernel

end Verif.Lemon
