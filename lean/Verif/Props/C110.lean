import Verif.Proofs.ToLemonMeaning
import Verif.Props.C28
import Verif.Props.C104
import Verif.Props.C73
import Verif.Lemon.StartCheck
/-
C110: the grammar byacc converts to the form of lemon.

`lemonText` is what is printed, `none` if the program reads outside of an array while it does so.  `LemonNames`, `FitsLemon` and `LemonOf`
(`Verif/Spec/ByaccLemon.lean`) say what a file must be like for the conversion to work, and compare the file that was read with the one that is printed.
-/
set_option autoImplicit false
namespace Verif.Byacc
open Rd Spec Spec.YText

/-- the file as needed for what follows -/
theorem c110_items {lp : Bool} {file text : List Nat} {out : FileOut} {x : NakedIn} (h : readerNaked lp file text = .ok (out, x)) (hb : ∀ c ∈ text, c < 256)
    {t : List Nat} {F : File} (ht : GivenText file text t) (hF : FileAt F t) (hd : F.NoDollar) {tok nt : List Nat → List Nat} (hk : Lk F tok nt)
    (hfit : FitsLemon F) : Nk F t ∧ ∃ z ws l0 al, lemonText out x = some z ∧ Words.HasWords z ws ∧ al.map Prod.fst = F.alts ∧ GFile.IsFile (lemonItems F tok nt l0 al) ws := by
  have hn := (c104_nk h hb ht hF hd).1
  obtain ⟨-, t', F', h1, h2, h3, h4, acts, tags, -, rfl, rfl⟩ := (readerNaked_iff lp file text out x).1 h
  obtain rfl := ((given_iff _ _ _).1 ht).trans ((given_iff _ _ _).1 h1).symm
  obtain rfl := fileAt_unique hF h2
  obtain ⟨z, ws, k1, k2, k3⟩ := lemonText_words lp hn hk hfit acts
  obtain ⟨l0, al, k4, k5⟩ := isFile_items hn ws k3
  exact ⟨hn, z, ws, l0, al, k1, k2, k4, k5⟩

/-- C110: what byacc prints as a grammar for lemon is read by lemon without error, as a file with the same start symbol, rules (in the same order) and
precedences, and with the same sentences.  The tokens and nonterminals must have names (after the conversion) that lemon can tell apart, right sides
at most 1000 symbols, and no name in the file may start with `$`. -/
theorem C110_lemon (lp : Bool) (file text : List Nat) (out : FileOut) (x : NakedIn) (h : readerNaked lp file text = .ok (out, x))
    (hb : ∀ c ∈ text, c < 256) (t : List Nat) (F : File) (ht : GivenText file text t) (hF : FileAt F t) (hd : F.NoDollar)
    (tok nt : List Nat → List Nat) (hT : ∀ n ∈ tokenNames F.uses, lemonTokenName n = some (tok n)) (hN : ∀ n, IsLhs F.uses n → lemonRuleName n = some (nt n))
    (hL : LemonNames F tok nt) (hfit : FitsLemon F) (o : GFile.Opts) :
    ∃ z ws items, lemonText out x = some z ∧ Words.HasWords z ws ∧ GFile.IsFile items ws ∧ GFile.Valid o items ∧ LemonOf o F tok nt items ∧
      (∀ v, GFile.Sentence items (nt F.goal) v ↔ ∃ w, v = w.map tok ∧ F.Sentence w) ∧
      ∃ s, Lemon.parseText (Lemon.ropts o) o.yacc z = some s ∧ Lemon.errorcnt s = 0 ∧ Lemon.Holds o items s.1 := by
  have hk : Lk F tok nt := ⟨hT, hN, hL⟩
  obtain ⟨hn, z, ws, l0, al, k1, k2, k4, k5⟩ := c110_items h hb ht hF hd hk hfit
  have hv := items_valid hn hk hfit o l0 al k4
  obtain ⟨s, s1, s2, -, s4⟩ := Lemon.C72_says o z ws _ k2 k5 hv
  exact ⟨z, ws, _, k1, k2, k5, hv, items_lemonOf hn hk o l0 al k4, items_sentence hn hk l0 al k4, s, s1, s2, s4⟩

/-- The names in the file are kept or changed as told: a token keeps its name if it starts with a capital letter, gets `Tk_` before its name if it starts with a
small one, and a character literal gets a name of its own; a nonterminal keeps its name. -/
structure PlainFile (F : File) : Prop where
  toks : ∀ n ∈ tokenNames F.uses, PlainName n ∧ (n.head? ≠ some 39 → ∀ c ∈ n, Words.inName c)
  nts : ∀ n, IsLhs F.uses n → GFile.Lower n ∧ (∀ c ∈ n, Words.inName c) ∧ n.length ≤ 63

instance (c : Nat) : Decidable (Words.inName c) := by unfold Words.inName Words.letter Words.digit; infer_instance

theorem c110_chars : ∀ c < 128, isPrint c = true → isLower c = false → c ≠ 39 → c ≠ 92 →
    (match lemonTokenName (litName [c]) with
      | some n => n.take 3 == tk && n.all fun c => decide (Words.inName c)
      | none => false) = true := by
  decide +kernel

theorem plain_lemon {F : File} (h : PlainFile F) : ∃ tok, (∀ n ∈ tokenNames F.uses, lemonTokenName n = some (tok n)) ∧ (∀ n, IsLhs F.uses n → lemonRuleName n = some n) ∧
    LemonNames F tok id := by
  have hsome : ∀ n ∈ tokenNames F.uses, lemonTokenName n = some ((lemonTokenName n).getD []) := by
    intro n hn
    have := (C28_distinct_partial n n (h.toks n hn).1 (h.toks n hn).1).1
    cases hl : lemonTokenName n with
    | none => exact absurd hl this
    | some v => rfl
  refine ⟨fun n => (lemonTokenName n).getD [], hsome, ?_, ?_, ?_, ?_, ?_⟩
  · intro n hn
    obtain ⟨⟨c, s, rfl, h1, h2⟩, h3, h4⟩ := h.nts n hn
    unfold lemonRuleName
    rw [cAt_getD _ _ (by simp)]
    have e1 : (c == 46) = false := by simp; omega
    have e2 : (c == 95) = false := by simp; omega
    have e3 : isUpper c = false := by simp [isUpper]; omega
    simp only [List.getD_cons_zero, Option.bind_eq_bind, Option.bind_some, e1, e2, e3, Bool.false_eq_true, if_false]
    rw [trunc, List.take_of_length_le h4, noDots_self]
    intro hm
    have := h3 46 hm
    revert this
    decide
  · intro n hn
    obtain ⟨hp, hc⟩ := h.toks n hn
    cases hp with
    | upper c s hu hp hd hl =>
      rw [plain_upper hu hd hl]
      simp only [isUpper, Bool.and_eq_true, decide_eq_true_eq] at hu
      exact ⟨⟨c, s, rfl, hu.1, hu.2⟩, hc (by simp; omega)⟩
    | lower c s hu hd hl =>
      rw [plain_lower hu hd hl]
      simp only [isLower, Bool.and_eq_true, decide_eq_true_eq] at hu
      refine ⟨⟨84, 107 :: 95 :: c :: s, rfl, by omega, by omega⟩, ?_⟩
      intro d hd'
      rcases List.mem_append.1 hd' with hd' | hd'
      · revert hd'
        have : ∀ d ∈ tk, Words.inName d := by decide
        exact this d
      · exact hc (by simp; omega) d hd'
    | literal c hp hl h1 h2 =>
      have hlt : c < 127 := by simp only [isPrint, Bool.and_eq_true, decide_eq_true_eq] at hp; omega
      have := c110_chars c (by omega) hp hl h1 h2
      split at this
      · rename_i v hv
        rw [hv]
        rw [Bool.and_eq_true, beq_iff_eq, List.all_eq_true] at this
        refine ⟨?_, fun d hd => by simpa using this.2 d hd⟩
        show GFile.Upper v
        rw [← List.take_append_drop 3 v, this.1]
        exact ⟨84, 107 :: 95 :: v.drop 3, rfl, by omega, by omega⟩
      · cases this
  · intro n hn
    exact ⟨(h.nts n hn).1, (h.nts n hn).2.1⟩
  · intro n hn m hm he
    refine (C28_distinct_partial n m (h.toks n hn).1 (h.toks m hm).1).2 ?_
    rw [hsome n hn, hsome m hm]
    exact congrArg some he
  · intro n m _ _ he
    exact he

/-- C110 with conditions on the names in the file only: the nonterminals start with a small letter, the tokens with a letter (but not with `Tk_`) or are printable
characters other than small letters, and all of this is short and without dots and dollars. -/
theorem C110_plain (lp : Bool) (file text : List Nat) (out : FileOut) (x : NakedIn) (h : readerNaked lp file text = .ok (out, x))
    (hb : ∀ c ∈ text, c < 256) (t : List Nat) (F : File) (ht : GivenText file text t) (hF : FileAt F t) (hd : F.NoDollar) (hp : PlainFile F)
    (hfit : FitsLemon F) (o : GFile.Opts) :
    ∃ tok z ws items, lemonText out x = some z ∧ Words.HasWords z ws ∧ GFile.IsFile items ws ∧ GFile.Valid o items ∧ LemonNames F tok id ∧ LemonOf o F tok id items ∧
      (∀ v, GFile.Sentence items F.goal v ↔ ∃ w, v = w.map tok ∧ F.Sentence w) ∧
      ∃ s, Lemon.parseText (Lemon.ropts o) o.yacc z = some s ∧ Lemon.errorcnt s = 0 ∧ Lemon.Holds o items s.1 := by
  obtain ⟨tok, k1, k2, k3⟩ := plain_lemon hp
  obtain ⟨z, ws, items, r1, r2, r3, r4, r5, r6, r7⟩ := C110_lemon lp file text out x h hb t F ht hF hd tok id k1 k2 k3 hfit o
  exact ⟨tok, z, ws, items, r1, r2, r3, r4, k3, r5, r6, r7⟩

/-- the tokens in what a sequence of symbols stands for -/
theorem stands_tokens {F : File} {t : List Nat} (hn : Nk F t) {β w : List (List Nat)} (hs : Stands F β w) :
    (∀ n ∈ β, n ∈ YText.names F.uses ∧ ¬ Hid n) → ∀ n ∈ w, n ∈ tokenNames F.uses := by
  classical
  induction hs with
  | nil => intro _ n hn; cases hn
  | token m β w ht _ ih =>
    intro hβ n hn'
    rcases List.mem_cons.1 hn' with rfl | hn'
    · exact List.mem_filter.2 ⟨(hβ n (by simp)).1, by simpa using ht⟩
    · exact ih (fun k hk => hβ k (by simp [hk])) n hn'
  | rule a β w w' ha _ _ ih1 ih2 =>
    intro hβ n hn'
    rcases List.mem_append.1 hn' with h | h
    · exact ih1 (fun k hk => hn.symsOk ha hk) n h
    · exact ih2 (fun k hk => hβ k (by simp [hk])) n h

/-- C110, up to the parser that lemon generates from the converted grammar: if there are no conflicts, it accepts exactly the sentences of the grammar file that
was given to byacc, its tokens having the names of the conversion.

Missing: files in which the start symbol occurs on a right side — lemon does not accept the converted file then (`C110_recursive_violated`); the other
conditions are those of C73. -/
theorem C110_parser_partial (lp : Bool) (file text : List Nat) (out : FileOut) (x : NakedIn) (h : readerNaked lp file text = .ok (out, x))
    (hb : ∀ c ∈ text, c < 256) (t : List Nat) (F : File) (ht : GivenText file text t) (hF : FileAt F t) (hd : F.NoDollar)
    (tok nt : List Nat → List Nat) (hT : ∀ n ∈ tokenNames F.uses, lemonTokenName n = some (tok n)) (hN : ∀ n, IsLhs F.uses n → lemonRuleName n = some (nt n))
    (hL : LemonNames F tok nt) (hfit : FitsLemon F) (o : GFile.Opts) (hgoal : ∀ a ∈ F.alts, F.goal ∉ YText.symsOf a.rhs)
    (hlen : ∀ a ∈ F.alts, (YText.symsOf a.rhs).length ≤ 128) (herr : ∀ a ∈ F.alts, nt a.lhs.key ≠ txt "error")
    (hsize : (F.alts.map fun a => (YText.symsOf a.rhs).length + 1).sum < 2 ^ 30) :
    ∃ z items s g, lemonText out x = some z ∧ LemonOf o F tok nt items ∧ Lemon.parseText (Lemon.ropts o) o.yacc z = some s ∧ Lemon.errorcnt s = 0 ∧ s.1.gram = some g ∧
      ∀ compress m FF A cs T, Lemon.Generated g s.1.fb compress m FF A cs T → (compress = true → T.shiftOfst.length = T.nx) → Lemon.NoConflicts g m FF →
        ∀ c : Lemon.PConf, c.depth = none → c.track = false → ∀ w : List (List Nat), (∀ n ∈ w, n ∈ tokenNames F.uses ∧ tok n ∈ GFile.tokens o items) →
          (F.Sentence w ↔ ∃ fuel q evs, Lemon.parseTokens T c fuel (w.map (fun n => GFile.tokenNumber o items (tok n)) ++ [0]) .init = some (q, evs) ∧
            .accept ∈ evs ∧ (∀ t, .syntaxError t ∉ evs) ∧ .overflow ∉ evs) := by
  have hk : Lk F tok nt := ⟨hT, hN, hL⟩
  obtain ⟨hn, z, ws, l0, al, k1, k2, k4, k5⟩ := c110_items h hb ht hF hd hk hfit
  have hv := items_valid hn hk hfit o l0 al k4
  have hlo := items_lemonOf hn hk o l0 al k4
  have hal : ∀ p ∈ al, p.1 ∈ F.alts := fun p hp => by rw [← k4]; exact List.mem_map_of_mem hp
  have hcls : ∀ c, GFile.isClass (lemonItems F tok nt l0 al) c = false := items_noClass l0 al
  obtain ⟨a0, ha0, hg0⟩ := (isLhs_alts F F.goal).1 hn.goal
  obtain ⟨p0, hp0, e0⟩ := List.mem_map.1 (k4 ▸ ha0)
  have hr0 : GFile.Item.rule (nt F.goal) none ((YText.symsOf p0.1.rhs).map fun n => ⟨lemonSymbol F tok nt n, []⟩) p0.2 ∈ lemonItems F tok nt l0 al := by
    unfold lemonItems
    refine List.mem_append_right _ (List.mem_flatMap.2 ⟨p0, hp0, ?_⟩)
    unfold ruleItems
    rw [e0, hg0]; simp
  have hS : GFile.Sound o (lemonItems F tok nt l0 al) (nt F.goal) := by
    refine ⟨hlo.start, ⟨_, _, _, _, hr0⟩, Lemon.lhs_nonterminal hv (fun _ _ _ _ _ => hcls _) hr0, ?_, fun _ _ _ _ _ => hcls _, hcls _⟩
    intro l a rhs line hr e he hen
    obtain ⟨p, hp, -, rfl⟩ := items_rule hr
    obtain ⟨n, hn', rfl⟩ := List.mem_map.1 he
    obtain ⟨h1, h2⟩ := hn.symsOk (hal p hp) hn'
    change lemonSymbol F tok nt n = _ at hen
    rcases hn.symOk hk h1 h2 with ⟨-, -, hu⟩ | ⟨hl', ht', -⟩
    · rw [hen] at hu
      exact upper_lower hu (hL.ntOk _ hn.goal).1
    · unfold lemonSymbol at hen
      rw [if_neg ht'] at hen
      have := hL.ntInj _ _ hl' hn.goal hen
      subst this
      exact hgoal _ (hal p hp) hn'
  have hsz : GFile.fileSize (lemonItems F tok nt l0 al) < 2 ^ 30 := by
    refine lt_of_le_of_lt (le_of_eq ?_) hsize
    rw [← k4]
    exact items_size l0 al
  obtain ⟨s, g, s1, s2, s3, key⟩ := Lemon.C73_parser_partial o z ws _ (nt F.goal) k2 k5 hv hS hsz (by
    intro l a rhs line hr
    obtain ⟨p, hp, rfl, rfl⟩ := items_rule hr
    exact ⟨herr _ (hal p hp), by rw [List.length_map]; exact hlen _ (hal p hp)⟩) (items_noWild l0 al) (items_noFallback l0 al)
  refine ⟨z, _, s, g, k1, hlo, s1, s2, s3, ?_⟩
  intro compress m FF A cs T hgen hrow hnc c hdep htr w hw
  have := key compress m FF A cs T hgen hrow (.inl hnc) c hdep htr (w.map tok) (by
    intro X hX
    obtain ⟨n, hn', rfl⟩ := List.mem_map.1 hX
    exact (hw n hn').2)
  rw [List.map_map] at this
  rw [show (fun n => GFile.tokenNumber o (lemonItems F tok nt l0 al) (tok n)) = GFile.tokenNumber o (lemonItems F tok nt l0 al) ∘ tok from rfl, ← this,
    items_sentence hn hk l0 al k4]
  constructor
  · intro hw'; exact ⟨w, rfl, hw'⟩
  · rintro ⟨w', he, hw'⟩
    have htk : ∀ n ∈ w', n ∈ tokenNames F.uses := stands_tokens hn hw' (by
      intro n hn'
      rcases List.mem_singleton.1 hn' with rfl
      exact ⟨isLhs_mem hn.goal, hn.goalGood.2⟩)
    have : ∀ (u v : List (List Nat)), (∀ n ∈ u, n ∈ tokenNames F.uses) → (∀ n ∈ v, n ∈ tokenNames F.uses) → u.map tok = v.map tok → u = v := by
      intro u
      induction u with
      | nil => intro v _ _ e; cases v with
        | nil => rfl
        | cons => cases e
      | cons a u ih =>
        intro v hu hv' e
        cases v with
        | nil => cases e
        | cons b v =>
          rw [List.map_cons, List.map_cons, List.cons.injEq] at e
          rw [hL.tokInj a (hu a (by simp)) b (hv' b (by simp)) e.1, ih v (fun n hn => hu n (by simp [hn])) (fun n hn => hv' n (by simp [hn])) e.2]
    rw [this w w' (fun n hn => (hw n hn).1) htk he]
    exact hw'

/-- the file converted for lemon -/
def converted (text : List Nat) : Option (List Nat) := (readerNaked false (txt "g.y") text).toOption.bind fun o => lemonText o.1 o.2

/-- the grammar lemon finds in the converted file, if it reads it without error -/
def convertedGram (text : List Nat) : Option Lemon.Gram :=
  (converted text).bind fun z => (Lemon.parseText (Lemon.ropts Lemon.c72Opts) false z).bind fun s => if Lemon.errorcnt s = 0 then s.1.gram else none

/-- an example: character literals, tokens with small letters and `error` get other names, `%prec` becomes a mark behind the rule -/
example : converted (txt "%token NUM 300\n%left '+' MINUS\n%right NEG\n%%\ne : f '+' f { $$ = $1 + $3; }\n | { k(); } '-' f %prec NEG\n | NUM\n | ;\n f: error F f Ff; %%\nint x;\n") =
    some (txt "%token NUM .\n%token Tk_PLUS .\n%token MINUS .\n%token NEG .\n%token Tk_HYPHEN .\n%token F .\n%token Ff .\n\n%left /*1*/ Tk_PLUS MINUS .\n%right /*2*/ NEG .\n\n%start_symbol e\n\n\ne ::= f Tk_PLUS /*1L*/ f .\n\n\ne ::= Tk_HYPHEN f . [NEG] /*2R*/\ne ::= NUM .\ne ::= /*empty*/ .\n\nf ::= Tk_error F f Ff .\n") := by
  decide +kernel

/-- and lemon finds the same rules in it: 1 to 4 are the tokens `Tk_PLUS`, `Tk_X`, `F` and `Tk_error`, 5 is `e`, 6 is `f` -/
example : (convertedGram (txt "%left '+'\n%%\ne : f '+' f | 'X' f %prec '+' | ; f: error F;")).map (fun g => (g.start, g.startErrors, g.rules.map (fun r => r.lhs))) =
    some (5, 0, [5, 5, 5, 6]) := by
  decide +kernel

example : (convertedGram (txt "%left '+'\n%%\ne : f '+' f | 'X' f %prec '+' | ; f: error F;")).map (fun g => (g.rules.map (fun r => r.rhs), g.rules.map fun r => r.prec)) =
    some ([[6, 1, 6], [2, 6], [], [4, 3]], [none, some 1, none, none]) := by
  decide +kernel

/-- C110, violated: a grammar file whose start symbol is recursive is converted as it is; lemon reports the error that the start symbol is on a right-hand side. -/
theorem C110_recursive_violated : ∃ text g, convertedGram text = some g ∧ g.startErrors = 1 := by
  have h : (convertedGram (txt "%%\ne : e 'a' | ;\n")).map (fun g => g.startErrors) = some 1 := by decide +kernel
  cases hg : convertedGram (txt "%%\ne : e 'a' | ;\n") with
  | none => rw [hg] at h; cases h
  | some g => rw [hg] at h; exact ⟨_, g, hg, by simpa using h⟩

/-- C110, violated: a rule without `%prec` has the precedence of its last token for byacc, but of its first symbol with a precedence for lemon.  In the file of this
example the rule `e : e X e Y e` has the precedence 2 (of `Y`) for byacc and the one of `X` (symbol 1) for lemon, which is lower. -/
theorem C110_prec_violated : ∃ text out g r, reader false (txt "g.y") text = .ok out ∧ (readRule out.gram 4).2.map (symbolName out) = [txt "e", txt "X", txt "e", txt "Y", txt "e"] ∧
    out.gram.rprecOf 4 = 2 ∧ convertedGram text = some g ∧ g.rules[1]? = some r ∧ r.rhs = [5, 1, 5, 2, 5] ∧ Lemon.findRulePrec g false false r = some 1 ∧ g.prec 1 < g.prec 2 := by
  let text := txt "%left X\n%left Y\n%%\ns : e ;\ne : e X e Y e | 'Z' ;\n"
  have h1 : (reader false (txt "g.y") text).toOption.map (fun out => ((readRule out.gram 4).2.map (symbolName out), out.gram.rprecOf 4)) =
    some ([txt "e", txt "X", txt "e", txt "Y", txt "e"], 2) := by decide +kernel
  have h2 : (convertedGram text).map (fun g => (g.rules[1]?.map fun r => (r.rhs, Lemon.findRulePrec g false false r), decide (g.prec 1 < g.prec 2))) = some (some ([5, 1, 5, 2, 5], some 1), true) := by
    decide +kernel
  cases hr : reader false (txt "g.y") text with
  | error e => rw [hr] at h1; cases h1
  | ok out =>
    rw [hr] at h1
    simp only [Except.toOption, Option.map_some, Option.some.injEq, Prod.mk.injEq] at h1
    cases hg : convertedGram text with
    | none => rw [hg] at h2; cases h2
    | some g =>
      rw [hg] at h2
      simp only [Option.map_some, Option.some.injEq, Prod.mk.injEq, decide_eq_true_eq] at h2
      obtain ⟨h3, h4⟩ := h2
      obtain ⟨r, hr', h5⟩ := Option.map_eq_some_iff.1 h3
      rw [Prod.mk.injEq] at h5
      exact ⟨text, out, g, r, hr, h1.1, h1.2, hg, hr', h5.1, h5.2, h4⟩

/-- C110, violated: different tokens can get the same name (`x` and `Tk_x`); the rule `e : x Tk_x` then becomes one with twice the same token. -/
theorem C110_clash_violated : ∃ text out g, reader false (txt "g.y") text = .ok out ∧ (readRule out.gram 3).2.map (symbolName out) = [txt "x", txt "Tk_x"] ∧
    convertedGram text = some g ∧ g.rules.map (fun r => r.rhs) = [[1, 1]] := by
  let text := txt "%%\ne : x Tk_x ;\n"
  have h1 : (reader false (txt "g.y") text).toOption.map (fun out => (readRule out.gram 3).2.map (symbolName out)) = some [txt "x", txt "Tk_x"] := by decide +kernel
  have h2 : (convertedGram text).map (fun g => g.rules.map (fun r => r.rhs)) = some [[1, 1]] := by decide +kernel
  cases hr : reader false (txt "g.y") text with
  | error e => rw [hr] at h1; cases h1
  | ok out =>
    rw [hr] at h1
    cases hg : convertedGram text with
    | none => rw [hg] at h2; cases h2
    | some g =>
      rw [hg] at h2
      exact ⟨text, out, g, hr, by simpa [Except.toOption] using h1, hg, by simpa using h2⟩

/-- C110, violated: for a file with the token `'\a'` an array is read out of its bounds (C29). -/
theorem C110_literal_violated : ∃ text out x, readerNaked false (txt "g.y") text = .ok (out, x) ∧ lemonText out x = none := by
  let text := txt "%%\ne : '\\a' ;\n"
  have h1 : (readerNaked false (txt "g.y") text).toOption.map (fun o => lemonText o.1 o.2) = some none := by decide +kernel
  cases hr : readerNaked false (txt "g.y") text with
  | error e => rw [hr] at h1; cases h1
  | ok o =>
    rw [hr] at h1
    exact ⟨text, o.1, o.2, hr, by simpa [Except.toOption] using h1⟩

end Verif.Byacc
