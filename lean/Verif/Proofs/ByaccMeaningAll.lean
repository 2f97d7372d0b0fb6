import Verif.Proofs.ByaccMeaningFile
/-
Auxiliary facts: what the reader makes of a whole file.
-/
set_option autoImplicit false
namespace Verif.Byacc.Rd
open Spec.YText

/-! Symbols named in declarations -/

/-- the symbol of a use can be written -/
def Use.written : Use → Prop
  | .token x _ _ _ _ | .typed x _ | .plain x | .lhs x => ∃ t u, SymAt x t u
  | .hidden _ _ => True

theorem itemsAt_named {items : List (Sym × Option Nat)} {t u : List Nat} (h : ItemsAt items t u) : ∀ y ∈ items, ∃ t u, SymAt y.1 t u := by
  induction h with
  | nil => intro y hy; cases hy
  | sym x xs t u v w z _ h1 _ _ _ ih =>
    intro y hy
    rcases List.mem_cons.1 hy with rfl | hy
    · exact ⟨u, v, h1⟩
    · exact ih y hy
  | num x n xs t u v w y z _ h1 _ _ _ _ ih =>
    intro y' hy
    rcases List.mem_cons.1 hy with rfl | hy
    · exact ⟨u, v, h1⟩
    · exact ih y' hy

theorem namesAt_named {items : List Sym} {t u : List Nat} (h : NamesAt items t u) : ∀ y ∈ items, ∃ t u, SymAt y t u := by
  induction h with
  | nil => intro y hy; cases hy
  | cons x xs t u v w z _ h1 _ _ _ ih =>
    intro y hy
    rcases List.mem_cons.1 hy with rfl | hy
    · exact ⟨u, v, h1⟩
    · exact ih y hy

/-- the symbols in a declaration can be written -/
def Decl.named : Decl → Prop
  | .tokens _ _ items => ∀ y ∈ items, ∃ t u, SymAt y.1 t u
  | .types _ xs => ∀ y ∈ xs, ∃ t u, SymAt y t u
  | .start n => ∃ t u, SymAt (.name n) t u
  | _ => True

theorem declAt_named {d : Decl} {t u : List Nat} (h : DeclAt d t u) : Decl.named d := by
  have tg : ∀ {α : Type} (P : α → List Nat → List Nat → Prop) (tag : Option (List Nat)) (x : α) (v u : List Nat), TaggedAt P tag x v u → ∃ a, P x a u := by
    rintro α P tag x v u ⟨t1, -, -, h | ⟨g, t2, -, -, h⟩⟩
    · exact ⟨_, h.2.2⟩
    · exact ⟨_, h⟩
  cases h
  case tokens => rename_i h; obtain ⟨_, h⟩ := tg _ _ _ _ _ h; exact itemsAt_named h
  case types => rename_i h; obtain ⟨_, h⟩ := tg _ _ _ _ _ h; exact namesAt_named h
  case start => rename_i h; exact ⟨_, _, h⟩
  all_goals trivial

theorem declsAt_named {ds : List Decl} {t u : List Nat} (h : DeclsAt ds t u) : ∀ d ∈ ds, Decl.named d := by
  induction h with
  | done => intro d hd; cases hd
  | cons d ds t v w u _ h1 _ ih =>
    intro e he
    rcases List.mem_cons.1 he with rfl | he
    · exact declAt_named h1
    · exact ih e he

theorem earlyAt_named {ds : List Decl} {t u : List Nat} (h : EarlyAt ds t u) : ∀ d ∈ ds, Decl.named d := by
  induction h with
  | done => intro d hd; cases hd
  | cons d ds t v w u _ h1 _ _ ih =>
    intro e he
    rcases List.mem_cons.1 he with rfl | he
    · exact declAt_named h1
    · exact ih e he

theorem rtoksAt_named {toks : List RTok} {t : List Nat} (h : RTokensAt toks t) : Named toks := by
  induction h with
  | done => rintro x (h | h | h) <;> cases h
  | cons x xs t u v _ h1 _ ih =>
    intro y hy
    have : y ∈ (match x with | .sym x => [x] | .lhs x => [x] | .prec x => [x] | _ => []) ∨ .sym y ∈ xs ∨ .lhs y ∈ xs ∨ .prec y ∈ xs := by
      simp only [List.mem_cons] at hy
      rcases hy with (rfl | hy) | (rfl | hy) | (rfl | hy)
      · exact .inl (by simp)
      · exact .inr (.inl hy)
      · exact .inl (by simp)
      · exact .inr (.inr (.inl hy))
      · exact .inl (by simp)
      · exact .inr (.inr (.inr hy))
    rcases this with h | h
    · cases h1 with
      | sym z _ v _ h1 => simp only [List.mem_singleton] at h; subst h; exact ⟨_, _, h1⟩
      | lhs z _ v _ h1 => simp only [List.mem_singleton] at h; subst h; exact ⟨_, _, h1⟩
      | prec z _ v _ _ _ _ h1 => simp only [List.mem_singleton] at h; subst h; exact ⟨_, _, h1⟩
      | _ => cases h
    · exact ih y h

theorem declUses_written (pre ds : List Decl) (h : ∀ d ∈ ds, Decl.named d) : ∀ u ∈ declUses pre ds, Use.written u := by
  induction ds generalizing pre with
  | nil => intro u hu; cases hu
  | cons d ds ih =>
    intro u hu
    rw [declUses, List.mem_append] at hu
    rcases hu with hu | hu
    · have hd := h d (by simp)
      cases d with
      | tokens a tag items =>
        simp only [Decl.uses, List.mem_map] at hu
        obtain ⟨y, hy, rfl⟩ := hu
        exact hd y hy
      | types tag xs =>
        simp only [Decl.uses, List.mem_map] at hu
        obtain ⟨y, hy, rfl⟩ := hu
        exact hd y hy
      | start n =>
        simp only [Decl.uses, List.mem_singleton] at hu
        subst hu
        exact hd
      | _ => cases hu
    · exact ih _ (fun d hd => h d (by simp [hd])) u hu

theorem written_notHidden (us : List Use) (h : ∀ u ∈ us, Use.written u) (hn : NoHidden us) (k : Nat) : hiddenKey k ∉ names us := by
  rw [mem_names]
  rintro (h1 | ⟨u, h1, h2⟩)
  · exact error_notHidden k h1
  · have h3 := h u h1
    cases u with
    | hidden k l => exact hn _ _ h1
    | token x _ _ _ _ => obtain ⟨t, u, h3⟩ := h3; exact symAt_notHidden h3 k h2
    | typed x _ => obtain ⟨t, u, h3⟩ := h3; exact symAt_notHidden h3 k h2
    | plain x => obtain ⟨t, u, h3⟩ := h3; exact symAt_notHidden h3 k h2
    | lhs x => obtain ⟨t, u, h3⟩ := h3; exact symAt_notHidden h3 k h2

/-! Left-hand sides -/

theorem lhs_ruleUses (l : Sym) (pend : Bool) (k : Nat) (toks : List RTok) (x : Sym) : Use.lhs x ∈ ruleUses l pend k toks ↔ RTok.lhs x ∈ toks := by
  induction toks generalizing l pend k with
  | nil => simp [ruleUses]
  | cons y ts ih =>
    cases y with
    | sym y => rw [ruleUses]; split <;> simp [ih]
    | lhs y => simp [ruleUses, ih]
    | bar => simp [ruleUses, ih]
    | action b ps => rw [ruleUses]; split <;> simp [ih]
    | prec y => simp [ruleUses, ih]

theorem isLhs_file (F : File) (n : List Nat) : IsLhs F.uses n ↔ n = F.first ∨ ∃ x, RTok.lhs x ∈ F.toks ∧ x.key = n := by
  unfold IsLhs File.uses
  constructor
  · rintro ⟨x, h1, h2⟩
    simp only [List.mem_append, List.mem_cons, Use.lhs.injEq] at h1
    rcases h1 with h1 | rfl | h1
    · exfalso
      have : ∀ pre ds, Use.lhs x ∉ declUses pre ds := by
        intro pre ds
        induction ds generalizing pre with
        | nil => intro h; cases h
        | cons d ds ih =>
          rw [declUses, List.mem_append]
          rintro (h | h)
          · cases d <;> simp [Decl.uses] at h
          · exact ih _ h
      exact this _ _ h1
    · exact .inl h2.symm
    · exact .inr ⟨x, (lhs_ruleUses _ _ _ _ x).1 h1, h2⟩
  · rintro (rfl | ⟨x, h1, h2⟩)
    · exact ⟨.name F.first, by simp, rfl⟩
    · exact ⟨x, by simp [lhs_ruleUses, h1], h2⟩

/-! The whole file -/

/-- the reader's arrays for a file -/
noncomputable def fileRd (F : File) : RdSt :=
  rdRun (fun x => (names F.uses).idxOf x.key) (startRule rdInit (.user ((names F.uses).idxOf F.first))) F.toks

/-- the state after reading a file -/
noncomputable def fileSt (F : File) (tags : Bool) (acts : List (Nat × List Nat)) : FSt :=
  { d := { dState F.all with syms := table F.uses, goal := some ((names F.uses).idxOf F.goal), haveTags := tags }
    rd := endRule (fileRd F)
    gens := gensOf F.uses (fileRd F).gensym
    acts := acts }

theorem runFile_iff (F : File) (t : List Nat) (hF : FileAt F t) (s : FSt) :
    RunFile F s ↔ F.Ok ∧ ∃ acts tags, ActsOf F.uses 0 (tagged F.all) F.alts acts tags ∧ s = fileSt F tags acts := by
  obtain ⟨u, v, w, hd, he, ⟨z, hf, -, -⟩, hr⟩ := hF
  have hnm : ∀ d ∈ F.all, Decl.named d := by
    intro d hdm
    unfold File.all at hdm
    rcases List.mem_append.1 hdm with h | h
    · exact declsAt_named hd d h
    · exact earlyAt_named he d h
  have hNt := rtoksAt_named hr
  have hdecl : ∀ d2, (∃ d1, runDecls dInit F.decls = some d1 ∧ runDecls d1 F.early = some d2) ↔
      (∀ pre d post, F.all = pre ++ d :: post → DeclOk pre d) ∧ d2 = dState F.all := by
    intro d2
    rw [← runDecls_iff]
    unfold File.all
    rw [runDecls_append, Option.bind_eq_some_iff]
  -- the first left-hand side
  have hU : F.uses = declUses [] F.all ++ [.lhs (.name F.first)] ++ ruleUses (.name F.first) false 0 F.toks := by unfold File.uses; simp
  generalize hus : declUses [] F.all = us at hU
  have hh : NoHidden us := by rw [← hus]; exact declUses_noHidden _ _
  have hw : ∀ u ∈ us, Use.written u := by rw [← hus]; exact declUses_written _ _ hnm
  have hT0 : IsToken (us ++ [.plain (.name F.first)]) F.first ↔ IsToken us F.first := by
    rw [isToken_snoc]
    unfold Use.tok
    simp [Use.lit?]
  have hT1 : IsToken F.uses F.first ↔ IsToken us F.first := by
    rw [hU, List.append_assoc]
    constructor
    · intro h
      refine isToken_append us _ ?_ _ (name_notLit hf) h
      intro u hu
      rcases List.mem_append.1 hu with hu | hu
      · rw [List.mem_singleton] at hu; subst hu; trivial
      · exact ruleUses_inRule _ _ _ _ u hu
    · exact isToken_mono _ _ _
  have hfm : F.first ∈ names (us ++ [.plain (.name F.first)]) := key_mem us (.plain (.name F.first))
  have hfm' : F.first ∈ names (us ++ [.lhs (.name F.first)]) := key_mem us (.lhs (.name F.first))
  have hidx : (names F.uses).idxOf F.first = (names (us ++ [.plain (.name F.first)])).idxOf F.first := by
    rw [hU, idxOf_stable _ _ _ hfm', names_same us (.lhs (.name F.first)) (.plain (.name F.first)) rfl]
  have hgoal : (if (startOf F.all).isNone then some ((names (us ++ [.plain (.name F.first)])).idxOf F.first)
      else (startOf F.all).map (names us).idxOf) = some ((names F.uses).idxOf F.goal) := by
    unfold File.goal
    cases hs : startOf F.all with
    | none => simp [hidx]
    | some n =>
      have := startOf_mem F.all n hs
      rw [hus] at this
      simp only [Option.isNone_some, Bool.false_eq_true, if_false, Option.map_some, Option.getD_some, Option.some.injEq]
      rw [hU, List.append_assoc, idxOf_stable _ _ _ this]
  have hfirst : ∀ s1, runFirst (dState F.all) F.first = some s1 ↔ ¬ IsToken us F.first ∧
      s1 = ⟨{ dState F.all with syms := table (us ++ [.lhs (.name F.first)]), goal := some ((names F.uses).idxOf F.goal) },
        startRule rdInit (.user ((names F.uses).idxOf F.first)), [], []⟩ := by
    intro s1
    have hl : lookupSym (dState F.all).syms F.first =
        ((names (us ++ [.plain (.name F.first)])).idxOf F.first, table (us ++ [.plain (.name F.first)])) := by
      have e : (dState F.all).syms = table us := by rw [← hus]; rfl
      rw [e]
      exact useSym_table us (.name F.first)
    have hcls : ((table (us ++ [.plain (.name F.first)]))[(names (us ++ [.plain (.name F.first)])).idxOf F.first]?).map BSym.cls = some .TERM ↔
        IsToken us F.first := by
      rw [table_get _ _ hfm, Option.map_some, Option.some.injEq, cls_term, hT0]
    have hgl : (if (dState F.all).goal.isNone = true then some ((names (us ++ [.plain (.name F.first)])).idxOf F.first) else (dState F.all).goal) =
        some ((names F.uses).idxOf F.goal) := by
      rw [← hgoal]
      unfold dState
      simp only [Option.isNone_map]
      rw [hus]
    unfold runFirst runStartRule
    rw [hl]
    simp only [posOf]
    by_cases ht : IsToken us F.first
    · refine iff_of_false ?_ (fun h => h.1 ht)
      rw [hcls.2 ht]
      simp
    · have hnt : ¬ IsToken (us ++ [.plain (.name F.first)]) F.first := fun h => ht (hT0.1 h)
      have hb : (((table (us ++ [.plain (.name F.first)]))[(names (us ++ [.plain (.name F.first)])).idxOf F.first]?).map BSym.cls == some .TERM) = false := by
        rw [beq_eq_false_iff_ne]; exact fun h => ht (hcls.1 h)
      rw [hb]
      simp only [Bool.and_false, Bool.false_eq_true, if_false, Option.some.injEq, ht, not_false_eq_true, true_and]
      rw [hgl, hidx]
      have := lhs_table us (.name F.first) hnt
      simp only [Sym.key] at this
      rw [this]
      exact eq_comm
  have hnotl : ∀ z, (Sym.name F.first).key ≠ litName z := name_notLit hf
  -- the rules
  have hinv : ¬ IsToken us F.first → RInv (declaredTag us) (us ++ [.lhs (.name F.first)]) (.name F.first) [] 0 0 false
      ⟨{ dState F.all with syms := table (us ++ [.lhs (.name F.first)]), goal := some ((names F.uses).idxOf F.goal) },
        startRule rdInit (.user ((names F.uses).idxOf F.first)), [], []⟩ := by
    intro ht
    refine ⟨⟨1, [], ⟨rfl, ?_, ?_, ?_, ?_, name_notHidden hf, rfl, rfl, rfl, ?_, ?_, ⟨[], [], rfl, .nil, rfl⟩⟩, rfl, rfl⟩, rfl, rfl, hnotl, fun x hx => by cases hx⟩
    · intro m
      exact declaredTag_rule us (.lhs (.name F.first)) trivial m
    · rw [hidx, ← names_same us (.lhs (.name F.first)) (.plain (.name F.first)) rfl]; rfl
    · exact ⟨.name F.first, by simp, rfl⟩
    · intro h
      apply ht
      refine isToken_append us _ ?_ _ hnotl h
      intro u hu
      rw [List.mem_singleton] at hu; subst hu; trivial
    · intro j hj; omega
    · intro j _
      refine written_notHidden _ ?_ (hh.snoc _ (by simp)) j
      intro u hu
      rcases List.mem_append.1 hu with hu | hu
      · exact hw u hu
      · rw [List.mem_singleton] at hu; subst hu; exact ⟨_, _, hf⟩
  have hD : ∀ m, declaredTag F.uses m = declaredTag us m := by
    intro m
    rw [hU, List.append_assoc]
    refine declaredTag_append us _ ?_ m
    intro u hu
    rcases List.mem_append.1 hu with hu | hu
    · rw [List.mem_singleton] at hu; subst hu; trivial
    · exact ruleUses_inRule _ _ _ _ u hu
  have halts : F.alts = ⟨.name F.first, headRhs F.toks⟩ :: tailAlts (.name F.first) F.toks := by
    unfold File.alts; rw [altsFrom_eq]; rfl
  have hlhs : (∀ n, IsLhs F.uses n → ¬ IsToken F.uses n) ↔ ¬ IsToken us F.first ∧ ∀ x, .lhs x ∈ F.toks → ¬ IsToken F.uses x.key := by
    constructor
    · intro h
      refine ⟨fun ht => h F.first ((isLhs_file F _).2 (.inl rfl)) (hT1.2 ht), fun x hx => h _ ((isLhs_file F _).2 (.inr ⟨x, hx, rfl⟩))⟩
    · rintro ⟨h1, h2⟩ n hn
      rcases (isLhs_file F n).1 hn with rfl | ⟨x, hx, rfl⟩
      · exact fun h => h1 (hT1.1 h)
      · exact h2 x hx
  unfold RunFile
  constructor
  · rintro ⟨d1, d2, s1, s2, h1, h2, h3, h4, rfl⟩
    obtain ⟨h5, rfl⟩ := (hdecl d2).1 ⟨d1, h1, h2⟩
    obtain ⟨h6, rfl⟩ := (hfirst s1).1 h3
    obtain ⟨h7, acts1, acts2, t1, t2, h8, h9, rfl⟩ := (runToks_meaning (declaredTag us) F.uses hD F.toks _ _ _ _ _ _ _ s2 (hinv h6) hNt hU).1 h4
    refine ⟨⟨h5, hlhs.2 ⟨h6, h7⟩⟩, acts1 ++ acts2, t2, ?_, rfl⟩
    rw [halts]
    refine .cons _ _ _ _ _ _ _ _ h8 ?_
    simpa using h9
  · rintro ⟨⟨h1, h2⟩, acts, tags, h3, rfl⟩
    obtain ⟨h4, h5⟩ := hlhs.1 h2
    obtain ⟨d1, h6, h7⟩ := (hdecl _).2 ⟨h1, rfl⟩
    rw [halts] at h3
    cases h3 with
    | cons _ _ t1 _ _ _ acts1 acts2 h8 h9 =>
      refine ⟨d1, _, _, _, h6, h7, (hfirst _).2 ⟨h4, rfl⟩,
        (runToks_meaning (declaredTag us) F.uses hD F.toks _ _ _ _ _ _ _ _ (hinv h4) hNt hU).2 ⟨h5, acts1, acts2, t1, tags, h8, ?_, rfl⟩, rfl⟩
      simpa using h9

theorem readText_meaning (t : List Nat) (s : FSt) :
    readText t = .ok s ↔ ∃ F, FileAt F t ∧ F.Ok ∧ ∃ acts tags, ActsOf F.uses 0 (tagged F.all) F.alts acts tags ∧ s = fileSt F tags acts := by
  rw [readText_iff]
  constructor
  · rintro ⟨F, h1, h2⟩
    exact ⟨F, h1, (runFile_iff F t h1 s).1 h2⟩
  · rintro ⟨F, h1, h2⟩
    exact ⟨F, h1, (runFile_iff F t h1 s).2 h2⟩

end Verif.Byacc.Rd
