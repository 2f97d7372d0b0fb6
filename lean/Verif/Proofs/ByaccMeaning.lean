import Verif.Proofs.ByaccTable
/-
Auxiliary facts: what the reader does with the parts of a file, as a function of the file.
-/
set_option autoImplicit false
namespace Verif.Byacc.Rd
open Spec.YText

/-! Declarations -/

theorem declUses_snoc (pre ds : List Decl) (d : Decl) : declUses pre (ds ++ [d]) = declUses pre ds ++ d.uses (pre ++ ds) := by
  induction ds generalizing pre with
  | nil => simp [declUses]
  | cons e ds ih =>
    rw [List.cons_append, declUses, ih, declUses, List.append_assoc, List.append_assoc]; rfl

theorem declUses_noHidden (pre ds : List Decl) : NoHidden (declUses pre ds) := by
  intro k l h
  induction ds generalizing pre with
  | nil => cases h
  | cons d ds ih =>
    rw [declUses, List.mem_append] at h
    rcases h with h | h
    · cases d <;> simp [Decl.uses] at h
    · exact ih _ h

theorem NoHidden.append {us vs : List Use} (h : NoHidden us) (h' : NoHidden vs) : NoHidden (us ++ vs) := by
  intro k l hm
  rcases List.mem_append.1 hm with hm | hm
  · exact h k l hm
  · exact h' k l hm

theorem runItems_eq (a : Assoc) (tag : Option (List Nat)) (level : Nat) (items : List (Sym × Option Nat)) (us : List Use) (hh : NoHidden us) (s : DSt)
    (hs : s.syms = table us) (g : Option (List Nat)) (hg : s.goal = g.map (names us).idxOf) (hm : ∀ n, g = some n → n ∈ names us) (hl : s.prec = level) :
    runItems a tag s items = if ∀ y ∈ items, g ≠ some y.1.key then
      some { s with syms := table (us ++ items.map fun y => .token y.1 a level tag y.2) } else none := by
  induction items generalizing us s with
  | nil => rw [runItems]; simp [← hs]
  | cons y items ih =>
    have hgoal : (s.goal == some (useSym s.syms y.1).1) = true ↔ g = some y.1.key := by
      rw [hs, useSym_table, hg, beq_iff_eq]
      cases g with
      | none => simp
      | some n =>
        simp only [Option.map_some, Option.some.injEq]
        rw [← idxOf_stable us [.plain y.1] n (hm n rfl)]
        constructor
        · intro h
          refine idxOf_inj' ?_ h
          exact (names_prefix us _).subset (hm n rfl)
        · rintro rfl; rfl
    rw [runItems]
    by_cases hy : g = some y.1.key
    · have : runItem a tag s y = none := by unfold runItem; rw [if_pos (hgoal.2 hy)]
      rw [this, if_neg (by intro h; exact h y (by simp) hy)]
      rfl
    · have e : runItem a tag s y = some { s with syms := table (us ++ [.token y.1 a level tag y.2]) } := by
        unfold runItem
        rw [if_neg (fun h => hy (hgoal.1 h)), hs, useSym_table, hl]
        have := token_table us hh y.1 a level tag y.2
        simp only at this ⊢
        rw [← this]
        cases y.2 <;> rfl
      rw [e, Option.bind_some]
      rw [ih (us ++ [.token y.1 a level tag y.2]) (hh.snoc _ (by simp)) { s with syms := table (us ++ [.token y.1 a level tag y.2]) } rfl ?_ ?_ hl]
      · simp only [List.mem_cons, forall_eq_or_imp, ne_eq, hy, not_false_eq_true, true_and, List.map_cons, List.append_assoc, List.cons_append, List.nil_append]
      · simp only
        rw [hg]
        cases g with
        | none => rfl
        | some n => rw [Option.map_some, Option.map_some, idxOf_stable us _ n (hm n rfl)]
      · intro n hn
        exact (names_prefix us _).subset (hm n hn)

theorem runTypes_eq (tag : Option (List Nat)) (xs : List Sym) (us : List Use) (hh : NoHidden us) (s : DSt) (hs : s.syms = table us) :
    runTypes tag s xs = { s with syms := table (us ++ xs.map fun x => .typed x tag) } := by
  induction xs generalizing us s with
  | nil => simp [runTypes, ← hs]
  | cons x xs ih =>
    unfold runTypes at ih ⊢
    rw [List.foldl_cons]
    have e : runType tag s x = { s with syms := table (us ++ [.typed x tag]) } := by
      unfold runType
      rw [hs, useSym_table, ← typed_table us hh x tag]
    rw [e, ih (us ++ [.typed x tag]) (hh.snoc _ (by simp)) { s with syms := table (us ++ [.typed x tag]) } rfl]
    simp

/-- the state after declarations -/
noncomputable def dState (ds : List Decl) : DSt :=
  { syms := table (declUses [] ds)
    goal := (startOf ds).map (names (declUses [] ds)).idxOf
    prec := levels ds
    sr := (expectOf ds).elim (-1) fun n => (n : Int)
    rr := (expectRROf ds).elim (-1) fun n => (n : Int)
    haveTags := tagged ds
    unionized := decide (Decl.union ∈ ds)
    out := textOf ds }

theorem dState_nil : dState [] = dInit := by
  have ht : IsToken (declUses [] []) (txt "error") := .inl rfl
  unfold dState dInit table
  have e1 : names (declUses [] []) = [txt "error"] := rfl
  have e2 : symOf (declUses [] []) (txt "error") = { name := txt "error", cls := .TERM } := by
    unfold symOf
    rw [if_pos ht]
    rfl
  rw [e1]
  simp only [List.map_cons, List.map_nil, e2]
  rw [← str_eq_txt]
  rfl

theorem startOf_mem (ds : List Decl) (n : List Nat) (h : startOf ds = some n) : n ∈ names (declUses [] ds) := by
  induction ds using List.reverseRecOn with
  | nil => cases h
  | append_singleton ds d ih =>
    unfold startOf at h ih
    rw [getLast_filterMap_snoc] at h
    rw [declUses_snoc]
    cases d with
    | start m =>
      simp only [Option.or_some, Option.some.injEq, Option.some_or] at h
      subst h
      exact key_mem _ (.plain (.name m))
    | tokens | types | expect | expectRR | text | union | other => exact (names_prefix _ _).subset (ih (by simpa using h))

def declText : Decl → List Nat
  | .text o => o
  | _ => []

def declTagged : Decl → Bool
  | .tokens _ tag _ => tag.isSome
  | .types tag _ => tag.isSome
  | _ => false

def declLevel : Decl → Int
  | .tokens a _ _ => if a ≠ .TOKEN then 1 else 0
  | _ => 0

theorem runDecl_eq (ds : List Decl) (d : Decl) (s : DSt) : runDecl (dState ds) d = some s ↔ DeclOk ds d ∧ s = dState (ds ++ [d]) := by
  have hh := declUses_noHidden [] ds
  have hgm := startOf_mem ds
  have hU : declUses [] (ds ++ [d]) = declUses [] ds ++ d.uses ds := declUses_snoc [] ds d
  have hstart : ∀ (hd : ∀ n, d ≠ .start n), startOf (ds ++ [d]) = startOf ds := by
    intro hd
    unfold startOf
    rw [getLast_filterMap_snoc]
    cases d with
    | start n => exact absurd rfl (hd n)
    | _ => simp
  have hgoal : ∀ (hd : ∀ n, d ≠ .start n), (dState (ds ++ [d])).goal = (dState ds).goal := by
    intro hd
    unfold dState
    simp only
    rw [hstart hd, hU]
    cases h : startOf ds with
    | none => rfl
    | some n => rw [Option.map_some, Option.map_some, idxOf_stable _ _ n (hgm n h)]
  have hsr : (∀ n, d ≠ .expect n) → (dState (ds ++ [d])).sr = (dState ds).sr := by
    intro hd
    unfold dState expectOf
    simp only
    rw [getLast_filterMap_snoc]
    cases d with
    | expect n => exact absurd rfl (hd n)
    | _ => simp
  have hrr : (∀ n, d ≠ .expectRR n) → (dState (ds ++ [d])).rr = (dState ds).rr := by
    intro hd
    unfold dState expectRROf
    simp only
    rw [getLast_filterMap_snoc]
    cases d with
    | expectRR n => exact absurd rfl (hd n)
    | _ => simp
  have hout : (dState (ds ++ [d])).out = (dState ds).out ++ declText d := by
    unfold dState textOf
    simp only
    rw [List.flatMap_append]
    cases d <;> simp [declText]
  have hun : (dState (ds ++ [d])).unionized = ((dState ds).unionized || decide (d = .union)) := by
    unfold dState
    simp only [List.mem_append, List.mem_singleton]
    by_cases h1 : Decl.union ∈ ds <;> by_cases h2 : d = .union <;> simp [h1, h2, eq_comm]
  have htag : (dState (ds ++ [d])).haveTags = ((dState ds).haveTags || declTagged d) := by
    unfold dState tagged
    simp only
    rw [List.any_append]
    cases d <;> simp [declTagged]
  have hprec : (dState (ds ++ [d])).prec = (dState ds).prec + declLevel d := by
    unfold dState levels
    simp only
    rw [List.filter_append, List.length_append]
    cases d with
    | tokens a tag items => by_cases ha : a = .TOKEN <;> simp [ha, declLevel]
    | _ => simp [declLevel]
  have hsy : (dState (ds ++ [d])).syms = table (declUses [] ds ++ d.uses ds) := by
    unfold dState; simp only; rw [hU]
  have hext : ∀ s : DSt, s = dState (ds ++ [d]) ↔ s.syms = table (declUses [] ds ++ d.uses ds) ∧ s.goal = (dState (ds ++ [d])).goal ∧
      s.prec = (dState (ds ++ [d])).prec ∧ s.sr = (dState (ds ++ [d])).sr ∧ s.rr = (dState (ds ++ [d])).rr ∧ s.haveTags = (dState (ds ++ [d])).haveTags ∧
      s.unionized = (dState (ds ++ [d])).unionized ∧ s.out = (dState (ds ++ [d])).out := by
    intro s
    rw [← hsy]
    generalize dState (ds ++ [d]) = x
    cases s; cases x
    simp
  have fin : ∀ s' : DSt, s' = dState (ds ++ [d]) → DeclOk ds d → (some s' = some s ↔ DeclOk ds d ∧ s = dState (ds ++ [d])) := by
    rintro s' rfl hok
    constructor
    · intro h; cases h; exact ⟨hok, rfl⟩
    · rintro ⟨-, rfl⟩; rfl
  cases d with
  | tokens a tag items =>
    simp only [runDecl]
    have hlev : (tokStart a tag (dState ds)).prec = (levels (ds ++ [.tokens a tag items]) : Nat) := by
      have e : ((levels (ds ++ [.tokens a tag items]) : Nat) : Int) = (dState (ds ++ [.tokens a tag items])).prec := rfl
      rw [e, hprec]
      unfold tokStart
      by_cases ha : a = .TOKEN <;> cases tag <;> simp [ha, declLevel]
    have := runItems_eq a tag (levels (ds ++ [.tokens a tag items])) items (declUses [] ds) hh (tokStart a tag (dState ds))
      (by unfold tokStart; by_cases ha : a = .TOKEN <;> cases tag <;> simp [ha] <;> rfl) (startOf ds)
      (by unfold tokStart; by_cases ha : a = .TOKEN <;> cases tag <;> simp [ha] <;> rfl) hgm hlev
    rw [this]
    by_cases hok : ∀ y ∈ items, startOf ds ≠ some y.1.key
    · rw [if_pos hok]
      refine fin _ ?_ hok
      rw [hext]
      refine ⟨rfl, ?_, ?_, ?_, ?_, ?_, ?_, ?_⟩
      · rw [hgoal (by simp)]; unfold tokStart; by_cases ha : a = .TOKEN <;> cases tag <;> simp [ha]
      · rw [← hlev.symm]; rfl
      · rw [hsr (by simp)]; unfold tokStart; by_cases ha : a = .TOKEN <;> cases tag <;> simp [ha]
      · rw [hrr (by simp)]; unfold tokStart; by_cases ha : a = .TOKEN <;> cases tag <;> simp [ha]
      · rw [htag]; unfold tokStart; by_cases ha : a = .TOKEN <;> cases tag <;> simp [ha, declTagged]
      · rw [hun]; unfold tokStart; by_cases ha : a = .TOKEN <;> cases tag <;> simp [ha]
      · rw [hout]; unfold tokStart; by_cases ha : a = .TOKEN <;> cases tag <;> simp [ha, declText]
    · rw [if_neg hok]
      refine iff_of_false (by simp) ?_
      rintro ⟨h, -⟩
      exact hok h
  | types tag xs =>
    simp only [runDecl]
    refine fin _ ?_ trivial
    rw [runTypes_eq tag xs (declUses [] ds) hh _ rfl, hext]
    refine ⟨rfl, ?_, ?_, ?_, ?_, ?_, ?_, ?_⟩
    · rw [hgoal (by simp)]
    · rw [hprec]; simp [declLevel]
    · rw [hsr (by simp)]
    · rw [hrr (by simp)]
    · rw [htag]; rfl
    · rw [hun]; simp
    · rw [hout]; simp [declText]
  | start n =>
    simp only [runDecl, runStart]
    have hl : lookupSym (dState ds).syms n = ((names (declUses [] ds ++ [.plain (.name n)])).idxOf n, table (declUses [] ds ++ [.plain (.name n)])) :=
      useSym_table (declUses [] ds) (.name n)
    rw [hl]
    simp only
    have hmem : n ∈ names (declUses [] ds ++ [.plain (.name n)]) := key_mem _ (.plain (.name n))
    rw [table_get _ n hmem]
    have hok : ((some (symOf (declUses [] ds ++ [.plain (.name n)]) n)).map BSym.cls == some .TERM) = true ↔ IsToken (declUses [] ds) n := by
      rw [Option.map_some, beq_iff_eq, Option.some.injEq, cls_term, isToken_snoc]
      constructor
      · rintro (h | ⟨-, ⟨_, _, _, _, _, h⟩ | ⟨_, h⟩⟩)
        · exact h
        · cases h
        · cases h
      · exact .inl
    by_cases ht : IsToken (declUses [] ds) n
    · rw [if_pos (hok.2 ht)]
      refine iff_of_false (by simp) ?_
      rintro ⟨h, -⟩
      exact h ht
    · rw [if_neg (fun h => ht (hok.1 h))]
      refine fin _ ?_ ht
      rw [hext]
      refine ⟨rfl, ?_, ?_, ?_, ?_, ?_, ?_, ?_⟩
      · unfold dState startOf
        simp only
        rw [getLast_filterMap_snoc, hU]
        rfl
      · rw [hprec]; simp [declLevel]
      · rw [hsr (by simp)]
      · rw [hrr (by simp)]
      · rw [htag]; simp [declTagged]
      · rw [hun]; simp
      · rw [hout]; simp [declText]
  | expect n =>
    simp only [runDecl]
    refine fin _ ?_ trivial
    rw [hext]
    refine ⟨by simp [Decl.uses, dState], ?_, ?_, ?_, ?_, ?_, ?_, ?_⟩
    · rw [hgoal (by simp)]
    · rw [hprec]; simp [declLevel]
    · unfold dState expectOf
      simp only
      rw [getLast_filterMap_snoc]; rfl
    · rw [hrr (by simp)]
    · rw [htag]; simp [declTagged]
    · rw [hun]; simp
    · rw [hout]; simp [declText]
  | expectRR n =>
    simp only [runDecl]
    refine fin _ ?_ trivial
    rw [hext]
    refine ⟨by simp [Decl.uses, dState], ?_, ?_, ?_, ?_, ?_, ?_, ?_⟩
    · rw [hgoal (by simp)]
    · rw [hprec]; simp [declLevel]
    · rw [hsr (by simp)]
    · unfold dState expectRROf
      simp only
      rw [getLast_filterMap_snoc]; rfl
    · rw [htag]; simp [declTagged]
    · rw [hun]; simp
    · rw [hout]; simp [declText]
  | text o =>
    simp only [runDecl]
    refine fin _ ?_ trivial
    rw [hext]
    refine ⟨by simp [Decl.uses, dState], ?_, ?_, ?_, ?_, ?_, ?_, ?_⟩
    · rw [hgoal (by simp)]
    · rw [hprec]; simp [declLevel]
    · rw [hsr (by simp)]
    · rw [hrr (by simp)]
    · rw [htag]; simp [declTagged]
    · rw [hun]; simp
    · rw [hout]; rfl
  | union =>
    simp only [runDecl]
    by_cases hu : Decl.union ∈ ds
    · rw [if_pos (by simp [dState, hu])]
      refine iff_of_false (by simp) ?_
      rintro ⟨h, -⟩
      exact h hu
    · rw [if_neg (by simp [dState, hu])]
      refine fin _ ?_ hu
      rw [hext]
      refine ⟨by simp [Decl.uses, dState], ?_, ?_, ?_, ?_, ?_, ?_, ?_⟩
      · rw [hgoal (by simp)]
      · rw [hprec]; simp [declLevel]
      · rw [hsr (by simp)]
      · rw [hrr (by simp)]
      · rw [htag]; simp [declTagged]
      · rw [hun]; simp
      · rw [hout]; simp [declText]
  | other =>
    simp only [runDecl]
    refine fin _ ?_ trivial
    rw [hext]
    refine ⟨by simp [Decl.uses, dState], ?_, ?_, ?_, ?_, ?_, ?_, ?_⟩
    · rw [hgoal (by simp)]
    · rw [hprec]; simp [declLevel]
    · rw [hsr (by simp)]
    · rw [hrr (by simp)]
    · rw [htag]; simp [declTagged]
    · rw [hun]; simp
    · rw [hout]; simp [declText]

theorem runDecls_append (s : DSt) (ds es : List Decl) : runDecls s (ds ++ es) = (runDecls s ds).bind fun s => runDecls s es := by
  induction ds generalizing s with
  | nil => rfl
  | cons d ds ih =>
    rw [List.cons_append, runDecls, runDecls]
    cases runDecl s d with
    | none => rfl
    | some s' => exact ih s'

theorem runDecls_iff (ds : List Decl) (s : DSt) :
    runDecls dInit ds = some s ↔ (∀ pre d post, ds = pre ++ d :: post → DeclOk pre d) ∧ s = dState ds := by
  induction ds using List.reverseRecOn generalizing s with
  | nil =>
    rw [dState_nil]
    simp [runDecls, eq_comm]
  | append_singleton ds d ih =>
    rw [runDecls_append]
    constructor
    · intro h
      rw [Option.bind_eq_some_iff] at h
      obtain ⟨s1, h1, h2⟩ := h
      obtain ⟨h3, rfl⟩ := (ih s1).1 h1
      simp only [runDecls] at h2
      rw [Option.bind_eq_some_iff] at h2
      obtain ⟨s2, h4, h5⟩ := h2
      cases h5
      obtain ⟨h6, h7⟩ := (runDecl_eq ds d s).1 h4
      refine ⟨?_, h7⟩
      intro pre e post he
      rcases List.eq_nil_or_concat post with rfl | ⟨post', x, rfl⟩
      · have := List.append_inj' he rfl
        obtain ⟨rfl, e2⟩ := this
        cases e2
        exact h6
      · rw [List.concat_eq_append, ← List.cons_append, ← List.append_assoc] at he
        have := List.append_inj' he rfl
        exact h3 pre e post' this.1
    · rintro ⟨h, rfl⟩
      have h1 : runDecls dInit ds = some (dState ds) := (ih _).2 ⟨fun pre e post he => h pre e (post ++ [d]) (by rw [he]; simp), rfl⟩
      rw [h1, Option.bind_some]
      simp only [runDecls]
      rw [(runDecl_eq ds d _).2 ⟨h ds d [] rfl, rfl⟩]
      rfl

end Verif.Byacc.Rd
