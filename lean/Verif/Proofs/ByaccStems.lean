import Verif.Proofs.ByaccFiles
set_option autoImplicit false
namespace Verif.Byacc.Op
open Verif.Spec.YOpts

theorem findSuffix_app (s suf : List Nat) : findSuffix (s ++ suf) suf = some s.length := by
  simp [findSuffix]

theorem findSuffix_none (n suf : List Nat) (h : ¬ suf <:+ n) : findSuffix n suf = none := by
  unfold findSuffix
  rw [if_neg]
  intro q
  simp only [Bool.and_eq_true, decide_eq_true_eq, beq_iff_eq] at q
  exact h (q.2 ▸ List.drop_suffix _ _)

theorem tab_c : Rd.str ".tab.c" = Rd.str ".tab" ++ Rd.str ".c" := by decide

theorem stem_exists (pre : List Nat) (out : Option (List Nat)) : ∃ s d, Stem pre out s d := by
  cases out with
  | none => exact ⟨pre, false, .noOut⟩
  | some n =>
    by_cases hc : txt ".c" <:+ n
    · obtain ⟨s, rfl⟩ := hc
      by_cases ht : txt ".tab" <:+ s
      · obtain ⟨t, rfl⟩ := ht
        refine ⟨t, false, ?_⟩
        rw [List.append_assoc, show txt ".tab" ++ txt ".c" = txt ".tab.c" by decide]
        exact .tab t
      · exact ⟨s, true, .c s ht⟩
    · exact ⟨pre, false, .other n hc⟩

theorem stem_names (o : Opts) (s : List Nat) (d : Bool) (h : Stem o.filePrefix o.output s d) :
    fileNames o = {
      output := o.output.getD (s ++ txt ".tab.c")
      code := if o.rflag then s ++ txt ".code.c" else o.output.getD (s ++ txt ".tab.c")
      defines := if o.dflag && !o.dflag2 then s ++ txt (if d then ".h" else ".tab.h") else o.defines.getD []
      externs := s ++ txt (if d then ".i" else ".tab.i")
      base := s
      prefixFreed := o.output.any fun n => decide (txt ".c" <:+ n) } := by
  unfold fileNames
  generalize hp : o.filePrefix = pre at h
  generalize ho : o.output = out at h
  have e1 : ∀ d : Bool, (if d = true then Rd.str ".h" else Rd.str ".tab.h") = txt (if d = true then ".h" else ".tab.h") := by decide
  have e2 : ∀ d : Bool, (if d = true then Rd.str ".i" else Rd.str ".tab.i") = txt (if d = true then ".i" else ".tab.i") := by decide
  cases h with
  | noOut => simp only [Option.bind_none, Option.isSome_none, e1, e2]; rfl
  | tab =>
    have hs : decide (txt ".c" <:+ s ++ txt ".tab.c") = true := by
      rw [decide_eq_true_eq]
      exact ⟨s ++ txt ".tab", by rw [List.append_assoc]; rfl⟩
    have hf : findSuffix (s ++ txt ".tab.c") (Rd.str ".tab.c") = some s.length := findSuffix_app s _
    simp only [Option.bind_some, hf, Option.isSome_none, e1, e2, Option.any_some, hs, Option.some_or, Option.getD_some, List.take_left', Option.isSome_some]
    rfl
  | c _ ht =>
    have hs : decide (txt ".c" <:+ s ++ txt ".c") = true := by
      rw [decide_eq_true_eq]; exact ⟨s, rfl⟩
    have hf : findSuffix (s ++ txt ".c") (Rd.str ".c") = some s.length := findSuffix_app s _
    have hn : findSuffix (s ++ txt ".c") (Rd.str ".tab.c") = none := by
      apply findSuffix_none
      rintro ⟨t, q⟩
      rw [tab_c, ← List.append_assoc] at q
      exact ht ⟨t, (List.append_inj' q rfl).1⟩
    simp only [Option.bind_some, hf, hn, e1, e2, Option.any_some, hs, Option.none_or, Option.getD_some, List.take_left', Option.isSome_some]
    rfl
  | other n hc =>
    have hs : decide (txt ".c" <:+ n) = false := by rw [decide_eq_false_iff_not]; exact hc
    have hf : findSuffix n (Rd.str ".c") = none := findSuffix_none _ _ hc
    have hn : findSuffix n (Rd.str ".tab.c") = none := by
      apply findSuffix_none
      rintro ⟨t, q⟩
      rw [tab_c, ← List.append_assoc] at q
      exact hc ⟨_, q⟩
    simp only [Option.bind_some, hf, hn, e1, e2, Option.any_some, hs, Option.none_or, Option.getD_some, Option.isSome_none]
    rfl

theorem stem_unique (o : Opts) (s s' : List Nat) (d d' : Bool) (h : Stem o.filePrefix o.output s d) (h' : Stem o.filePrefix o.output s' d') :
    s = s' ∧ d = d' := by
  have e := (stem_names o s d h).symm.trans (stem_names o s' d' h')
  have e1 := congrArg Names.base e
  have e2 := congrArg Names.externs e
  dsimp only at e1 e2
  subst e1
  refine ⟨rfl, ?_⟩
  have e3 := List.append_cancel_left e2
  have key : ∀ d d' : Bool, txt (if d = true then ".i" else ".tab.i") = txt (if d' = true then ".i" else ".tab.i") → d = d' := by decide
  exact key d d' e3

theorem stemOf_iff (ps : List (Nat × List Nat)) (out : Option (List Nat)) (s : List Nat) (d : Bool) :
    StemOf ps out s d ↔ (optsOf ps).output = out ∧ Stem (optsOf ps).filePrefix (optsOf ps).output s d := by
  obtain ⟨r, h1, h2⟩ := arg_b ps
  constructor
  · rintro ⟨b, hb, ho, hs⟩
    have := (arg_o ps out).1 ho
    rw [arg_unique ps 'b' b r hb h1] at hs
    exact ⟨this, by rw [h2, this]; exact hs⟩
  · rintro ⟨rfl, hs⟩
    exact ⟨r, h1, (arg_o ps _).2 rfl, by rw [← h2]; exact hs⟩

theorem flag_all (ps : List (Nat × List Nat)) :
    ((optsOf ps).vflag = true ↔ Given ps 'v') ∧ ((optsOf ps).gflag = true ↔ Given ps 'g') ∧ ((optsOf ps).ebnf = true ↔ Given ps 'e') ∧
    ((optsOf ps).lemon = true ↔ Given ps 'E') ∧ ((optsOf ps).naked = true ↔ Given ps 'n') ∧ ((optsOf ps).nakedq = true ↔ Given ps 'N') ∧
    ((optsOf ps).unicc = true ↔ Given ps 'C') ∧ ((optsOf ps).carburetta = true ↔ Given ps 'c') ∧ ((optsOf ps).sql = true ↔ Given ps 'S') ∧
    ((optsOf ps).rflag = true ↔ Given ps 'r') ∧ ((optsOf ps).iflag = true ↔ Given ps 'i') := by
  refine ⟨?_, ?_, ?_, ?_, ?_, ?_, ?_, ?_, ?_, ?_, ?_⟩
  · refine flag_iff (·.vflag) 'v' rfl ?_ ps
    intro o p
    by_cases h : p.1 = 118 <;> simp [applyOpt, apply_ite Opts.vflag, h]
  · refine flag_iff (·.gflag) 'g' rfl ?_ ps
    intro o p
    by_cases h : p.1 = 103 <;> simp [applyOpt, apply_ite Opts.gflag, h]
  · refine flag_iff (·.ebnf) 'e' rfl ?_ ps
    intro o p
    by_cases h : p.1 = 101 <;> simp [applyOpt, apply_ite Opts.ebnf, h]
  · refine flag_iff (·.lemon) 'E' rfl ?_ ps
    intro o p
    by_cases h : p.1 = 69 <;> simp [applyOpt, apply_ite Opts.lemon, h]
  · refine flag_iff (·.naked) 'n' rfl ?_ ps
    intro o p
    by_cases h : p.1 = 110 <;> simp [applyOpt, apply_ite Opts.naked, h]
  · refine flag_iff (·.nakedq) 'N' rfl ?_ ps
    intro o p
    by_cases h : p.1 = 78 <;> simp [applyOpt, apply_ite Opts.nakedq, h]
  · refine flag_iff (·.unicc) 'C' rfl ?_ ps
    intro o p
    by_cases h : p.1 = 67 <;> simp [applyOpt, apply_ite Opts.unicc, h]
  · refine flag_iff (·.carburetta) 'c' rfl ?_ ps
    intro o p
    by_cases h : p.1 = 99 <;> simp [applyOpt, apply_ite Opts.carburetta, h]
  · refine flag_iff (·.sql) 'S' rfl ?_ ps
    intro o p
    by_cases h : p.1 = 83 <;> simp [applyOpt, apply_ite Opts.sql, h]
  · refine flag_iff (·.rflag) 'r' rfl ?_ ps
    intro o p
    by_cases h : p.1 = 114 <;> simp [applyOpt, apply_ite Opts.rflag, h]
  · refine flag_iff (·.iflag) 'i' rfl ?_ ps
    intro o p
    by_cases h : p.1 = 105 <;> simp [applyOpt, apply_ite Opts.iflag, h]

/-- The list with the stem in place of the names. -/
theorem written_eq (o : Opts) (s : List Nat) (d : Bool) (h : Stem o.filePrefix o.output s d) :
    written o =
      (if o.vflag then [(118, s ++ txt ".output")] else []) ++ (if o.gflag then [(103, s ++ txt ".dot")] else []) ++
      (if o.ebnf then [(101, s ++ txt ".ebnf")] else []) ++ (if o.lemon then [(69, s ++ txt ".yl")] else []) ++
      (if o.naked then [(110, s ++ txt ".yn")] else []) ++ (if o.nakedq then [(78, s ++ txt ".yn")] else []) ++
      (if o.unicc then [(67, s ++ txt ".ypar")] else []) ++ (if o.carburetta then [(99, s ++ txt ".ycbrt")] else []) ++
      (if o.sql then [(83, s ++ txt ".sql")] else []) ++
      (if o.dflag || o.dflag2 then [(100, if o.dflag && !o.dflag2 then s ++ txt (if d then ".h" else ".tab.h") else o.defines.getD [])] else []) ++
      (if o.iflag then [(105, s ++ txt (if d then ".i" else ".tab.i"))] else []) ++
      [(111, o.output.getD (s ++ txt ".tab.c"))] ++
      (if o.rflag then [(114, s ++ txt ".code.c")] else []) := by
  unfold written
  rw [stem_names o s d h]
  dsimp only
  cases hr : o.rflag <;> rfl

theorem defines_given (qs : List (Nat × List Nat)) : (optsOf qs).dflag2 = true → (optsOf qs).defines ≠ none := by
  induction qs using snocInd with
  | h0 => simp [optsOf, optsInit]
  | h1 qs p ih =>
    rw [optsOf_snoc]
    by_cases e1 : p.1 = 72
    · simp [applyOpt, e1]
    · by_cases e2 : p.1 = 100
      · simp [applyOpt, e2]
      · simp only [applyOpt, apply_ite Opts.dflag2, apply_ite Opts.defines, ite_self, e1, e2, if_false]
        exact ih

theorem mem_ite_one {α : Type} (b : Bool) (x y : α) : x ∈ (if b = true then [y] else []) ↔ b = true ∧ x = y := by
  cases b <;> simp

end Verif.Byacc.Op
