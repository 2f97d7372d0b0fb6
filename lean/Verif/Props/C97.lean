import Verif.Proofs.LemonTextBetween
import Verif.Props.C96
/-
C97: the tables and constants of the parser can be read from the C file made by lemon.
-/
set_option autoImplicit false
namespace Verif.Lemon
open Verif.Spec.LText LT
open Verif.Spec.GFile (text)
open Verif.Spec.RuleCode (num)

/-- The five arrays that drive the parser are in the file, between the sections 3 and 4 of the template; reading them gives the tables. -/
theorem C97_arrays (I : LText) (ls : List (List Nat)) (hu : I.defs.used.length = I.defs.names.length) (h : TemplateOK I.template ls) :
    ∃ p, Between I ls 3 (written (reportText I).code) p ∧
      HasArray p (text "YYACTIONTYPE") "yy_action" (I.T.action.map fun n : Nat => .int n) ∧
      HasArray p (text "YYCODETYPE") "yy_lookahead" (I.T.lookahead.map fun n : Nat => .int n) ∧
      HasArray p (cType I.T.shiftType) "yy_shift_ofst" (I.T.shiftOfst.map .int) ∧
      HasArray p (cType I.T.reduceType) "yy_reduce_ofst" (I.T.reduceOfst.map .int) ∧
      HasArray p (text "YYACTIONTYPE") "yy_default" (I.T.dflt.map fun n : Nat => .int n) := by
  obtain ⟨-, -, ⟨tb, ht, hb⟩, -⟩ := layout_between (layout_report hu h)
  refine ⟨tb, hb, ?_⟩
  obtain ⟨a1, a2, a3, a4, a5, h1, h2, h3, h4, h5, e⟩ := ht
  have l1 := ls_lines [text "#define YY_ACTTAB_COUNT (" ++ num I.T.action.length ++ text ")"]
  have l2 := ls_append l1 (ls_array h1)
  have l3 := ls_append (ls_append l2 (ls_array h2)) (ls_lines [text "#define YY_SHIFT_COUNT    (" ++ num (I.T.shiftOfst.length - 1) ++ text ")",
             text "#define YY_SHIFT_MIN      (" ++ num I.T.shiftMin ++ text ")",
             text "#define YY_SHIFT_MAX      (" ++ num I.shiftMax ++ text ")"])
  have l4 := ls_append (ls_append l3 (ls_array h3)) (ls_lines [text "#define YY_REDUCE_COUNT (" ++ num (I.T.reduceOfst.length - 1) ++ text ")",
             text "#define YY_REDUCE_MIN   (" ++ num I.T.reduceMin ++ text ")",
             text "#define YY_REDUCE_MAX   (" ++ num I.T.reduceMax ++ text ")"])
  have l5 := ls_append l4 (ls_array h4)
  have key : ∀ l : List Nat, (l.map Int.ofNat).map Entry.int = l.map fun n : Nat => .int n := fun l => by rw [List.map_map]; rfl
  rw [← key, ← key, ← key]
  refine ⟨?_, ?_, ?_, ?_, ?_⟩
  · apply hasArray_of h1 ?_ l1; rotate_left; rw [e]; simp only [List.append_assoc]; rfl
  · apply hasArray_of h2 ?_ l2; rotate_left; rw [e]; simp only [List.append_assoc]; rfl
  · apply hasArray_of h3 ?_ l3; rotate_left; rw [e]; simp only [List.append_assoc]; rfl
  · apply hasArray_of h4 ?_ l4; rotate_left; rw [e]
  · exact hasArray_of h5 (b := []) (by rw [e]; simp only [List.append_assoc, List.append_nil]) l5

/-- The constants of the parser are defined as macros. -/
theorem C97_constants (I : LText) (ls : List (List Nat)) (hu : I.defs.used.length = I.defs.names.length) (h : TemplateOK I.template ls) :
    ∀ p ∈ ([("YYNOCODE", (I.T.nsymbol : Int)), ("YYNSTATE", I.T.nx), ("YYNRULE", I.T.nrule), ("YYNRULE_WITH_ACTION", I.nAct), ("YYNTOKEN", I.T.nterm), ("YY_MAX_SHIFT", I.T.nx - 1),
      ("YY_MIN_SHIFTREDUCE", I.T.minShiftReduce), ("YY_MAX_SHIFTREDUCE", I.T.minShiftReduce + I.T.nrule - 1), ("YY_ERROR_ACTION", I.T.errAction), ("YY_ACCEPT_ACTION", I.T.accAction),
      ("YY_NO_ACTION", I.T.noAction), ("YY_MIN_REDUCE", I.T.minReduce), ("YY_MAX_REDUCE", I.T.minReduce + I.T.nrule - 1),
      ("YY_ACTTAB_COUNT", I.T.action.length), ("YY_SHIFT_COUNT", I.T.shiftOfst.length - 1), ("YY_SHIFT_MIN", I.T.shiftMin), ("YY_SHIFT_MAX", I.shiftMax),
      ("YY_REDUCE_COUNT", I.T.reduceOfst.length - 1), ("YY_REDUCE_MIN", I.T.reduceMin), ("YY_REDUCE_MAX", I.T.reduceMax)] : List (String × Int)),
      HasDefine (written (reportText I).code) (text p.1) p.2 := by
  obtain ⟨-, hd, ⟨tb, ht, hb⟩, -⟩ := layout_between (layout_report hu h)
  have hd := between_split hd
  obtain ⟨a, b, et, ha⟩ := between_split hb
  obtain ⟨a1, a2, a3, a4, a5, h1, h2, h3, h4, h5, e⟩ := ht
  rw [e] at et
  have e1 : ∃ a b, written (reportText I).code = a ++ lines [text "#define YY_ACTTAB_COUNT (" ++ num I.T.action.length ++ text ")"] ++ b ∧ LineStart a := by
    refine ⟨a, ?_, ?_, ha⟩; rotate_left; rw [et]; simp only [List.append_assoc]; rfl
  have e2 : ∃ a b, written (reportText I).code = a ++ lines [text "#define YY_SHIFT_COUNT    (" ++ num (I.T.shiftOfst.length - 1) ++ text ")",
             text "#define YY_SHIFT_MIN      (" ++ num I.T.shiftMin ++ text ")",
             text "#define YY_SHIFT_MAX      (" ++ num I.shiftMax ++ text ")"] ++ b ∧ LineStart a := by
    refine ⟨a ++ (lines [text "#define YY_ACTTAB_COUNT (" ++ num I.T.action.length ++ text ")"] ++ a1 ++ a2), ?_, ?_, ls_append ha (ls_append (ls_append (ls_lines _) (ls_array h1)) (ls_array h2))⟩
    rotate_left; rw [et]; simp only [List.append_assoc]; rfl
  have e3 : ∃ a b, written (reportText I).code = a ++ lines [text "#define YY_REDUCE_COUNT (" ++ num (I.T.reduceOfst.length - 1) ++ text ")",
             text "#define YY_REDUCE_MIN   (" ++ num I.T.reduceMin ++ text ")",
             text "#define YY_REDUCE_MAX   (" ++ num I.T.reduceMax ++ text ")"] ++ b ∧ LineStart a := by
    refine ⟨a ++ (lines [text "#define YY_ACTTAB_COUNT (" ++ num I.T.action.length ++ text ")"] ++ a1 ++ a2 ++ lines [text "#define YY_SHIFT_COUNT    (" ++ num (I.T.shiftOfst.length - 1) ++ text ")",
             text "#define YY_SHIFT_MIN      (" ++ num I.T.shiftMin ++ text ")",
             text "#define YY_SHIFT_MAX      (" ++ num I.shiftMax ++ text ")"] ++ a3), ?_, ?_,
             ls_append ha (ls_append (ls_append (ls_append (ls_append (ls_lines _) (ls_array h1)) (ls_array h2)) (ls_lines _)) (ls_array h3))⟩
    rotate_left; rw [et]; simp only [List.append_assoc]; rfl
  have fx : ∀ (s nm : String) (k : Nat) (v : Int), text s ++ num v ∈ defineLines I → text s = text "#define " ++ (text nm ++ 32 :: List.replicate k 32) → 32 ∉ text nm → 10 ∉ text s →
      HasDefine (written (reportText I).code) (text nm) v := fun s nm k v hm hs hn h10 => hasDefine_of hm (nn_text s v h10) (read_fixed _ k v s hs hn) hd
  have px : ∀ (L : List (List Nat)) (s nm : String) (k : Nat) (v : Int), (∃ a b, written (reportText I).code = a ++ lines L ++ b ∧ LineStart a) → text s ++ num v ++ text ")" ∈ L →
      text s = text "#define " ++ (text nm ++ 32 :: List.replicate k 32) ++ [40] → 32 ∉ text nm → 10 ∉ text s → HasDefine (written (reportText I).code) (text nm) v :=
    fun L s nm k v hL hm hs hn h10 => hasDefine_of hm (by rw [List.mem_append, not_or]; exact ⟨nn_text s v h10, by decide⟩) (read_paren _ k v s hs hn) hL
  simp only [List.forall_mem_cons, List.not_mem_nil, false_implies, implies_true, and_true]
  refine ⟨fx "#define YYNOCODE " "YYNOCODE" 0 _ ?_ (by decide) (by decide) (by decide), fx "#define YYNSTATE             " "YYNSTATE" 12 _ ?_ (by decide) (by decide) (by decide),
    fx "#define YYNRULE              " "YYNRULE" 13 _ ?_ (by decide) (by decide) (by decide), fx "#define YYNRULE_WITH_ACTION  " "YYNRULE_WITH_ACTION" 1 _ ?_ (by decide) (by decide) (by decide),
    fx "#define YYNTOKEN             " "YYNTOKEN" 12 _ ?_ (by decide) (by decide) (by decide), fx "#define YY_MAX_SHIFT         " "YY_MAX_SHIFT" 8 _ ?_ (by decide) (by decide) (by decide),
    fx "#define YY_MIN_SHIFTREDUCE   " "YY_MIN_SHIFTREDUCE" 2 _ ?_ (by decide) (by decide) (by decide), fx "#define YY_MAX_SHIFTREDUCE   " "YY_MAX_SHIFTREDUCE" 2 _ ?_ (by decide) (by decide) (by decide),
    fx "#define YY_ERROR_ACTION      " "YY_ERROR_ACTION" 5 _ ?_ (by decide) (by decide) (by decide), fx "#define YY_ACCEPT_ACTION     " "YY_ACCEPT_ACTION" 4 _ ?_ (by decide) (by decide) (by decide),
    fx "#define YY_NO_ACTION         " "YY_NO_ACTION" 8 _ ?_ (by decide) (by decide) (by decide), fx "#define YY_MIN_REDUCE        " "YY_MIN_REDUCE" 7 _ ?_ (by decide) (by decide) (by decide),
    fx "#define YY_MAX_REDUCE        " "YY_MAX_REDUCE" 7 _ ?_ (by decide) (by decide) (by decide),
    px _ "#define YY_ACTTAB_COUNT (" "YY_ACTTAB_COUNT" 0 _ e1 (by simp) (by decide) (by decide) (by decide), px _ "#define YY_SHIFT_COUNT    (" "YY_SHIFT_COUNT" 3 _ e2 (by simp) (by decide) (by decide) (by decide),
    px _ "#define YY_SHIFT_MIN      (" "YY_SHIFT_MIN" 5 _ e2 (by simp) (by decide) (by decide) (by decide), px _ "#define YY_SHIFT_MAX      (" "YY_SHIFT_MAX" 5 _ e2 (by simp) (by decide) (by decide) (by decide),
    px _ "#define YY_REDUCE_COUNT (" "YY_REDUCE_COUNT" 0 _ e3 (by simp) (by decide) (by decide) (by decide), px _ "#define YY_REDUCE_MIN   (" "YY_REDUCE_MIN" 2 _ e3 (by simp) (by decide) (by decide) (by decide),
    px _ "#define YY_REDUCE_MAX   (" "YY_REDUCE_MAX" 2 _ e3 (by simp) (by decide) (by decide) (by decide)⟩ <;> simp only [defineLines, List.mem_append, List.mem_cons, true_or, or_true]

/-- an array as lemon prints it -/
example : readArray (text " /*     0 */     5,   -7,  120,\n /*    10 */     6,\n") = some [.int 5, .int (-7), .int 120, .int 6] := by decide +kernel

example : readDefine (text "#define YY_SHIFT_MIN      (-3)") = some (text "YY_SHIFT_MIN", -3) := by decide +kernel

end Verif.Lemon
