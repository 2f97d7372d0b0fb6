import Verif.Proofs.ByaccActions
/-
C79: the code of byacc's actions.

`copyBody` is compared with the relations of `Verif/Spec/ByaccCode.lean`: which text is an action and what its parts are
(`ActionAt`), and what each part is translated to (`PartsOut`).
-/
set_option autoImplicit false
namespace Verif.Byacc
open Rd Spec.YText

/-- C79: an action is translated part by part: strings, comments and other code are copied, `$$`, `$n`, `@n`, `$<tag>n` become the
places of their symbols on the stacks, with the type declared or given.  What is not an action, or contains a reference whose type
is not known, is refused. -/
theorem C79_action (lhs : Option (List Nat)) (rhs : List (Option (List Nat))) (tags : Bool) (t o u : List Nat) (tags' : Bool)
    (ht : ∃ r, t = 123 :: r ∨ t = 61 :: r) :
    copyBody ⟨lhs, rhs⟩ tags t = .ok (o, u, tags') ↔
      ∃ tabbed ps o', ActionAt tabbed ps t u ∧ PartsOut ⟨lhs, rhs⟩ tags ps o' tags' ∧ o = (if tabbed then [9] else []) ++ o' :=
  copyBody_iff ⟨lhs, rhs⟩ tags t o u tags' ht

example : copyBody ⟨none, [none, none]⟩ false (txt "{ $$ = $1 + f(@2, \"$1\", 'x'); /* $1 */ } | x") =
    .ok (txt "\t{ yyval = yystack.l_mark[-1] + f(yystack.p_mark[0], \"$1\", 'x'); /* $1 */ }", txt " | x", false) := by decide +kernel
example : copyBody ⟨some (txt "n"), [some (txt "m"), none]⟩ true (txt "= $$ = $1 + $<z>2 + a$1; x") =
    .ok (txt " yyval.n = yystack.l_mark[-1].m + yystack.l_mark[0].z + a$1;", txt " x", true) := by decide +kernel

/-- C79: in an action that follows `n` symbols, `$i` for `1 ≤ i ≤ n` is the value of the `i`-th of them: with the values of these symbols
on the stack, the last one on top, the place written is that of the `i`-th. -/
theorem C79_slot {V : Type} (below vals : List V) (i : Nat) (h1 : 1 ≤ i) (h2 : i ≤ vals.length) :
    ∃ k : Int, offset vals.length (.pos i) = some k ∧ 0 ≤ ((below ++ vals).length : Int) - 1 + k ∧
      (below ++ vals)[(((below ++ vals).length : Int) - 1 + k).toNat]? = vals[i - 1]? := by
  refine ⟨_, rfl, ?_, ?_⟩
  · simp only [List.length_append]; omega
  · have : (((below ++ vals).length : Int) - 1 + ((i : Int) - vals.length)).toNat = below.length + (i - 1) := by
      simp only [List.length_append]; omega
    rw [this, List.getElem?_append_right (by omega)]
    congr 1; omega

/-- C79: `$0`, `$-1`, .. are the symbols in front of the rule: `$-k` is the value with `k` others between it and the first symbol. -/
theorem C79_before {V : Type} (below vals : List V) (k : Nat) (h : k < below.length) :
    ∃ j : Int, offset vals.length (.neg k) = some j ∧ (below ++ vals)[(((below ++ vals).length : Int) - 1 + j).toNat]? = below[below.length - 1 - k]? := by
  refine ⟨_, rfl, ?_⟩
  have : (((below ++ vals).length : Int) - 1 + (-(k : Int) - vals.length)).toNat = below.length - 1 - k := by
    simp only [List.length_append]; omega
  rw [this, List.getElem?_append_left (by omega)]

example : offset 3 (.pos 1) = some (-2) ∧ offset 3 (.pos 3) = some 0 ∧ offset 3 (.neg 0) = some (-3) := by decide

/-- C79: an action in whose text there is neither `$` nor `@` is translated in the same way wherever it stands. -/
theorem C79_plain (x y : ActCtx) (a b : Bool) (t o u : List Nat) (a' : Bool) (ht : ∃ r, t = 123 :: r ∨ t = 61 :: r) (h1 : 36 ∉ t) (h2 : 64 ∉ t)
    (h : copyBody x a t = .ok (o, u, a')) : copyBody y b t = .ok (o, u, b) ∧ a' = a := by
  obtain ⟨tabbed, ps, o', h3, h4, rfl⟩ := (copyBody_iff x a t o u a' ht).1 h
  have h5 := partsOut_isCode (actionAt_isCode h3 h1 h2) h4 y.types b
  exact ⟨(copyBody_iff y b t _ u b ht).2 ⟨tabbed, ps, o', h3, h5.1, rfl⟩, h5.2⟩

example : copyBody ⟨none, [none]⟩ false (txt "{ if (x) { y(\"}\"); } } z") = .ok (txt "\t{ if (x) { y(\"}\"); } }", txt " z", false) ∧
    36 ∉ txt "{ if (x) { y(\"}\"); } } z" := by decide +kernel

/-- C79 is violated: a number greater than the number of symbols is only warned about, and becomes a place above the top of the stack. -/
theorem C79_beyond_violated : copyBody ⟨none, [none, none]⟩ false (txt "{ $$ = $3; }") = .ok (txt "\t{ yyval = yystack.l_mark[1]; }", [], false) := by
  decide +kernel

/-- C79 is violated: a name after `$` is only warned about, and a minus sign without a number not even that: both become the value in front of
the rule. -/
theorem C79_name_violated : copyBody ⟨none, [none, none]⟩ false (txt "{ $foo = $-; }") =
    .ok (txt "\t{ yystack.l_mark[-2] = yystack.l_mark[-2]; }", [], false) := by decide +kernel

/-- C79 is violated: with types declared, a value without a known type is refused, but not in an action that follows no symbol. -/
theorem C79_untyped_violated : copyBody ⟨some (txt "n"), []⟩ true (txt "{ $$ = $1; }") = .ok (txt "\t{ yyval.n = yystack.l_mark[1]; }", [], true) ∧
    ∃ e, copyBody ⟨some (txt "n"), [none]⟩ true (txt "{ $$ = $1; }") = .error e := by
  refine ⟨by decide +kernel, .error .untypedRhs (txt "$1; }"), by decide +kernel⟩

end Verif.Byacc
