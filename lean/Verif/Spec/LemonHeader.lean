import Verif.Spec.LemonPreproc
/-
Comments of C.
-/
set_option autoImplicit false
namespace Verif.Lemon

/-- `t` starts with a comment of C; `c` is the text of the comment and `r` the text behind it -/
def Comment (t c r : List Nat) : Prop := t = [47, 42] ++ c ++ [42, 47] ++ r ∧ ¬ [42, 47] <:+: c

/-- `t` is one comment, and else only white space -/
def OneComment (t : List Nat) : Prop := ∃ c r, Comment t c r ∧ Blank r

end Verif.Lemon
