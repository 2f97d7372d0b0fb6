import Verif.Proofs.ByaccMeans
/-
C80: what a grammar file means to byacc.

`reader`, the model of byacc's reader from the text of the file to the arrays the tables are made from, is compared with the relations of
`Verif/Spec/ByaccFile.lean` (which text is a file, and what its parts are: `FileAt`), `Verif/Spec/ByaccMeaning.lean` (what the parts say: names,
tokens, codes, precedences, tags, rules, actions) and `Verif/Spec/ByaccGrammar.lean` (the numbers of symbols and rules).
-/
set_option autoImplicit false
namespace Verif.Byacc
open Rd Spec.YText

/-- C80: a grammar file is accepted if and only if it is a file (declarations, `%%`, rules), its declarations fit together, no token has rules,
the start symbol has some, and each reference in an action has a type if there are types.  (The model leaves out what `DESIGN.md` lists; a file with
a NUL byte is one of these.) -/
theorem C80_accepted (lp : Bool) (file text : List Nat) : (∃ out, reader lp file text = .ok out) ↔
    0 ∉ text ∧ ∃ t F acts tags, GivenText file text t ∧ FileAt F t ∧ F.Ok ∧ IsLhs F.uses F.goal ∧ ActsOf F.uses 0 (tagged F.all) F.alts acts tags := by
  constructor
  · rintro ⟨out, h⟩
    obtain ⟨h0, t, F, h1, h2, h3, h4, acts, tags, h5, -⟩ := (reader_iff lp file text out).1 h
    exact ⟨h0, t, F, acts, tags, h1, h2, h3, h4, h5⟩
  · rintro ⟨h0, t, F, acts, tags, h1, h2, h3, h4, h5⟩
    exact ⟨_, (reader_iff lp file text _).2 ⟨h0, t, F, h1, h2, h3, h4, acts, tags, h5, rfl⟩⟩

/-- C80: a text can be read in one way only, and its actions are translated in one way only. -/
theorem C80_unique (file text t t' : List Nat) (F F' : File) (h1 : GivenText file text t) (h1' : GivenText file text t') (h2 : FileAt F t)
    (h2' : FileAt F' t') : t = t' ∧ F = F' ∧ ∀ acts tags acts' tags', ActsOf F.uses 0 (tagged F.all) F.alts acts tags →
      ActsOf F'.uses 0 (tagged F'.all) F'.alts acts' tags' → acts = acts' := by
  obtain rfl := ((given_iff _ _ _).1 h1).trans ((given_iff _ _ _).1 h1').symm
  obtain rfl := fileAt_unique h2 h2'
  exact ⟨rfl, rfl, fun _ _ _ _ h h' => (actsOf_unique h h').1⟩

/-- C80: what is read is what the file says: the symbols and their kinds, numbers, codes, precedences and tags, the start symbol, the rules and their
precedences, the actions and the text copied. -/
theorem C80_meaning (lp : Bool) (file text : List Nat) (out : FileOut) (h : reader lp file text = .ok out) (t : List Nat) (F : File)
    (ht : GivenText file text t) (hF : FileAt F t) : ∃ acts tags, ActsOf F.uses 0 (tagged F.all) F.alts acts tags ∧ Means lp F acts out := by
  obtain ⟨-, t', F', h1, h2, h3, h4, acts, tags, h5, rfl⟩ := (reader_iff lp file text out).1 h
  obtain ⟨rfl, rfl, -⟩ := C80_unique file text t t' F F' ht h1 hF h2
  exact ⟨acts, tags, h5, means_final lp hF h3 h4 acts⟩

def c80File : List Nat := txt "%token NUM\n%left '+' '-'\n%left '*'\n%start e\n%%\ne : e '+' e { $$ = $1 + $3; }\n | e '*' { k(); } e %prec '+'\n | NUM\n ;\n%%\nint x;\n"

/-- names, kinds, numbers, codes, rules with their precedences, and actions of a file -/
example : (reader false (txt "g.y") c80File).toOption.map (fun o => (o.syms.map fun b : BSym => (b.name, b.cls), o.num.index, o.num.value)) =
    some ([(txt "error", .TERM), (txt "NUM", .TERM), (txt "'+'", .TERM), (txt "'-'", .TERM), (txt "'*'", .TERM), (txt "e", .NONTERM), (txt "$$1", .ACTION)],
      [1, 2, 3, 4, 5, 7, 8], [0, 256, 257, 43, 45, 42, -1, 0, 1]) := by decide +kernel
example : (reader false (txt "g.y") c80File).toOption.map (fun o => ((List.range' 2 5).map (readRule o.gram), o.gram.rprec, o.acts)) =
    some ([(6, [7, 0]), (7, [7, 3, 7]), (8, []), (7, [7, 5, 8, 7]), (7, [2])], [0, 0, 0, 1, 0, 1, 0],
      [(1, txt "\t{ yyval = yystack.l_mark[-2] + yystack.l_mark[0]; }"), (2, txt "\t{ k(); }")]) := by decide +kernel

theorem ok_of_isSome {α : Type} {x : R α} (h : x.toOption.isSome = true) : ∃ a, x = .ok a := by
  cases x with
  | ok a => exact ⟨a, rfl⟩
  | error e => cases h

theorem error_of_isNone {α : Type} {x : R α} (h : x.toOption.isSome = false) : ∃ e, x = .error e := by
  cases x with
  | ok a => cases h
  | error e => exact ⟨e, rfl⟩

/-- C80 is violated: a name that begins with `$` is refused in the first rule, but not in others. -/
theorem C80_first_violated : (∃ e, reader false [] (txt "%%\n$x : 'a' ;\n") = .error e) ∧
    ∃ out, reader false [] (txt "%%\nx : $x ; $x : 'a' ;\n") = .ok out :=
  ⟨error_of_isNone (by decide +kernel), ok_of_isSome (by decide +kernel)⟩

/-- C80 is violated: whether an action is accepted depends on the actions before it: a tag in one of them makes types necessary in those that
follow. -/
theorem C80_order_violated : (∃ out, reader false [] (txt "%%\nx : y { $$ = 1; } { $<t>$ = 1; } ;\n") = .ok out) ∧
    ∃ e, reader false [] (txt "%%\nx : y { $<t>$ = 1; } { $$ = 1; } ;\n") = .error e :=
  ⟨ok_of_isSome (by decide +kernel), error_of_isNone (by decide +kernel)⟩

/-- C80 is violated: the literal `'\0'` is accepted as a token and gets the code of the end of the input; two tokens can be given the same code. -/
theorem C80_codes_violated : (reader false [] (txt "%%\nx : '\\0' ;\n")).toOption.map (fun o => o.num.value) = some [0, 256, 0, -1, 0] ∧
    (reader false [] (txt "%token A 300 B 300\n%%\nx : A B ;\n")).toOption.map (fun o => o.num.value) = some [0, 256, 300, 300, -1, 0] := by
  decide +kernel

end Verif.Byacc
