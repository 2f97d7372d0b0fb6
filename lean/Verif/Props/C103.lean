import Verif.Proofs.TextCases
import Verif.Props.C82
import Verif.Props.C92
/-
C103: every action of the grammar file is a case of the switch in the generated parser, under the number of its rule.
-/
set_option autoImplicit false
namespace Verif.Byacc
open Rd Spec.OutText Spec.YText

variable {I : TextIn}

/-- The switch of the parser, which begins behind the third part of the skeleton's body and ends with its trailer, has exactly one case for every action of the
action file, in order, each with the action's text unchanged.  (With directives: unless a line of an action is `#line 1 ""`.) -/
theorem C103_switch (I : TextIn) (hi : 10 ∉ I.inputName) (hi0 : I.inputName ≠ []) (acts : List (Nat × List Nat)) (lns : List Nat) (hlen : lns.length = acts.length)
    (hne : acts ≠ []) (hm : ∀ a ∈ acts, I.lflag = true ∨ NoMark a.2) (hI : I.actions = actionFile I.lflag I.backtrack I.inputName lns acts) (w : Wr) :
    ∃ pre ks k, ks.length = acts.length ∧ bytes I.codeName (w.output I).code = pre ++ linesText I.skel.body3 ++
      ((acts.zip lns).zip ks).flatMap (fun x => caseBlock I.lflag I.backtrack I.inputName I.codeName x.1.1.1 x.1.1.2 x.1.2 x.2) ++
      directive I.lflag k I.codeName ++ linesText I.skel.trailer := by
  have hz : acts.zip lns ≠ [] := by
    cases acts with
    | nil => exact absurd rfl hne
    | cons a acts =>
      cases lns with
      | nil => simp at hlen
      | cons n lns => simp
  unfold Wr.output
  rw [back_eq]
  generalize ((((w.front I).tables I).debug I).middle I).initial I = w1
  obtain ⟨ks, k, h1, h2⟩ := semantic_cases (I := I) hi hi0 (acts.zip lns) hz (fun x hx => hm x.1 (List.of_mem_zip hx).1) hI (w1.section .code I.skel.body3)
  refine ⟨fileText I .code w1, ks, k, by rw [h1, List.length_zip, hlen, Nat.min_self], ?_⟩
  have e : bytes I.codeName (((w1.section .code I.skel.body3).semantic I).section .code I.skel.trailer).code =
      fileText I .code (((w1.section .code I.skel.body3).semantic I).section .code I.skel.trailer) := rfl
  rw [e, ft_section, h2, ft_section]
  rfl

/-- C103: for an action of a rule of the grammar file, with `x` in front of it and `y` behind it, the C file has a case made from its text in view of `x`.  If
something follows the action in the rule, its number is that of the step at its place; if not, it is the number of the rule. -/
theorem C103_file (lp : Bool) (file text : List Nat) (out : FileOut) (h : reader lp file text = .ok out) (t : List Nat) (F : File)
    (ht : GivenText file text t) (hF : FileAt F t) (I : TextIn) (hi : 10 ∉ I.inputName) (hi0 : I.inputName ≠ []) (lns : List Nat) (hlen : lns.length = out.acts.length)
    (hm : ∀ a ∈ out.acts, I.lflag = true ∨ NoMark a.2) (hI : I.actions = actionFile I.lflag I.backtrack I.inputName lns out.acts) (w : Wr)
    (n : Nat) (a : Alt) (ha : (n, a) ∈ numbered 0 F.alts) (x : List El) (tabbed : Bool) (ps : List Part) (y : List El) (hx : a.rhs = x ++ .action tabbed ps :: y) :
    ∃ m o t1 t2, PartsOut ⟨declaredTag F.uses a.lhs.key, elTags F.uses a.lhs x⟩ t1 ps o t2 ∧
      (precOnly y = false → (stepsOf n a.rhs)[(elFilter x).length]? = some (.act m)) ∧
      (precOnly y = true → m = n + innerActions a.rhs + 1 ∧ (stepsOf n a.rhs).length = (elFilter x).length) ∧
      ∃ pre line self post, bytes I.codeName (w.output I).code = pre ++ linesText I.skel.body3 ++ post ++ linesText I.skel.trailer ∧
        caseBlock I.lflag I.backtrack I.inputName I.codeName m ((if tabbed then [9] else []) ++ o) line self <:+: post := by
  obtain ⟨-, h2⟩ := C82_actions lp file text out h t F ht hF
  obtain ⟨m, o, t1, t2, h3, h4, h5, h6⟩ := h2 n a ha x tabbed ps y hx
  obtain ⟨pre, ks, k, h7, h8⟩ := C103_switch I hi hi0 out.acts lns hlen (by intro e; rw [e] at h3; cases h3) hm hI w
  obtain ⟨i, hil, hi'⟩ := List.mem_iff_getElem.1 h3
  refine ⟨m, o, t1, t2, h4, h5, h6, pre, lns[i]'(by omega), ks[i]'(by omega), _, by rw [h8, List.append_assoc (pre ++ linesText I.skel.body3)], ?_⟩
  refine List.IsInfix.trans ?_ (List.infix_append' [] _ _)
  have : ((((m, (if tabbed then [9] else []) ++ o), lns[i]'(by omega)), ks[i]'(by omega)) : ((Nat × List Nat) × Nat) × Nat) ∈ (out.acts.zip lns).zip ks := by
    refine List.mem_iff_getElem.2 ⟨i, by simp; omega, by simp [hi']⟩
  obtain ⟨s, u, e⟩ := List.append_of_mem this
  rw [e, List.flatMap_append, List.flatMap_cons]
  exact ⟨_, _, by rw [List.append_assoc]⟩

theorem noMark_of_hash {a : List Nat} (h : 35 ∉ a) : NoMark a := by
  intro p s e _
  have : (35 : Nat) ∈ a ++ [10] := by
    rw [e, show txt "#line 1 \"\"\n" = 35 :: txt "line 1 \"\"\n" by decide]; simp
  simp [h] at this

def c103Acts : List (Nat × List Nat) :=
  [(2, txt "\t{ k(yystack.l_mark[-1]); }"), (3, txt "\t{ yyval = yystack.l_mark[-3] + yystack.l_mark[-1] + yystack.l_mark[0]; }"),
    (5, txt "\t{ yyval = yystack.l_mark[-1]; }")]

def c103In (bt l : Bool) (acts : List (Nat × List Nat)) : TextIn :=
  { c87In false false l none with backtrack := bt, actions := actionFile l bt (txt "g.y") [3, 3, 4] acts }

/-- The actions of the file of the examples for C82 meet the hypotheses. -/
example : (reader false [] c82File).toOption.map (fun o => o.acts) = some c103Acts ∧ 10 ∉ (c103In true false c103Acts).inputName ∧ (c103In true false c103Acts).inputName ≠ [] ∧
    (∀ a ∈ c103Acts, NoMark a.2) :=
  ⟨by decide +kernel, by decide, by decide, by
    intro a ha
    refine noMark_of_hash ?_
    revert a
    decide +kernel⟩

/-- The second case. -/
example : caseBlock false true (txt "g.y") (txt "y.c") 3 (txt "\t{ yyval = yystack.l_mark[-3] + yystack.l_mark[-1] + yystack.l_mark[0]; }") 3 99 =
    txt "case 3:\n  if (!yytrial)\n#line 3 \"g.y\"\n\t{ yyval = yystack.l_mark[-3] + yystack.l_mark[-1] + yystack.l_mark[0]; }\n#line 99 \"y.c\"\nbreak;\n" := by
  simp only [caseBlock, directive, str_num]; decide +kernel

/-- an action with a line that looks like the mark -/
def c103Bad : List Nat := txt "\t{ /*\n#line 1 \"\"\n*/ }"

/-- A grammar file whose action has a comment with that line is read, and the line is replaced: the action is not in what is written for the actions. -/
theorem C103_mark_violated : ∃ (file : List Nat) (out : FileOut) (m : Nat) (a : List Nat), reader false [] file = .ok out ∧ out.acts = [(m, a)] ∧
    ∃ I : TextIn, 10 ∉ I.inputName ∧ I.inputName ≠ [] ∧ I.actions = actionFile I.lflag I.backtrack I.inputName [2] out.acts ∧
      ¬ a <:+: bytes I.codeName (Wr.semantic I ⟨[], [], [], [], 0⟩).code := by
  have hev : (reader false [] (txt "%%\ns : 'a' { /*\n#line 1 \"\"\n*/ } ;\n")).toOption.map (fun o => o.acts) = some [(1, c103Bad)] := by decide +kernel
  cases hr : reader false [] (txt "%%\ns : 'a' { /*\n#line 1 \"\"\n*/ } ;\n") with
  | error e => rw [hr] at hev; cases hev
  | ok out =>
    rw [hr] at hev
    have e : out.acts = [(1, c103Bad)] := by simpa [Except.toOption] using hev
    refine ⟨_, out, 1, c103Bad, hr, e, { c87In false false false none with actions := actionFile false false (txt "g.y") [2] [(1, c103Bad)] }, by decide, by decide,
      by rw [e]; rfl, ?_⟩
    decide +kernel

end Verif.Byacc
