import Verif.Proofs.ByaccActs
import Verif.Byacc.Whole
import Verif.Props.C18
import Verif.Props.C81
import Verif.Props.C80
/-
C82: the parser made from a grammar file accepts the language of the file.

`makeTables` goes from the text of a grammar file to the tables of the parser; `Driver` is the parser of byacc's skeleton with these tables.  The
language of a file and the values computed along a parse tree are defined in `Verif/Spec/ByaccLang.lean`, by the names in the file.
-/
set_option autoImplicit false
namespace Verif.Byacc
open Rd Spec Spec.YText

/-- what `makeTables` puts together -/
theorem tables_iff (per : Nat) (lp : Bool) (file text : List Nat) (out : FileOut) (o : Generated) (tb : Tables) :
    makeTables per lp file text = some (out, o, tb) ↔ reader lp file text = .ok out ∧ generate out.gram out.prec lp out.sr out.rr = some o ∧
      outputTables per out.gram out.num.value o = .ok tb := by
  unfold makeTables
  cases reader lp file text with
  | error e => simp
  | ok out' =>
    simp only
    cases hg : generate out'.gram out'.prec lp out'.sr out'.rr with
    | none =>
      simp only [reduceCtorEq, Except.ok.injEq, false_iff, not_and]
      rintro rfl h
      rw [hg] at h; cases h
    | some o' =>
      simp only
      cases ht : outputTables per out'.gram out'.num.value o' with
      | ok t =>
        simp only [Option.some.injEq, Prod.mk.injEq, Except.ok.injEq]
        constructor
        · rintro ⟨rfl, rfl, rfl⟩; exact ⟨rfl, hg, ht⟩
        · rintro ⟨rfl, h1, h2⟩
          rw [hg] at h1
          cases h1
          rw [ht] at h2
          cases h2
          exact ⟨rfl, rfl, rfl⟩
      | _ =>
        simp only [reduceCtorEq, Except.ok.injEq, false_iff, not_and]
        rintro rfl h1 h2
        rw [hg] at h1
        cases h1
        rw [ht] at h2
        cases h2

/-- C82: tables are made of every file that is accepted, unless they get too large. -/
theorem C82_tables (per : Nat) (lp : Bool) (file text : List Nat) (out : FileOut) (h : reader lp file text = .ok out) :
    ∃ o, generate out.gram out.prec lp out.sr out.rr = some o ∧
      ∀ tb, makeTables per lp file text = some (out, o, tb) ↔ outputTables per out.gram out.num.value o = .ok tb := by
  obtain ⟨-, t, F, -, hF, -, hl, acts, tags, -, rfl⟩ := (reader_iff lp file text out).1 h
  obtain ⟨o, ho, -⟩ := generate_ok lp ((tokenNames F.uses).length + 1) ((names F.uses).length + 2) (F.rules.map (srcRule F.uses F.goal))
    (by rw [rule_numbers]; exact user_rules hF hl) (finalOut lp F acts).gram rfl (finalOut lp F acts).prec lp (finalOut lp F acts).sr
    (finalOut lp F acts).rr
  exact ⟨o, ho, fun tb => ⟨fun h' => ((tables_iff _ _ _ _ _ _ _).1 h').2.2, fun h' => (tables_iff _ _ _ _ _ _ _).2 ⟨h, ho, h'⟩⟩⟩

theorem sound_codeAt (per : Nat) (hper : per = 2 ∨ per = 3) (lp : Bool) (file text : List Nat) (out : FileOut) (o : Generated) (tb : Tables)
    (h : makeTables per lp file text = some (out, o, tb)) (t : List Nat) (F : File) (ht : GivenText file text t) (hF : FileAt F t)
    (hd : CodesDiffer F.uses) : CodesOf F.uses (codeAt F.uses F.goal) ∧
      ∀ (V : Type) (P : Driver V) (f : Nat → V → List V → V), P.t = tb → ValueActs P f → 2 ≤ P.init →
      ∀ (size : Nat) (u : V) (input : List (Int × V)) (n : Nat) (c : Cfg V), (size = 0 ∨ 2 ≤ size) →
        P.run n (P.start size u input) = .done .accept c → Ev.report ∉ c.log →
        ∃ (w : List (List Nat × V)) (q : Nat) (v : V), tokensOf input = w.map (fun p => (codeAt F.uses F.goal p.1, p.2)) ∧
          F.Sentence (w.map Prod.fst) ∧ c.stack = [(q, v), (0, u)] ∧
          Computes F P.zero f [u] [.sym F.goal] w [v] := by
  obtain ⟨h1, h2, h3⟩ := (tables_iff _ _ _ _ _ _ _).1 h
  obtain ⟨-, t', F', g1, g2, hok, hl, acts, tags, -, rfl⟩ := (reader_iff lp file text out).1 h1
  obtain ⟨rfl, rfl, -⟩ := C80_unique file text t t' F F' ht g1 hF g2
  refine ⟨codes_of F.uses F.goal (error_terminal hF hok), ?_⟩
  have hlen : 2 ≤ (tokenNames F.uses).length + 1 := by
    have : txt "error" ∈ tokenNames F.uses :=
      List.mem_filter.2 ⟨(mem_names _ _).2 (.inl rfl), by simpa using error_terminal hF hok⟩
    have := List.length_pos_of_mem this
    omega
  have hu := user_rules hF hl
  obtain ⟨o', ho', K⟩ := C81_left_to_right lp ((tokenNames F.uses).length + 1) ((names F.uses).length + 2) (F.rules.map (srcRule F.uses F.goal))
    (by rw [rule_numbers]; exact hu) hlen (finalOut lp F acts).gram rfl (finalOut lp F acts).prec lp (finalOut lp F acts).sr (finalOut lp F acts).rr
    (finalOut lp F acts).num.value (sym_vals hF hok hd _) per hper
  rw [h2] at ho'
  cases ho'
  intro V P f hP hpure hinit size u input n c hsize hrun hrep
  obtain ⟨ps, w, q, v, k1, -, -, -, -, k5, k6⟩ := K tb h3 V P f hP hpure hinit size u input n c hsize hrun hrep
  rw [rule_numbers] at k6
  have hng : symNumber F.uses F.goal F.goal = (tokenNames F.uses).length + 1 + 1 := by
    unfold symNumber
    rw [if_neg (goal_nonterm hl), if_pos rfl]
  obtain ⟨w', hw', rfl⟩ := computes_of hF k6 [F.goal] (by simpa using goal_mem F) (by simp [hng])
  have hg : ¬ Hid F.goal := fun hh => (hid_hidden hF (goal_mem F)).1 hh (lhs_notHidden hF _ hl)
  refine ⟨w', q, v, ?_, ?_, k5, hw'.computes hF _ (.cons ⟨rfl, hg⟩ .nil)⟩
  · rw [k1, List.map_map]
    rfl
  · have hs := hw'.stands hF (by simpa using goal_mem F)
    have : vis [F.goal] = [F.goal] := by
      unfold vis
      rw [List.filter_cons_of_pos]
      · rfl
      · simpa using hg
    rw [this] at hs
    exact hs

/-- C82: from the text of a grammar file to the parser.  If no two tokens have the same code, then what the parser accepts without reporting an error is a
sentence of the grammar as written in the file, its tokens given by their codes; and the value left on the stack is the one computed by the actions
along a parse tree, from left to right. -/
theorem C82_sound (per : Nat) (hper : per = 2 ∨ per = 3) (lp : Bool) (file text : List Nat) (out : FileOut) (o : Generated) (tb : Tables)
    (h : makeTables per lp file text = some (out, o, tb)) (t : List Nat) (F : File) (ht : GivenText file text t) (hF : FileAt F t)
    (hd : CodesDiffer F.uses) : ∃ code : List Nat → Int, CodesOf F.uses code ∧
      ∀ (V : Type) (P : Driver V) (f : Nat → V → List V → V), P.t = tb → ValueActs P f → 2 ≤ P.init →
      ∀ (size : Nat) (u : V) (input : List (Int × V)) (n : Nat) (c : Cfg V), (size = 0 ∨ 2 ≤ size) →
        P.run n (P.start size u input) = .done .accept c → Ev.report ∉ c.log →
        ∃ (w : List (List Nat × V)) (q : Nat) (v : V), tokensOf input = w.map (fun p => (code p.1, p.2)) ∧
          F.Sentence (w.map Prod.fst) ∧ c.stack = [(q, v), (0, u)] ∧
          Computes F P.zero f [u] [.sym F.goal] w [v] :=
  ⟨_, sound_codeAt per hper lp file text out o tb h t F ht hF hd⟩

theorem complete_codeAt (per : Nat) (hper : per = 2 ∨ per = 3) (lp : Bool) (file text : List Nat) (out : FileOut) (o : Generated) (tb : Tables)
    (h : makeTables per lp file text = some (out, o, tb)) (t : List Nat) (F : File) (ht : GivenText file text t) (hF : FileAt F t)
    (hd : CodesDiffer F.uses) (hp : ∀ n, levelOf F.uses n = 0) (hSR : o.parser.SRtotal = 0) (hRR : o.parser.RRtotal = 0) :
    ∀ (V : Type) (w : List (List Nat × V)), F.Sentence (w.map Prod.fst) →
      ∃ D, ∀ P : Driver V, P.t = tb → (∀ r d st, ∃ v, P.act r d st = .val v) → 2 ≤ P.init → D ≤ P.max →
      ∀ (size : Nat) (u : V) (input : List (Int × V)), (size = 0 ∨ 2 ≤ size) →
        tokensOf input = w.map (fun p => (codeAt F.uses F.goal p.1, p.2)) →
        ∃ n c, P.run n (P.start size u input) = .done .accept c ∧ Ev.report ∉ c.log := by
  obtain ⟨h1, h2, h3⟩ := (tables_iff _ _ _ _ _ _ _).1 h
  obtain ⟨-, t', F', g1, g2, hok, hl, acts, tags, -, rfl⟩ := (reader_iff lp file text out).1 h1
  obtain ⟨rfl, rfl, -⟩ := C80_unique file text t t' F F' ht g1 hF g2
  have hlen : 2 ≤ (tokenNames F.uses).length + 1 := by
    have : txt "error" ∈ tokenNames F.uses :=
      List.mem_filter.2 ⟨(mem_names _ _).2 (.inl rfl), by simpa using error_terminal hF hok⟩
    have := List.length_pos_of_mem this
    omega
  have hu := user_rules hF hl
  obtain ⟨n1, n2⟩ := no_prec lp F hp acts
  obtain ⟨o', ho', K⟩ := C18_complete lp ((tokenNames F.uses).length + 1) ((names F.uses).length + 2) (F.rules.map (srcRule F.uses F.goal))
    (by rw [rule_numbers]; exact hu) hlen (finalOut lp F acts).gram rfl (finalOut lp F acts).prec lp (finalOut lp F acts).sr (finalOut lp F acts).rr
    n1 n2 (finalOut lp F acts).num.value (sym_vals hF hok hd _) per hper
  rw [h2] at ho'
  cases ho'
  intro V w hw
  have hng : symNumber F.uses F.goal F.goal = (tokenNames F.uses).length + 1 + 1 := by
    unfold symNumber
    rw [if_neg (goal_nonterm hl), if_pos rfl]
  obtain ⟨hy, -⟩ := Stands.yields hF hw (by simpa using goal_mem F)
  rw [rule_numbers] at K
  obtain ⟨D, hD⟩ := K hSR hRR tb h3 V (w.map fun p => (symNumber F.uses F.goal p.1, p.2)) (by
    refine yields_iff.1 ?_
    rw [List.map_cons, hng] at hy
    rw [List.map_map]
    rw [List.map_map] at hy
    exact hy)
  refine ⟨D, ?_⟩
  intro P hP hact hinit hmax size u input hsize hin
  refine hD P hP hact hinit hmax size u input hsize ?_
  rw [hin, List.map_map]
  rfl

/-- C82: if the file declares no precedences and byacc reports no conflicts, the parser accepts every sentence of the grammar as written in the file
(if the stack may grow far enough, and the actions do nothing but compute values). -/
theorem C82_complete (per : Nat) (hper : per = 2 ∨ per = 3) (lp : Bool) (file text : List Nat) (out : FileOut) (o : Generated) (tb : Tables)
    (h : makeTables per lp file text = some (out, o, tb)) (t : List Nat) (F : File) (ht : GivenText file text t) (hF : FileAt F t)
    (hd : CodesDiffer F.uses) (hp : ∀ n, levelOf F.uses n = 0) (hSR : o.parser.SRtotal = 0) (hRR : o.parser.RRtotal = 0) :
    ∃ code : List Nat → Int, CodesOf F.uses code ∧ ∀ (V : Type) (w : List (List Nat × V)), F.Sentence (w.map Prod.fst) →
      ∃ D, ∀ P : Driver V, P.t = tb → (∀ r d st, ∃ v, P.act r d st = .val v) → 2 ≤ P.init → D ≤ P.max →
      ∀ (size : Nat) (u : V) (input : List (Int × V)), (size = 0 ∨ 2 ≤ size) →
        tokensOf input = w.map (fun p => (code p.1, p.2)) →
        ∃ n c, P.run n (P.start size u input) = .done .accept c ∧ Ev.report ∉ c.log :=
  ⟨_, (sound_codeAt per hper lp file text out o tb h t F ht hF hd).1, complete_codeAt per hper lp file text out o tb h t F ht hF hd hp hSR hRR⟩

/-- C82: the numbers in `Computes` are those under which the actions of the file are written: for an action of a rule, with `x` in front of it and `y`
behind it, there is one case, with its number, made from its text in view of `x`.  If something follows the action in the rule, this is the number of the
step at its place (`$k` of the actions behind it counts it); if not, it is the number of the rule itself.  No two actions have the same number. -/
theorem C82_actions (lp : Bool) (file text : List Nat) (out : FileOut) (h : reader lp file text = .ok out) (t : List Nat) (F : File)
    (ht : GivenText file text t) (hF : FileAt F t) :
    (out.acts.map Prod.fst).Nodup ∧ ∀ n a, (n, a) ∈ numbered 0 F.alts → ∀ x tabbed ps y, a.rhs = x ++ .action tabbed ps :: y → ∃ m o t1 t2,
      (m, (if tabbed then [9] else []) ++ o) ∈ out.acts ∧ PartsOut ⟨declaredTag F.uses a.lhs.key, elTags F.uses a.lhs x⟩ t1 ps o t2 ∧
      (precOnly y = false → (stepsOf n a.rhs)[(elFilter x).length]? = some (.act m)) ∧
      (precOnly y = true → m = n + innerActions a.rhs + 1 ∧ (stepsOf n a.rhs).length = (elFilter x).length) := by
  obtain ⟨acts, tags, h1, h2⟩ := C80_meaning lp file text out h t F ht hF
  have e : out.acts = acts := h2.acts
  rw [e]
  refine ⟨?_, ?_⟩
  · rw [actsOf_numbers h1]
    exact (actNumbers_lt _ _).2.imp (fun h => by omega)
  · intro n a ha x tabbed ps y hx
    obtain ⟨o, t1, t2, h3, h4⟩ := actsOf_at h1 n a ha x tabbed ps y hx
    refine ⟨_, o, t1, t2, h3, h4, ?_, ?_⟩
    · intro hy; rw [hx]; exact steps_at tabbed ps y hy x n
    · intro hy; rw [hx, inner_at tabbed ps y hy x]
      exact ⟨rfl, steps_length tabbed ps y hy x n⟩

/-- C82: the hypotheses on the file can be read off what byacc makes of it: the codes of tokens differ if they do in the list of codes, and 256 is not
among those behind `error`; and no precedence is declared if all are 0. -/
theorem C82_check (lp : Bool) (file text : List Nat) (out : FileOut) (h : reader lp file text = .ok out) (t : List Nat) (F : File)
    (ht : GivenText file text t) (hF : FileAt F t) :
    ((∀ i < out.num.ntokens, ∀ j < out.num.ntokens, out.num.value.getD i 0 = out.num.value.getD j 0 → i = j) →
      (∀ i < out.num.ntokens, 1 < i → out.num.value.getD i 0 ≠ 256) → CodesDiffer F.uses) ∧
    ((∀ p ∈ out.prec.prec, p = 0) → ∀ n, levelOf F.uses n = 0) := by
  obtain ⟨acts, tags, -, M⟩ := C80_meaning lp file text out h t F ht hF
  constructor
  · intro h1 h2
    rw [M.tokens.1] at h1 h2
    have hn : ∀ n ∈ tokenNames F.uses, n ∈ names F.uses ∧ Terminal F.uses n := fun n hn =>
      ⟨(List.mem_filter.1 hn).1, by simpa using (List.mem_filter.1 hn).2⟩
    have hlt : ∀ n ∈ tokenNames F.uses, symNumber F.uses F.goal n < (tokenNames F.uses).length + 1 ∧ 0 < symNumber F.uses F.goal n := fun n h =>
      ⟨(number_token F.uses F.goal (hn n h).1).1.2 (hn n h).2, (number_token F.uses F.goal (hn n h).1).2.1⟩
    have h0 : out.num.value.getD 0 0 = 0 := by rw [List.getD_eq_getElem?_getD, M.eof]; rfl
    refine ⟨?_, ?_, ?_⟩
    · intro n hm hc
      have := M.codes.given n hm 0 hc
      have := h1 _ (hlt n hm).1 0 (by omega) (by rw [h0]; exact this)
      have := (hlt n hm).2
      omega
    · intro n hm m hm' c hc hc'
      have e1 := M.codes.given n hm c hc
      have e2 := M.codes.given m hm' c hc'
      exact number_inj _ _ (hn n hm).1 (hn m hm').1 (h1 _ (hlt n hm).1 _ (hlt m hm').1 (e1.trans e2.symm))
    · intro n hm hne hc
      have e1 := M.codes.given n hm 256 hc
      refine h2 _ (hlt n hm).1 ?_ e1
      have := (hlt n hm).2
      by_contra hcon
      have hone : symNumber F.uses F.goal n = 1 := by omega
      unfold symNumber at hone
      rw [if_pos (hn n hm).2] at hone
      have hi : (tokenNames F.uses).idxOf n = 0 := by omega
      have hterr : Terminal F.uses (txt "error") := by
        obtain ⟨-, t', F', g1, g2, hok, -, -⟩ := (reader_iff lp file text out).1 h
        obtain ⟨-, rfl, -⟩ := C80_unique file text t t' F F' ht g1 hF g2
        exact error_terminal hF hok
      have herr : (tokenNames F.uses)[0]? = some (txt "error") := by
        unfold tokenNames names firsts
        rw [List.filter_cons_of_pos (by simpa using hterr)]
        rfl
      have : (tokenNames F.uses)[(tokenNames F.uses).idxOf n]? = some n := by
        rw [List.getElem?_eq_getElem (List.idxOf_lt_length_iff.2 hm), List.getElem_idxOf]
      rw [hi, herr] at this
      exact hne (Option.some.inj this).symm
  · intro h1 n
    by_cases hn : n ∈ names F.uses
    · exact h1 _ (List.mem_of_getElem? (M.sprec n hn).1)
    · have : YText.precOf F.uses n = none := by
        unfold YText.precOf
        rw [List.getLast?_eq_none_iff, List.filterMap_eq_nil_iff]
        intro u hu
        cases u with
        | token x a l tag code =>
          simp only
          rw [if_neg]
          rintro ⟨he, -⟩
          exact hn ((mem_names _ _).2 (.inr ⟨_, hu, he⟩))
        | _ => rfl
      unfold levelOf
      rw [this]; rfl

def c82File : List Nat := txt "%token NUM\n%%\nlist : item | list ',' { k($1); } item { $$ = $1 + $3 + $4; } ;\nitem : NUM | '(' list ')' { $$ = $2; } ;\n"

/-- the actions of that file: the inner one has number 2 (rule 2), the others have the numbers 3 and 5 of their rules -/
def c82P (t : Tables) : Driver Int where
  t := t
  act := fun r d st => .val (match r with
    | 2 => 100 * st.getD 1 0
    | 3 => st.getD 3 0 + st.getD 1 0 + st.getD 0 0
    | 5 => st.getD 1 0
    | _ => d)
  zero := 0
  init := 200
  max := 10000

example : (reader false [] c82File).toOption.map (fun o => o.acts) = some
    [(2, txt "\t{ k(yystack.l_mark[-1]); }"), (3, txt "\t{ yyval = yystack.l_mark[-3] + yystack.l_mark[-1] + yystack.l_mark[0]; }"),
      (5, txt "\t{ yyval = yystack.l_mark[-1]; }")] := by decide +kernel

/-- the file meets the hypotheses: no two tokens share a code, and there are no precedences -/
example : (reader false [] c82File).toOption.map (fun o => (o.num.value.take o.num.ntokens, o.prec.prec)) =
    some ([0, 256, 257, 44, 40, 41], [0, 0, 0, 0, 0, 0, 0, 0, 0, 0]) := by decide +kernel

/-- `3 , ( 4 , 5 )`: the inner list has the value `4 + 400 + 5`, the whole `3 + 300 + 409`; there are no conflicts -/
example : ((makeTables 2 false [] c82File).bind fun x => (outcome (c82P x.2.2) 40 0
      [(257, 3), (44, 0), (40, 0), (257, 4), (44, 0), (257, 5), (41, 0)]).map fun y => (x.2.1.parser.SRtotal, x.2.1.parser.RRtotal, y.1, y.2.1)) =
    some (0, 0, .accept, [712, 0]) := by decide +kernel

/-- `3 , )` is refused -/
example : ((makeTables 2 false [] c82File).bind fun x => (outcome (c82P x.2.2) 40 0 [(257, 3), (44, 0), (41, 0)]).map fun y => y.1) = some .abort := by
  decide +kernel

/-- C82 is violated if tokens share a code: for `x : A A | B C` with `A` and `B` both given the number 300, byacc reports no conflict, and the parser
accepts `B C` (300, 257), but refuses the sentence `A A` (300, 300). -/
theorem C82_codes_violated :
    ((makeTables 2 false [] (txt "%token A 300 B 300 C\n%%\nx : A A | B C ;\n")).bind fun x => (outcome (c82P x.2.2) 40 0
      [(300, 0), (257, 0)]).map fun y => (x.2.1.parser.SRtotal, x.2.1.parser.RRtotal, y.1)) = some (0, 0, .accept) ∧
    ((makeTables 2 false [] (txt "%token A 300 B 300 C\n%%\nx : A A | B C ;\n")).bind fun x => (outcome (c82P x.2.2) 40 0
      [(300, 0), (300, 0)]).map fun y => y.1) = some .abort := by decide +kernel

/-- C82 is violated by the token `'\0'`: its code is that of the end of the input, so the sentence `a` of `x : 'a' | 'a' '\0' 'b'` is refused. -/
theorem C82_nul_violated :
    ((makeTables 2 false [] (txt "%%\nx : 'a' | 'a' '\\0' 'b' ;\n")).bind fun x => (outcome (c82P x.2.2) 40 0
      [(97, 0)]).map fun y => (x.2.1.parser.SRtotal, x.2.1.parser.RRtotal, y.1)) = some (0, 0, .abort) := by decide +kernel

end Verif.Byacc
