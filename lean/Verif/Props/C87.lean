import Verif.Proofs.TextActs
/-
C87: `#line` directives in the generated code file that point to the file itself are right.
-/
set_option autoImplicit false
namespace Verif.Byacc
open Rd Spec.OutText Spec.YText

/-- A grammar file with a `%code` block, a destructor, an action and a third part; the tables do not matter. -/
def c87In (r i l : Bool) (ia : Option (List Nat)) : TextIn :=
  { rflag := r, lflag := l, dflag := true, iflag := i, sflag := false, tflag := true, backtrack := false, tokenTable := false
    locations := true, pureParser := true, symbolPrefix := some (txt "zz")
    codeName := txt "y.c", inputName := txt "g.y", externsName := txt "y.i", definesName := txt "y.h"
    top := some ⟨txt "#line 3 \"g.y\"\nint a;\nint b;\n", 3⟩, requires := none, provides := none, header := none
    text := txt "#line 1 \"g.y\"\n#include <x.h>\n", unionized := false, union := none, ntags := 0
    parseParam := [⟨txt "int", txt "p", []⟩], lexParam := [], destructor := true, destructors := [(257, txt "#line 7 \"g.y\"\n\t{ f();\n }")]
    initialAction := ia
    actions := txt "case 1:\n#line 9 \"g.y\"\n\t{ g(); }\n#line 1 \"\"\nbreak;\n"
    trail := some (txt "\n", txt "int main;", 12)
    skel := ⟨[txt "#define X"], [], [txt "int v;"], [], [txt "#define H"], [], [txt "int", txt "f() {"], [txt "int w;"], [txt "x:"], [], [txt "switch {"], [txt "}}"]⟩
    ntokens := 2, names := [txt "$end", txt "error", txt "$accept", txt "s"], values := [0, 256, -1, 0], pvals := [0, 256, 257, 258]
    rules := [(2, [3]), (3, [])], stos := [0, 257]
    t := { lhs := [-1, 0], len := [2, 0], defred := [1, 0], dgoto := [1], sindex := [0, 0], rindex := [0, 0], gindex := [0], table := [0], check := [-1]
           size := 0, final := 1, errcode := 256, cindex := [0, 0], ctable := [-1] } }

theorem c87_ok (r i l : Bool) (ia : Option (List Nat)) : TextOk (c87In r i l ia) where
  codeName := by change 10 ∉ txt "y.c"; decide
  inputName := by change 10 ∉ txt "g.y"; decide
  externsName := by change 10 ∉ txt "y.i"; decide
  definesName := by change 10 ∉ txt "y.h"; decide
  pfx := by intro p hp; cases hp; unfold Plain; decide
  names := by unfold Plain; change ∀ n ∈ [txt "$end", txt "error", txt "$accept", txt "s"], _; decide
  params := by unfold Plain; change ∀ p ∈ [(⟨txt "int", txt "p", []⟩ : Param)], _; decide
  top := by intro b hb; cases hb; intro _; decide
  requires := by intro b hb; cases hb
  provides := by intro b hb; cases hb
  header := by intro b hb; cases hb
  text := .inr (by change (txt "#line 1 \"g.y\"\n#include <x.h>\n").getLast? = _; decide)
  trail := by intro c r n e; cases e; decide
  skel := by
    unfold Plain
    change ∀ s ∈ [txt "#define X", txt "int v;", txt "#define H", txt "int", txt "f() {", txt "int w;", txt "x:", txt "switch {", txt "}}"], _
    decide

/-- Lines are counted right before `output`. -/
theorem start_lines (I : TextIn) (h : TextOk I) (banner idents : List (List Nat)) (hb : ∀ s ∈ banner, Plain s) (hi : ∀ s ∈ idents, Plain s)
    (hr : I.rflag = false ∨ idents = []) : ExtW I ⟨[], [], [], [], 0⟩ (Wr.start I banner idents) := by
  unfold Wr.start
  refine (ext_section .code banner _ hb).trans ?_
  rcases hr with hr | hr
  · refine ext_foldl _ _ (fun w s hs => ?_) _
    unfold Wr.ident TextIn.out
    simp only [hr]
    refine ext_bump w (fun _ => ?_)
    simp only [List.count_append]
    rw [(hi s hs).count, show (str "#ident \"").count 10 = 0 by decide, show (str "\"\n").count 10 = 1 by decide]
  · subst hr; exact ExtW.refl _

theorem ext_selfRight {I : TextIn} (h : TextOk I) {w : Wr} (e : ExtW I ⟨[], [], [], [], 0⟩ w) : SelfRight I.codeName w.code := by
  obtain ⟨l, c, o, s⟩ := e
  intro a n b e'
  rw [c, List.nil_append] at e'
  obtain ⟨h1, h2, h3⟩ := s a n b e'
  refine ⟨by simpa using h2, ?_⟩
  unfold lineAfter
  rw [bytes_append, List.count_append]
  have : (bytes I.codeName [Piece.self n]).count 10 = 1 := by simp [bytes, Piece.bytes, count_lineText h.codeName]
  rw [this]
  simp [h3, nl]

/-- Every directive about the code file stands on a line of its own and has the number of the next line, unless `-i` is given
without `-r`, `%ident` is used with `-r`, or there is a `%initial-action`.  With `-l` there is none. -/
theorem C87_lines_partial (I : TextIn) (h : TextOk I) (banner idents : List (List Nat)) (hb : ∀ s ∈ banner, Plain s) (hi : ∀ s ∈ idents, Plain s)
    (h1 : I.iflag = false ∨ I.rflag = true) (h2 : I.rflag = false ∨ idents = []) (h3 : I.initialAction = none) :
    SelfRight I.codeName ((Wr.start I banner idents).output I).code ∧
      (I.lflag = true → ∀ n, .self n ∉ ((Wr.start I banner idents).output I).code) := by
  have e := (start_lines I h banner idents hb hi h2).trans (ext_output h h1 h3 _)
  refine ⟨ext_selfRight h e, fun hl n hn => ?_⟩
  obtain ⟨l, c, o, s⟩ := e
  rw [c] at hn
  obtain ⟨a, b, hab⟩ := List.append_of_mem hn
  have := (s a n b (by simpa using hab)).1
  rw [hl] at this; cases this

/-- The hypotheses hold for a file with six such directives. -/
example : TextOk (c87In false false false none) ∧ ((((Wr.start (c87In false false false none) [txt "/* banner */"] []).output (c87In false false false none)).code.filterMap (fun p => match p with | .self n => some n | _ => none)).length = 6) :=
  ⟨c87_ok _ _ _ _, by decide +kernel⟩

/-- The actions are copied without change; the directives in them that stand for the code file are replaced, and one is added at the end. -/
theorem C87_actions (I : TextIn) (h : TextOk I) (hl : I.lflag = false) (he : I.actions.getLast? = some 10) (w : Wr) :
    ∃ l n, (w.semantic I).code = w.code ++ l ++ [.self n] ∧
      l.flatMap (fun p => match p with | .text t => t | .self _ => txt "#line 1 \"\"\n") = I.actions := by
  obtain ⟨w1, l, h1, h2, h3, h4⟩ := semantic_copy h hl he w
  refine ⟨l, w1.outline + 2, by rw [h2, lineno_code w1 hl, h3], ?_⟩
  rw [← h4]; rfl

example : TextOk (c87In false false false none) ∧ (c87In false false false none).lflag = false ∧ (c87In false false false none).actions.getLast? = some 10 :=
  ⟨c87_ok _ _ _ _, rfl, by decide⟩

/-- With `-l` the actions are copied as they are. -/
theorem C87_actions_l (I : TextIn) (hl : I.lflag = true) (he : I.actions.getLast? = some 10) (w : Wr) :
    (w.semantic I).code = w.code ++ I.actions.map (fun c => .text [c]) := by
  have go : ∀ (t : List Nat) (last : Nat) (w : Wr), (last :: t).getLast? = some 10 →
      (w.copyActs I t last 0).code = w.code ++ t.map (fun c => .text [c]) := by
    intro t
    induction t with
    | nil =>
      intro last w e
      unfold Wr.copyActs
      rw [if_neg (by simpa using e)]
      simp [Wr.codeLineno, hl]
    | cons c t ih =>
      intro last w e
      unfold Wr.copyActs
      rw [if_neg (by simp [hl]), ih c _ (by simpa using e), putcCode_code]
      simp
  unfold Wr.semantic
  cases e : I.actions with
  | nil => simp
  | cons c t =>
    rw [e] at he
    rw [go t c _ he, putcCode_code]
    simp

example : (c87In false false true none).lflag = true ∧ (c87In false false true none).actions.getLast? = some 10 := ⟨rfl, by decide⟩

/-- With a `%initial-action` the last directive is wrong. -/
theorem C87_initial_violated (I : TextIn) (h : TextOk I) (banner idents : List (List Nat)) (hb : ∀ s ∈ banner, Plain s) (hi : ∀ s ∈ idents, Plain s)
    (h1 : I.iflag = false ∨ I.rflag = true) (h2 : I.rflag = false ∨ idents = []) (hl : I.lflag = false) (he : I.actions.getLast? = some 10)
    (a : List Nat) (ha : I.initialAction = some a) : ¬ SelfRight I.codeName ((Wr.start I banner idents).output I).code := by
  rw [output_eq]
  refine finish_wrong h hl he _ ?_
  have e : ExtW I ⟨[], [], [], [], 0⟩ (((((((Wr.start I banner idents).before I).prefix I I.declFile).decls I).tables I).debug I).middle I) := by
    refine ExtW.trans ?_ (ext_middle h _)
    refine ExtW.trans ?_ (ext_debug h _)
    refine ExtW.trans ?_ (ext_tables h _)
    refine ExtW.trans ?_ (ext_decls h _)
    refine ExtW.trans ?_ (ext_prefix h _ _ ?_)
    · exact (start_lines I h banner idents hb hi h2).trans (ext_before h _)
    · rcases h1 with h1 | h1
      · left; simp [TextIn.declFile, h1]
      · exact .inr h1
  obtain ⟨l, c, o, -⟩ := e
  have o := o hl
  rw [List.nil_append] at c
  rw [Nat.zero_add, ← c] at o
  simp only [Wr.initial, ha, Wr.put]
  rw [o, nl_append]
  have : 0 < nl I.codeName [.text (a ++ [10])] := by simp [nl, bytes, Piece.bytes]
  omega

example : TextOk (c87In false false false (some (txt "#line 5 \"g.y\"\n\t{ x = 0; }"))) ∧
    (c87In false false false (some (txt "#line 5 \"g.y\"\n\t{ x = 0; }"))).actions.getLast? = some 10 := ⟨c87_ok _ _ _ _, by decide⟩

/-- With `-i` and without `-r` the last directive is wrong. -/
theorem C87_externs_violated (I : TextIn) (h : TextOk I) (banner idents : List (List Nat)) (hb : ∀ s ∈ banner, Plain s) (hi : ∀ s ∈ idents, Plain s)
    (h1 : I.iflag = true) (h2 : I.rflag = false) (hl : I.lflag = false) (he : I.actions.getLast? = some 10) (ha : I.initialAction = none) :
    ¬ SelfRight I.codeName ((Wr.start I banner idents).output I).code := by
  rw [output_eq]
  refine finish_wrong h hl he _ ?_
  have hn : ∀ w : Wr, w.initial I = w := by intro w; simp [Wr.initial, ha]
  rw [hn]
  obtain ⟨l, c, o, -⟩ := (start_lines I h banner idents hb hi (.inl h2)).trans (ext_before h _)
  have o := o hl
  rw [List.nil_append] at c
  rw [Nat.zero_add, ← c] at o
  have hd : I.declFile = .ext := by simp [TextIn.declFile, h1]
  rw [hd]
  obtain ⟨p1, p2⟩ := prefix_miscount h2 ((Wr.start I banner idents).before I)
  generalize ((Wr.start I banner idents).before I).prefix I .ext = w at *
  obtain ⟨l', c', o', -⟩ := (((ext_decls h w).trans (ext_tables h _)).trans (ext_debug h _)).trans (ext_middle h _)
  rw [o' hl, c', nl_append, p1]
  omega

example : TextOk (c87In false true false none) ∧ (c87In false true false none).actions.getLast? = some 10 := ⟨c87_ok _ _ _ _, by decide⟩

/-- With `-r` and `%ident` the last directive is wrong. -/
theorem C87_ident_violated (I : TextIn) (h : TextOk I) (banner idents : List (List Nat)) (hb : ∀ s ∈ banner, Plain s)
    (h1 : I.rflag = true) (h2 : idents ≠ []) (hl : I.lflag = false) (he : I.actions.getLast? = some 10) (ha : I.initialAction = none) :
    ¬ SelfRight I.codeName ((Wr.start I banner idents).output I).code := by
  rw [output_eq]
  refine finish_wrong h hl he _ ?_
  have hn : ∀ w : Wr, w.initial I = w := by intro w; simp [Wr.initial, ha]
  rw [hn]
  have hi : ∀ (l : List (List Nat)) (w : Wr), (l.foldl (fun w s => w.ident I s) w).code = w.code ∧
      (l.foldl (fun w s => w.ident I s) w).outline = w.outline + l.length := by
    intro l
    induction l with
    | nil => intro w; exact ⟨rfl, rfl⟩
    | cons s l ih =>
      intro w
      obtain ⟨i1, i2⟩ := ih (w.ident I s)
      refine ⟨?_, ?_⟩
      · rw [List.foldl_cons, i1]; simp [Wr.ident, TextIn.out, h1, Wr.put, Wr.bump]
      · rw [List.foldl_cons, i2]; simp [Wr.ident, TextIn.out, h1, Wr.put, Wr.bump]; omega
  obtain ⟨l, c, o, -⟩ := ext_section (I := I) .code banner ⟨[], [], [], [], 0⟩ hb
  obtain ⟨i1, i2⟩ := hi idents (Wr.section .code banner ⟨[], [], [], [], 0⟩)
  have hlen : 0 < idents.length := List.length_pos_of_ne_nil h2
  change (Wr.start I banner idents).code = _ at i1
  change (Wr.start I banner idents).outline = _ at i2
  generalize Wr.start I banner idents = w at *
  obtain ⟨l', c', o', -⟩ := (((((ext_before h w).trans (ext_prefix h I.declFile _ (.inr h1))).trans (ext_decls h _)).trans (ext_tables h _)).trans
    (ext_debug h _)).trans (ext_middle h _)
  rw [o' hl, c', nl_append, i1, i2, o hl, c]
  simp only [List.nil_append]
  omega

example : TextOk (c87In true false false none) ∧ ([txt "id"] : List (List Nat)) ≠ [] ∧ (c87In true false false none).actions.getLast? = some 10 :=
  ⟨c87_ok _ _ _ _, by simp, by decide⟩

/-! Blocks of `%code` -/

theorem blockGo_count (t : List Nat) (curl on n : Nat) (out : List Nat) (h : out.count 10 = n) (b : CodeBlock) (r : List Nat)
    (e : blockGo t curl on n out = some (b, r)) : b.lines.count 10 = b.num := by
  induction t generalizing curl on n out with
  | nil => simp [blockGo] at e
  | cons c t ih =>
    unfold blockGo at e
    split at e
    · next hc => subst hc; exact ih _ _ _ _ (by simp [h]) e
    · next hc =>
      have hx : (out ++ [c]).count 10 = n := by simp [h, List.count_singleton, hc]
      split at e
      · exact ih _ _ _ _ hx e
      · split at e
        · split at e
          · simp only [Option.some.injEq, Prod.mk.injEq] at e
            rw [← e.1]
            split
            · simp [h]
            · exact h
          · exact ih _ _ _ _ hx e
        · exact ih _ _ _ _ hx e

/-- The lines of a `%code` block are counted right: this is what `C87_lines_partial` needs of the blocks. -/
theorem C87_block_counted (lineno : Nat) (name : List Nat) (hn : 10 ∉ name) (old : Option CodeBlock) (ho : ∀ b, old = some b → b.lines.count 10 = b.num)
    (t : List Nat) (b : CodeBlock) (r : List Nat) (e : readBlock false lineno name old t = some (b, r)) : b.lines.count 10 = b.num := by
  unfold readBlock at e
  refine blockGo_count _ _ _ _ _ ?_ b r e
  simp only [List.count_append]
  rw [if_neg (by simp), count_lineText hn]
  cases old with
  | none => rfl
  | some b => simp [ho b rfl]

example : readBlock false 3 (txt "g.y") none (txt " int a;\nint b; }\n%%") =
    some (⟨txt "#line 3 \"g.y\"\nint a;\nint b; \n", 3⟩, txt "\n%%") := by decide +kernel

end Verif.Byacc
