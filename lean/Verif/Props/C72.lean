import Verif.Proofs.LemonReadFirst
import Verif.Props.C71
/-
C72: lemon reads grammar files correctly.
-/
set_option autoImplicit false
namespace Verif.Lemon
open Verif.Spec.GFile Verif.Spec.Words

/-- C72, what a file says.  If a text consists of the words of a valid file, lemon reports no error, and its data are those
which the file states: the rules in order with their right sides, aliases, code, precedences and lines; the symbols in the order
of their first mention with their types, precedences, fallbacks, destructors, data types and members; and the
arguments of the declarations. -/
theorem C72_says (o : Opts) (z : List Nat) (ws : List (Nat × Word)) (items : List Item) (hz : HasWords z ws) (hf : IsFile items ws) (hv : Valid o items) :
    ∃ s, parseText (ropts o) o.yacc z = some s ∧ errorcnt s = 0 ∧ s.1.between ∧ Holds o items s.1 := by
  have h1 := (C71_words z ws).mpr hz
  have hfold : ∀ (ws : List (Nat × Word)) (s : RState), (given ws).foldl (parseEvent (ropts o)) (s, 0) = (readTokens (ropts o) s ws, 0) := by
    intro ws
    induction ws with
    | nil => intro s; rfl
    | cons w ws ih => intro s; simp only [given, List.map_cons, List.foldl_cons, parseEvent, readTokens_cons]; exact ih _
  have hr := reads_punct hz (by omega)
  have hinv := items_read o items [] _ (init_inv o) (by simpa using hv) ws (fun w hw => (hr w hw).2) hf
  simp only [List.nil_append] at hinv
  refine ⟨(readTokens (ropts o) (.init o.yacc) ws, 0), ?_, ?_, hinv.bt, hinv.holds⟩
  · rw [parseText, h1, Option.map_some, hfold]
  · simp [errorcnt, hinv.errs]

/-- C72, which files are accepted.  Lemon reports no error and is at the end of a rule or declaration, if and only if the text consists
of the words of a valid file. -/
theorem C72_valid (o : Opts) (z : List Nat) :
    (∃ s, parseText (ropts o) o.yacc z = some s ∧ errorcnt s = 0 ∧ s.1.between) ↔ ∃ ws items, HasWords z ws ∧ IsFile items ws ∧ Valid o items := by
  constructor
  · rintro ⟨s, h, he, hb⟩
    rw [parseText, Option.map_eq_some_iff] at h
    obtain ⟨evs, h1, rfl⟩ := h
    have hcount : ∀ (evs : List ScanEv) (s : RState × Nat), s.2 ≤ (evs.foldl (parseEvent (ropts o)) s).2 := by
      intro evs
      induction evs with
      | nil => intro s; exact le_rfl
      | cons e evs ih =>
        intro s
        refine le_trans ?_ (ih _)
        cases e <;> simp [parseEvent]
    have hgiven : ∀ (evs : List ScanEv) (s : RState), (evs.foldl (parseEvent (ropts o)) (s, 0)).2 = 0 →
        ∃ ws, evs = given ws ∧ evs.foldl (parseEvent (ropts o)) (s, 0) = (readTokens (ropts o) s ws, 0) := by
      intro evs
      induction evs with
      | nil => intro s _; exact ⟨[], rfl, rfl⟩
      | cons e evs ih =>
        intro s h
        rw [List.foldl_cons] at h ⊢
        have hc := hcount evs (parseEvent (ropts o) (s, 0) e)
        rw [h] at hc
        cases e with
        | tok line x =>
          obtain ⟨ws, rfl, h2⟩ := ih (readToken (ropts o) s line x) h
          exact ⟨(line, x) :: ws, rfl, h2⟩
        | noString => simp [parseEvent] at hc
        | noCode l => simp [parseEvent] at hc
    obtain ⟨ws, rfl, h2⟩ := hgiven evs (.init o.yacc) (by unfold errorcnt at he; omega)
    have hz := (C71_words z ws).mp h1
    have hr := reads_punct hz (by omega)
    rw [h2] at he hb
    have hg : GoodRead (ropts o) (.init o.yacc) ws := ⟨by unfold errorcnt at he; exact List.length_eq_zero_iff.mp (by simpa using he), hb⟩
    obtain ⟨items, h3, h4⟩ := items_of_good o _ ws le_rfl [] _ (init_inv o) (by intro pre it post h; simp at h) (fun w hw => (hr w hw).1) (fun w hw => (hr w hw).2) hg
    exact ⟨ws, items, hz, h3, by simpa using h4⟩
  · rintro ⟨ws, items, hz, hf, hv⟩
    obtain ⟨s, h1, h2, h3, _⟩ := C72_says o z ws items hz hf hv
    exact ⟨s, h1, h2, h3⟩

/-- the words can be the words of a text -/
def Words (ws : List (Nat × Word)) : Prop := ∀ w ∈ ws, 0 < w.1 ∧ ∃ v rest, IsWord v w.2 rest

/-- the words begin a valid file -/
def BeginsFile (o : Opts) (ws : List (Nat × Word)) : Prop := ∃ ws' items, Words ws' ∧ IsFile items (ws ++ ws') ∧ Valid o items

/-- C72, the first error.  If lemon reports errors, the first message has the line of the first word that no valid file has in its
place.  But for a precedence mark that is not allowed, the message comes at the word after the bracket. -/
theorem C72_first (o : Opts) (ws : List (Nat × Word)) (hw : Words ws) (he : (readTokens (ropts o) (.init o.yacc) ws).errs ≠ []) :
    ∃ u w v e es, ws = u ++ w :: v ∧ (readTokens (ropts o) (.init o.yacc) ws).errs = (w.1, e) :: es ∧ ¬ BeginsFile o (u ++ [w]) ∧
      (BeginsFile o u ∨ ∃ u' l, u = u' ++ [(l, text "[")]) := by
  obtain ⟨u, w, v, e, es, rfl, h1, h2, h3⟩ := first_error _ ws _ rfl he
  have hp : ∀ ws, Words ws → ∀ w ∈ ws, Punct w.2 := by
    intro ws h w hw
    obtain ⟨_, v, rest, h⟩ := h w hw
    exact Punct.of_isWord h
  have hu : Words u := fun w hw' => hw w (by simp [hw'])
  refine ⟨u, w, v, e, es, rfl, h3, ?_, ?_⟩
  · rintro ⟨ws', items, h4, h5, h6⟩
    have hl : ∀ y ∈ u ++ [w] ++ ws', 0 < y.1 := by
      intro y hy
      rcases List.mem_append.mp hy with hy | hy
      · exact (hw y (by simp at hy ⊢; tauto)).1
      · exact (h4 y hy).1
    have := items_read o items [] _ (init_inv o) (by simpa using h6) _ hl h5
    have h7 := this.errs
    rw [readTokens_append] at h7
    exact h2 (errs_nil_of _ _ _ h7)
  · by_cases hm : (readTokens (ropts o) (.init o.yacc) u).state = .PRECEDENCE_MARK_1
    · exact .inr (mark_state _ u _ (hp u hu) (by simp [RState.init]) hm)
    · left
      obtain ⟨xs, h4, h5⟩ := finish_good (ropts o) _ ((init_reach o.yacc).steps _ u) h1 hm
      have hws' : Words (xs.map fun x => (1, x)) := by
        intro y hy
        simp only [List.mem_map] at hy
        obtain ⟨x, hx, rfl⟩ := hy
        refine ⟨by omega, ?_⟩
        have name : ∀ c b, (letter c ∨ digit c) → (∀ d ∈ b, inName d) → ∃ v rest, IsWord v (c :: b) rest :=
          fun c b h1 h2 => ⟨_, [], .name h1 h2 (by simp)⟩
        have char : ∀ c, c = 46 ∨ c = 41 ∨ c = 93 → ∃ v rest, IsWord v [c] rest := fun c hc =>
          ⟨[c], [], .char (by simp [blank, letter, digit]; omega) (by omega) (by omega) (by omega)⟩
        rcases h4 x hx with rfl | rfl | rfl | rfl | rfl | rfl | rfl | rfl
        · have : text "yacc_prec" = [121, 97, 99, 99, 95, 112, 114, 101, 99] := by decide
          rw [this]
          exact name 121 _ (by simp [letter]) (by simp [inName, letter])
        · exact name 65 [] (by simp [letter]) (by simp)
        · exact char 46 (by simp)
        · exact ⟨_, [], .arrow _⟩
        · exact char 41 (by simp)
        · exact char 93 (by simp)
        · exact name 97 [] (by simp [letter]) (by simp)
        · exact name 97 _ (by simp [letter]) (by
            intro d hd; rw [List.mem_replicate] at hd; rw [hd.2]; simp [inName, letter])
      have hall : Words (u ++ xs.map fun x => (1, x)) := by
        intro y hy
        rcases List.mem_append.mp hy with hy | hy
        · exact hu y hy
        · exact hws' y hy
      have hg : GoodRead (ropts o) (.init o.yacc) (u ++ xs.map fun x => (1, x)) := by
        unfold GoodRead; rw [readTokens_append]; exact h5
      obtain ⟨items, h6, h7⟩ := items_of_good o _ _ le_rfl [] _ (init_inv o) (by intro pre it post h; simp at h) (hp _ hall) (fun y hy => (hall y hy).1) hg
      exact ⟨_, items, hws', h6, by simpa using h7⟩

/-- C72, after an error.  Lemon skips the words up to the next full stop or percent sign, without reporting or recording anything; then it goes on with the next
rule or declaration. -/
theorem C72_recover (o : ROpts) (s : RState) (ws : List (Nat × Word)) (l : Nat) (hs : s.state = .RESYNC_AFTER_RULE_ERROR ∨ s.state = .RESYNC_AFTER_DECL_ERROR)
    (hw : ∀ w ∈ ws, w.2.head? ≠ some 46 ∧ w.2.head? ≠ some 37) :
    readTokens o s (ws ++ [(l, text ".")]) = { s with state := .WAITING_FOR_DECL_OR_RULE } ∧
    readTokens o s (ws ++ [(l, text "%")]) = { s with state := .WAITING_FOR_DECL_KEYWORD } := by
  have hstay : ∀ ws : List (Nat × Word), (∀ w ∈ ws, w.2.head? ≠ some 46 ∧ w.2.head? ≠ some 37) → readTokens o s ws = s := by
    intro ws
    induction ws with
    | nil => intro _; rfl
    | cons w ws ih =>
      intro hw
      rw [readTokens_cons]
      have h := hw w (by simp)
      have h46 : w.2.headD 0 ≠ 46 := by
        intro e; apply h.1; cases h2 : w.2 with
        | nil => rw [h2] at e; simp at e
        | cons a t => rw [h2] at e; simp at e; simp [e]
      have h37 : w.2.headD 0 ≠ 37 := by
        intro e; apply h.2; cases h2 : w.2 with
        | nil => rw [h2] at e; simp at e
        | cons a t => rw [h2] at e; simp at e; simp [e]
      have : readToken o s w.1 w.2 = s := by
        rcases hs with hs | hs <;> simp only [readToken, hs] <;> rw [if_neg h46, if_neg h37]
      rw [this]
      exact ih fun w hw' => hw w (by simp [hw'])
  have e1 : text "." = [46] := by decide
  have e2 : text "%" = [37] := by decide
  rw [readTokens_append, readTokens_append, hstay ws hw, e1, e2]
  rcases hs with hs | hs <;> simp [readTokens, readToken, hs, RState.goto]

/-! ### examples -/

/-- no options; the file `g.y` -/
def c72Opts : Opts := ⟨false, false, false, text "g.y"⟩

def c72Text : List Nat := text "%left PLUS.\n%token_class id A|B.\n%type e {int}\ne(X) ::= e(Y) PLUS id|C(Z). [PLUS] { X = Y; }\ne ::= A/D.\n%fallback A D.\n%include {x}\n"

/-- the data for the example -/
example : ((parseText (ropts c72Opts) false c72Text).map fun s => (errorcnt s, s.1.rules)) = some (0, [
    { lhs := text "e", lhsalias := some (text "X"), rhs := [(.sym (text "e"), some (text "Y")), (.sym (text "PLUS"), none), (.sym (text "id"), some (text "Z"))]
      ruleline := 4, line := 4, code := some (text " X = Y; "), precsym := some (text "PLUS"), precsymDecl := true },
    { lhs := text "e", lhsalias := none, rhs := [(.alts [text "A", text "D"], none)], ruleline := 5 }]) := by decide +kernel

example : ((parseText (ropts c72Opts) false c72Text).map fun s => s.1.syms.map fun y => (y.name, y.type)) = some [
    (text "$", .NONTERMINAL), (text "PLUS", .TERMINAL), (text "id", .MULTITERMINAL), (text "A", .TERMINAL), (text "B", .TERMINAL), (text "e", .NONTERMINAL),
    (text "C", .TERMINAL), (text "D", .TERMINAL)] := by decide +kernel

/-- the text is one of those which `C72_valid` speaks of -/
example : ∃ ws items, HasWords c72Text ws ∧ IsFile items ws ∧ Valid c72Opts items :=
  (C72_valid c72Opts c72Text).mp ⟨((parseText (ropts c72Opts) false c72Text).getD (.init false, 0)), by
    have h : (parseText (ropts c72Opts) false c72Text).isSome = true := by decide +kernel
    rw [show c72Opts.yacc = false from rfl]
    obtain ⟨s, hs⟩ := Option.isSome_iff_exists.mp h
    rw [hs]; rfl, by decide +kernel, .inr (by decide +kernel)⟩

/-- an error in the first rule; the second is read -/
example : ((parseText (ropts c72Opts) false (text "a ::= B ) c. d ::= E.")).map fun s => (errorcnt s, s.1.state, s.1.rules.map RRule.lhs)) =
    some (1, .WAITING_FOR_DECL_OR_RULE, [text "d"]) := by decide +kernel

/-! ### what is wrong -/

/-- C72 is violated: a rule that is not ended at the end of the file is lost, and lemon reports nothing. -/
theorem C72_unended_violated : ∃ s, parseText (ropts c72Opts) false (text "a ::= B. b ::= C") = some s ∧ errorcnt s = 0 ∧ ¬ s.1.between ∧
    s.1.rules = [{ lhs := text "a", lhsalias := none, rhs := [(.sym (text "B"), none)], ruleline := 1 }] := by
  have h : (parseText (ropts c72Opts) false (text "a ::= B. b ::= C")).isSome = true := by decide +kernel
  obtain ⟨s, hs⟩ := Option.isSome_iff_exists.mp h
  have h2 : ((parseText (ropts c72Opts) false (text "a ::= B. b ::= C")).map fun s => (errorcnt s, s.1.state, s.1.rules)) =
      some (0, .IN_RHS, [{ lhs := text "a", lhsalias := none, rhs := [(.sym (text "B"), none)], ruleline := 1 }]) := by decide +kernel
  rw [hs] at h2
  simp only [Option.map_some, Option.some.injEq, Prod.mk.injEq] at h2
  refine ⟨s, hs, h2.1, ?_, h2.2.2⟩
  rintro (h | h) <;> (rw [h2.2.1] at h; simp at h)

/-- C72 is violated: `id|C` in the second rule changes the first rule, since `C` becomes a member of the class `id`. -/
theorem C72_class_violated : ((parseText (ropts c72Opts) false (text "%token_class id A|B. a ::= id. b ::= id|C.")).map fun s =>
    (errorcnt s, s.1.rules.map fun r => r.rhs.map Prod.fst, (s.1.sym (text "id")).subsym)) =
      some (0, [[.sym (text "id")], [.sym (text "id")]], [text "A", text "B", text "C"]) := by decide +kernel

/-- C72 is violated: a token may be declared to be its own fallback. -/
theorem C72_fallback_violated : ((parseText (ropts c72Opts) false (text "%fallback ID ID. a ::= ID.")).map fun s =>
    (errorcnt s, (s.1.sym (text "ID")).fallback)) = some (0, some (text "ID")) := by decide +kernel

/-- C72 is violated: a file with 256 errors, and lemon's exit status tells success. -/
theorem C72_status_violated : ((parseText (ropts c72Opts) false (List.replicate 256 46)).map fun s => (errorcnt s, exitStatus (errorcnt s))) = some (256, 0) := by
  decide +kernel

end Verif.Lemon
