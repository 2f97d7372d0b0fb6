import Verif.Spec.ByaccNaked
import Verif.Proofs.NakedLang
/-
C104: the grammar byacc prints without its actions (`byacc -n`) is a grammar file again, for the same grammar.

`readerNaked` is `reader` with what the printing needs besides the arrays; `nakedText` is what is printed.  `NakedOf` (`Verif/Spec/ByaccNaked.lean`)
compares the file that was read with the file that is printed.
-/
set_option autoImplicit false
namespace Verif.Byacc
open Rd Spec.YText

/-- `readerNaked` reads what `reader` reads. -/
theorem C104_reader (lp : Bool) (file text : List Nat) (out : FileOut) : reader lp file text = .ok out ↔ ∃ x, readerNaked lp file text = .ok (out, x) := by
  rw [reader_iff]
  constructor
  · rintro ⟨h0, t, F, h1, h2, h3, h4, acts, tags, h5, rfl⟩
    exact ⟨_, (readerNaked_iff lp file text _ _).2 ⟨h0, t, F, h1, h2, h3, h4, acts, tags, h5, rfl, rfl⟩⟩
  · rintro ⟨x, h⟩
    obtain ⟨h0, t, F, h1, h2, h3, h4, acts, tags, h5, h6, -⟩ := (readerNaked_iff lp file text _ _).1 h
    exact ⟨h0, t, F, h1, h2, h3, h4, acts, tags, h5, h6⟩

/-- the bytes the reader is given are those of the file -/
theorem given_bytes {file text t : List Nat} (h : GivenText file text t) (hb : ∀ c ∈ text, c < 256) : Bytes t := by
  obtain ⟨ls, out, h1, h2, rfl⟩ := h
  have k1 : ∀ l ∈ ls, ∀ c ∈ l, c < 256 := by
    clear h2
    induction h1 with
    | nil => intro l hl; cases hl
    | line l t ls _ _ ih =>
      intro m hm c hc
      rcases List.mem_cons.1 hm with rfl | hm
      · rcases List.mem_append.1 hc with hc | hc
        · exact hb c (by simp [hc])
        · simp at hc; omega
      · exact ih (fun c hc => hb c (by simp [hc])) m hm c hc
    | last l _ _ =>
      intro m hm c hc
      rcases List.mem_singleton.1 hm with rfl
      rcases List.mem_append.1 hc with hc | hc
      · exact hb c hc
      · simp at hc; omega
  clear h1
  intro c hc
  obtain ⟨o, ho, hc'⟩ := List.mem_flatMap.1 hc
  clear hc
  have k2 : o.text ∈ ls := by
    clear k1
    generalize (0 : Int) = z at h2
    induction h2 with
    | nil => cases ho
    | directive n f l ls out k g _ _ ih => exact List.mem_cons_of_mem _ (ih ho)
    | half n f l ls out k _ _ ih =>
      rcases List.mem_cons.1 ho with rfl | ho
      · simp
      · exact List.mem_cons_of_mem _ (ih ho)
    | line n f l ls out _ _ _ ih =>
      rcases List.mem_cons.1 ho with rfl | ho
      · simp
      · exact List.mem_cons_of_mem _ (ih ho)
  exact k1 _ k2 c hc'

/-- what is read, as needed for what follows -/
theorem c104_nk {lp : Bool} {file text : List Nat} {out : FileOut} {x : NakedIn} (h : readerNaked lp file text = .ok (out, x)) (hb : ∀ c ∈ text, c < 256)
    {t : List Nat} {F : File} (ht : GivenText file text t) (hF : FileAt F t) (hd : F.NoDollar) : Nk F t ∧ nakedText out x = nText F := by
  obtain ⟨-, t', F', h1, h2, h3, h4, acts, tags, -, rfl, rfl⟩ := (readerNaked_iff lp file text out x).1 h
  obtain rfl := ((given_iff _ _ _).1 ht).trans ((given_iff _ _ _).1 h1).symm
  obtain rfl := fileAt_unique hF h2
  have hdol : ∀ n ∈ names F.uses, dollar n = true → Hid n := by
    intro n hn hdn
    refine (hid_hidden hF hn).2 fun hc => hd n hn hc ?_
    simpa [dollar] using hdn
  exact ⟨⟨hF, h3, h4, given_bytes ht hb, hdol⟩, nakedText_eq lp hF h3 h4 acts hdol⟩

/-- C104: what `byacc -n` prints for a grammar file is accepted by byacc, as a file with the same start symbol, tokens (in the same order), rules (in the
same order) and precedences, and without actions.  (Names in the file must not start with `$`.) -/
theorem C104_naked (lp : Bool) (file text : List Nat) (out : FileOut) (x : NakedIn) (h : readerNaked lp file text = .ok (out, x))
    (hb : ∀ c ∈ text, c < 256) (t : List Nat) (F : File) (ht : GivenText file text t) (hF : FileAt F t) (hd : F.NoDollar) (lp' : Bool) (file' : List Nat) :
    ∃ F', GivenText file' (nakedText out x) (nakedText out x) ∧ FileAt F' (nakedText out x) ∧ NakedOf F F' ∧
      ∃ out', reader lp' file' (nakedText out x) = .ok out' := by
  obtain ⟨hn, he⟩ := c104_nk h hb ht hF hd
  rw [he]
  obtain ⟨h0, h1, h2⟩ := hn.reads file'
  refine ⟨nakedFile F, h1, h2, ⟨Nk.goal_eq, hn.tokens, ?_, ⟨hn.kind, hn.noPrec, hn.order⟩⟩, ?_⟩
  · rw [hn.alts, List.forall₂_map_right_iff, List.forall₂_same]
    intro a _
    refine ⟨rfl, symsOf_bare a, precNamed_bare a, ?_⟩
    unfold actionsIn
    rw [List.length_eq_zero_iff, List.filter_eq_nil_iff]
    intro e he
    unfold bare at he
    rcases List.mem_append.1 he with he | he
    · obtain ⟨y, -, rfl⟩ := List.mem_map.1 he; simp
    · obtain ⟨y, -, rfl⟩ := List.mem_map.1 he; simp
  · refine ⟨_, (reader_iff lp' file' _ _).2 ⟨h0, _, nakedFile F, h1, h2, hn.ok', ?_, [], tagged (nakedFile F).all, ?_, rfl⟩⟩
    · rw [Nk.goal_eq]; exact (hn.isLhs _).2 hn.goal
    · rw [hn.alts]; exact actsOf_bare _ _ _ _

/-- C104: the file printed has the same sentences. -/
theorem C104_language (lp : Bool) (file text : List Nat) (out : FileOut) (x : NakedIn) (h : readerNaked lp file text = .ok (out, x))
    (hb : ∀ c ∈ text, c < 256) (t : List Nat) (F : File) (ht : GivenText file text t) (hF : FileAt F t) (hd : F.NoDollar) (F' : File)
    (hF' : FileAt F' (nakedText out x)) (w : List (List Nat)) : F'.Sentence w ↔ F.Sentence w := by
  obtain ⟨hn, he⟩ := c104_nk h hb ht hF hd
  rw [he] at hF'
  obtain rfl := fileAt_unique (hn.reads file).2.2 hF'
  exact hn.sentence w

def c104File : List Nat := txt "%token NUM 300\n%left '+' \"\\n-\"\n%right NEG\n%%\ne : e '+' e { $$ = $1 + $3; }\n | { k(); } '-' e %prec NEG\n | NUM\n | ;\n%%\nint x;\n"

/-- an example: codes and actions are left out, an action within a rule ends the list of alternatives -/
example : (readerNaked false (txt "g.y") c104File).toOption.map (fun o => nakedText o.1 o.2) =
    some (txt "%token NUM\n%token '+'\n%token \"\\n-\"\n%token NEG\n%token '-'\n\n%left /*1*/ '+' \"\\n-\"\n%right /*2*/ NEG\n\n%start e\n\n%%\n\ne :\n\t e '+' /*1L*/ e\n\t;\ne :\n\t '-' e %prec NEG /*2R*/\n\t| NUM\n\t| /*empty*/\n\t;\n") := by
  decide +kernel

/-- the rules of a grammar that was read, with the names of their symbols -/
def namedRules (o : FileOut) : List (List Nat × List (List Nat)) :=
  (List.range' 3 (o.gram.nrules - 3)).map fun r => (symbolName o (readRule o.gram r).1, (readRule o.gram r).2.map (symbolName o))

/-- C104, violated: a token whose name starts with `$` is accepted in a grammar file, but left out of what `byacc -n` prints, declaration and uses
alike; the rules read from it are different. -/
theorem C104_dollar_violated : ∃ (text : List Nat) (out out' : FileOut) (x : NakedIn), readerNaked false (txt "g.y") text = .ok (out, x) ∧
    reader false (txt "g.y") (nakedText out x) = .ok out' ∧ namedRules out = [(txt "e", [txt "$x", txt "'a'"])] ∧ namedRules out' = [(txt "e", [txt "'a'"])] := by
  have h : (readerNaked false (txt "g.y") (txt "%token $x\n%%\ne : $x 'a' ;\n")).toOption.bind (fun o =>
      (reader false (txt "g.y") (nakedText o.1 o.2)).toOption.map fun o' => (namedRules o.1, namedRules o')) =
      some ([(txt "e", [txt "$x", txt "'a'"])], [(txt "e", [txt "'a'"])]) := by decide +kernel
  refine ⟨txt "%token $x\n%%\ne : $x 'a' ;\n", ?_⟩
  cases h1 : readerNaked false (txt "g.y") (txt "%token $x\n%%\ne : $x 'a' ;\n") with
  | error e => rw [h1] at h; cases h
  | ok o =>
    obtain ⟨out, x⟩ := o
    rw [h1] at h
    cases h2 : reader false (txt "g.y") (nakedText out x) with
    | error e => 
      simp only [Except.toOption, Option.bind_some] at h
      rw [h2] at h; cases h
    | ok out' =>
      simp only [Except.toOption, Option.bind_some] at h
      rw [h2] at h
      simp only [Option.map_some, Option.some.injEq, Prod.mk.injEq] at h
      exact ⟨out, out', x, rfl, h2, h.1, h.2⟩

end Verif.Byacc
