import Verif.Spec.LemonLang
import Verif.Props.C73
/-
It can be decided whether a file is valid.  Used in examples only.
-/
set_option autoImplicit false
namespace Verif.Spec.GFile

instance (x : Word) : Decidable (Lower x) :=
  match x with
  | [] => .isFalse (by rintro ⟨c, t, h, _⟩; simp at h)
  | c :: t => if h : 97 ≤ c ∧ c ≤ 122 then .isTrue ⟨c, t, rfl, h⟩ else .isFalse (by rintro ⟨c', t', h', h''⟩; simp at h'; obtain ⟨rfl, rfl⟩ := h'; exact h h'')

instance (x : Word) : Decidable (Letter x) := inferInstanceAs (Decidable (_ ∨ _))

instance (x : Word) : Decidable (∃ c t, x = c :: t ∧ (c = 123 ∨ c = 34 ∨ (48 ≤ c ∧ c ≤ 57))) :=
  match x with
  | [] => .isFalse (by rintro ⟨c, t, h, _⟩; simp at h)
  | c :: t => if h : c = 123 ∨ c = 34 ∨ (48 ≤ c ∧ c ≤ 57) then .isTrue ⟨c, t, rfl, h⟩
      else .isFalse (by rintro ⟨c', t', h', h''⟩; simp at h'; obtain ⟨rfl, rfl⟩ := h'; exact h h'')

instance (x : Word) : Decidable (Argument x) := inferInstanceAs (Decidable (_ ∨ _))

instance (a : Option Word) (P : Word → Prop) [DecidablePred P] : Decidable (∀ x, a = some x → P x) :=
  match a with
  | none => .isTrue (by simp)
  | some y => if h : P y then .isTrue (by simpa using h) else .isFalse (by simpa using h)

instance (a : Option Nat) (P : Nat → Prop) [DecidablePred P] : Decidable (∀ x, a = some x → P x) :=
  match a with
  | none => .isTrue (by simp)
  | some y => if h : P y then .isTrue (by simpa using h) else .isFalse (by simpa using h)

def Post.ok : Post → Prop
  | .alt sep X => (sep = 124 ∨ sep = 47) ∧ Upper X
  | .label a => Letter a

instance (p : Post) : Decidable p.ok :=
  match p with
  | .alt _ _ => inferInstanceAs (Decidable (_ ∧ _))
  | .label a => inferInstanceAs (Decidable (Letter a))

instance : (it : Item) → Decidable it.Form
  | .rule l a rhs _ => 
    if h : Lower l ∧ (∀ x, a = some x → Letter x) ∧ ∀ e ∈ rhs, Letter e.name ∧ ∀ p ∈ e.posts, p.ok then
      .isTrue (by
        refine ⟨h.1, h.2.1, fun e he => ⟨(h.2.2 e he).1, fun p hp => ?_⟩⟩
        have := (h.2.2 e he).2 p hp
        cases p <;> exact this)
    else .isFalse (by
        rintro ⟨h1, h2, h3⟩
        refine h ⟨h1, h2, fun e he => ⟨(h3 e he).1, fun p hp => ?_⟩⟩
        have := (h3 e he).2 p hp
        cases p <;> exact this)
  | .code _ _ => .isTrue trivial
  | .mark X => inferInstanceAs (Decidable (Upper X))
  | .arg _ _ _ => inferInstanceAs (Decidable (_ ∧ _))
  | .prec _ Xs => inferInstanceAs (Decidable (_ ∧ ∀ X ∈ Xs, _))
  | .destructor _ _ _ => inferInstanceAs (Decidable (_ ∧ _))
  | .type _ _ _ => inferInstanceAs (Decidable (_ ∧ _))
  | .fallback Xs => inferInstanceAs (Decidable (∀ X ∈ Xs, Upper X))
  | .token Xs => inferInstanceAs (Decidable (∀ X ∈ Xs, Upper X))
  | .wildcard Xs => inferInstanceAs (Decidable (∀ X ∈ Xs, Upper X))
  | .tokenClass c Xs => inferInstanceAs (Decidable (Lower c ∧ ∀ X ∈ Xs, Upper X.2 ∧ ∀ sep, X.1 = some sep → sep = 124 ∨ sep = 47))
  | .yaccPrec => .isTrue trivial

instance (o : Opts) (pre : List Item) : (it : Item) → Decidable (it.Allowed o pre)
  | .rule _ _ rhs _ => inferInstanceAs (Decidable (rhs.length ≤ 1000 ∧ ∀ e ∈ rhs, e.alts ≠ [] → Upper e.name ∨ isClass pre e.name))
  | .code _ _ => inferInstanceAs (Decidable ((∃ i ∈ pre, i.isRule) ∧ (sinceRule pre).findSome? Item.codeOf = none))
  | .mark _ => inferInstanceAs (Decidable ((∃ i ∈ pre, i.isRule) ∧ (o.ignorePrec = false → (sinceRule pre).findSome? Item.markOf = none)))
  | .prec _ Xs => inferInstanceAs (Decidable (o.ignorePrec = false → Xs.Nodup ∧ ∀ X ∈ Xs, precOf o pre X = none))
  | .type X _ _ => inferInstanceAs (Decidable (typeOf pre X = none))
  | .fallback Xs => inferInstanceAs (Decidable (Xs.tail.Nodup ∧ ∀ X ∈ Xs.tail, fallbackOf pre X = none))
  | .wildcard Xs => inferInstanceAs (Decidable ((wildcards pre).length + Xs.length ≤ 1))
  | .tokenClass c _ => inferInstanceAs (Decidable (c ∉ names o pre))
  | .arg _ _ _ => .isTrue trivial
  | .destructor _ _ _ => .isTrue trivial
  | .token _ => .isTrue trivial
  | .yaccPrec => .isTrue trivial

/-- every item is right after those before it -/
def validCheck (o : Opts) : List Item → List Item → Bool
  | _, [] => true
  | pre, it :: post => decide (it.Form ∧ it.Allowed o pre) && validCheck o (pre ++ [it]) post

theorem valid_of_check (o : Opts) (items : List Item) (h : validCheck o [] items = true) : Valid o items := by
  have : ∀ (l pre : List Item), validCheck o pre l = true → ∀ u it v, l = u ++ it :: v → it.Form ∧ it.Allowed o (pre ++ u) := by
    intro l
    induction l with
    | nil => intro pre _ u it v h; simp at h
    | cons a l ih =>
      intro pre h u it v he
      unfold validCheck at h
      rw [Bool.and_eq_true, decide_eq_true_eq] at h
      cases u with
      | nil =>
        simp only [List.nil_append, List.cons.injEq] at he
        obtain ⟨rfl, rfl⟩ := he
        simpa using h.1
      | cons b u =>
        simp only [List.cons_append, List.cons.injEq] at he
        obtain ⟨rfl, rfl⟩ := he
        have := ih _ h.2 u it v rfl
        simpa using this
  intro pre it post he
  simpa using this items [] h pre it post he

/-- `Sound` checked item by item -/
def soundCheck (o : Opts) (items : List Item) (S : Word) : Bool :=
  decide (startSymbol o items = some S ∧ S ∈ nonterminals o items ∧ isClass items (text "error") = false ∧ items.any Item.isRule) &&
    items.all fun
      | .rule l _ rhs _ => decide (isClass items l = false ∧ ∀ e ∈ rhs, e.name ≠ S)
      | _ => true

theorem sound_of_check (o : Opts) (items : List Item) (S : Word) (h : soundCheck o items S = true) : Sound o items S := by
  unfold soundCheck at h
  rw [Bool.and_eq_true, decide_eq_true_eq, List.all_eq_true] at h
  obtain ⟨⟨h1, h2, h3, h4⟩, h5⟩ := h
  refine ⟨h1, ?_, h2, ?_, ?_, h3⟩
  · rw [List.any_eq_true] at h4
    obtain ⟨it, hm, hi⟩ := h4
    cases it <;> simp [Item.isRule] at hi
    exact ⟨_, _, _, _, hm⟩
  · intro l a rhs line hm
    have := h5 _ hm
    simp only [decide_eq_true_eq] at this
    exact this.2
  · intro l a rhs line hm
    have := h5 _ hm
    simp only [decide_eq_true_eq] at this
    exact this.1

end Verif.Spec.GFile

namespace Verif.Lemon
open Verif.Spec.GFile Verif.Spec.Words

/-- the words of the text -/
def wordsOf (z : List Nat) : List (Nat × List Nat) := ((scan z).getD []).filterMap fun | .tok l x => some (l, x) | _ => none

/-- the words of the text are those of the items -/
def fileCheck (z : List Nat) (items : List Verif.Spec.GFile.Item) : Bool :=
  decide (scan z = some (given (wordsOf z))) && decide ((items.flatMap Item.words).length = (wordsOf z).length ∧
    ∀ p ∈ (items.flatMap Item.words).zip (wordsOf z), p.2.2 = p.1.2 ∧ (p.1.1 = none ∨ p.1.1 = some p.2.1))

theorem file_of_check (z : List Nat) (items : List Verif.Spec.GFile.Item) (h : fileCheck z items = true) : HasWords z (wordsOf z) ∧ IsFile items (wordsOf z) := by
  unfold fileCheck at h
  rw [Bool.and_eq_true, decide_eq_true_eq, decide_eq_true_eq] at h
  exact ⟨(C71_words _ _).mp h.1, isFile_of _ _ h.2⟩

end Verif.Lemon
