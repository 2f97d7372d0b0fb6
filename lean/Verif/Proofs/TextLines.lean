import Verif.Spec.OutText
import Verif.Proofs.ByaccCode
set_option autoImplicit false
namespace Verif.Byacc
open Rd Spec.OutText Spec.YText

/-! The lines of the code file -/

/-- no newline in the text -/
def Plain (t : List Nat) : Prop := 10 ∉ t

theorem Plain.count {t : List Nat} (h : Plain t) : t.count 10 = 0 := List.count_eq_zero.2 h
theorem plain_append {s t : List Nat} (h1 : Plain s) (h2 : Plain t) : Plain (s ++ t) := by
  unfold Plain at *; simp [h1, h2]

theorem plain_digits (n : Nat) : Plain (decDigits n) := fun h => by
  have := (decDigits_spec n).2.1 _ h
  unfold Digit at this; omega

theorem plain_int (i : Int) : Plain (decInt i) := by
  have := plain_digits i.natAbs
  unfold Plain at *
  unfold decInt
  split <;> simp [this]

theorem plain_padLeft (n : Nat) {t : List Nat} (h : Plain t) : Plain (padLeft n t) := by
  unfold Plain at *
  simp [padLeft, h]

/-- newlines in the pieces -/
def nl (N : List Nat) (l : List Piece) : Nat := (bytes N l).count 10

theorem bytes_append (N : List Nat) (a b : List Piece) : bytes N (a ++ b) = bytes N a ++ bytes N b := by simp [bytes]
theorem nl_append (N : List Nat) (a b : List Piece) : nl N (a ++ b) = nl N a + nl N b := by simp [nl, bytes_append]

theorem count_lineText {N : List Nat} (h : Plain N) (n : Nat) : (lineText n N).count 10 = 1 := by
  have h1 := h.count
  have h2 := (plain_digits n).count
  have e1 : (str "#line ").count 10 = 0 := by decide
  have e2 : (str " \"").count 10 = 0 := by decide
  have e3 : (str "\"\n").count 10 = 1 := by decide
  simp [lineText, h1, h2, e1, e2, e3]

theorem last_lineText (N : List Nat) (n : Nat) : (lineText n N).getLast? = some 10 := by
  have e3 : str "\"\n" = [34, 10] := by decide
  simp [lineText, e3]

/-- `w'` comes from `w` by writing; the lines of the code file are counted, and the directives are right if those before were. -/
def ExtW (I : TextIn) (w w' : Wr) : Prop :=
  ∃ l, w'.code = w.code ++ l ∧ (I.lflag = false → w'.outline = w.outline + nl I.codeName l) ∧
    ∀ a n b, l = a ++ .self n :: b →
      I.lflag = false ∧ LineStart (bytes I.codeName (w.code ++ a)) ∧ n = w.outline + nl I.codeName a + 2

variable {I : TextIn}

theorem ExtW.refl (w : Wr) : ExtW I w w := ⟨[], by simp, by simp [nl, bytes], by simp⟩

theorem ExtW.trans {w1 w2 w3 : Wr} (h1 : ExtW I w1 w2) (h2 : ExtW I w2 w3) : ExtW I w1 w3 := by
  obtain ⟨l1, c1, o1, s1⟩ := h1
  obtain ⟨l2, c2, o2, s2⟩ := h2
  refine ⟨l1 ++ l2, by rw [c2, c1, List.append_assoc], ?_, ?_⟩
  · intro h
    rw [o2 h, o1 h, nl_append, Nat.add_assoc]
  · intro a n b e
    rcases List.append_eq_append_iff.1 e with ⟨x, e1, e2⟩ | ⟨x, e1, e2⟩
    · obtain ⟨h, h1, h2⟩ := s2 x n b e2
      refine ⟨h, ?_, ?_⟩
      · rw [c1, List.append_assoc, ← e1] at h1; exact h1
      · rw [h2, e1, nl_append, o1 h]; omega
    · cases x with
      | nil =>
        obtain ⟨h, h1, h2⟩ := s2 [] n b (by simpa using e2.symm)
        refine ⟨h, ?_, ?_⟩
        · rw [c1, List.append_nil, e1, List.append_nil] at h1; exact h1
        · rw [h2, o1 h, e1]; simp [nl, bytes]
      | cons y x =>
        simp only [List.cons_append, List.cons.injEq] at e2
        obtain ⟨rfl, e2⟩ := e2
        exact s1 a n x e1

theorem ext_bump {k : Nat} {t : List Nat} (w : Wr) (h : I.lflag = false → t.count 10 = k) : ExtW I w ((w.bump k).put .code t) := by
  refine ⟨[.text t], by simp [Wr.put, Wr.bump], fun e => ?_, ?_⟩
  · simp [Wr.put, Wr.bump, nl, bytes, Piece.bytes, h e]
  · intro a n b e
    cases a with
    | nil => simp at e
    | cons x a => simp at e

theorem bump_zero (w : Wr) : w.bump 0 = w := rfl
theorem bump_bump (w : Wr) (a b : Nat) : (w.bump a).bump b = w.bump (a + b) := by simp [Wr.bump, Nat.add_assoc]
theorem put_bump (w : Wr) (f : OFile) (t : List Nat) (k : Nat) : (w.put f t).bump k = (w.bump k).put f t := by
  cases f <;> rfl

/-- text without newlines -/
theorem ext_put {t : List Nat} (f : OFile) (w : Wr) (h : f = .code → Plain t) : ExtW I w (w.put f t) := by
  cases f with
  | code =>
    have := ext_bump (I := I) (k := 0) (t := t) w (fun _ => (h rfl).count)
    rwa [bump_zero] at this
  | _ => exact ⟨[], by simp [Wr.put], by simp [Wr.put, nl, bytes], by simp⟩

theorem ext_bumpIf {t : List Nat} (f : OFile) (w : Wr) (h : f = .code → t.count 10 = 1) : ExtW I w ((w.bumpIf f).put f t) := by
  unfold Wr.bumpIf
  split
  · next e => subst e; exact ext_bump w (fun _ => h rfl)
  · next e => exact ext_put f w (fun x => absurd x e)

theorem ext_putcCode (f : OFile) (c : Nat) (w : Wr) : ExtW I w (w.putcCode f c) := by
  unfold Wr.putcCode
  split
  · next e => subst e; exact ext_bumpIf f w (fun _ => rfl)
  · next e => exact ext_put f w (fun _ => by simp [Plain]; omega)

theorem ext_foldl {α : Type} (g : Wr → α → Wr) (l : List α) (h : ∀ w, ∀ x ∈ l, ExtW I w (g w x)) (w : Wr) : ExtW I w (l.foldl g w) := by
  induction l generalizing w with
  | nil => exact ExtW.refl w
  | cons x l ih => exact (h w x (by simp)).trans (ih (fun w y hy => h w y (by simp [hy])) _)

theorem ext_putcs (f : OFile) (t : List Nat) (w : Wr) : ExtW I w (w.putcs f t) :=
  ext_foldl _ t (fun w c _ => ext_putcCode f c w) w

theorem ext_putlCode (f : OFile) (s : List Nat) (w : Wr) (h : s.count 10 = 1) : ExtW I w (w.putlCode f s) :=
  ext_bumpIf f w (fun _ => h)

theorem ext_lines (f : OFile) (l : List String) (w : Wr) (h : ∀ s ∈ l, (str s).count 10 = 1) : ExtW I w (w.lines f l) :=
  ext_foldl _ l (fun w s hs => ext_putlCode f _ w (h s hs)) w

theorem ext_section (f : OFile) (l : List (List Nat)) (w : Wr) (h : ∀ s ∈ l, Plain s) : ExtW I w (w.section f l) :=
  ext_foldl _ l (fun w s hs => ext_bumpIf f w (fun _ => by simp [(h s hs).count])) w

theorem ext_codeLineno (hN : Plain I.codeName) (f : OFile) (w : Wr) (h : f = .code → LineStart (bytes I.codeName w.code)) :
    ExtW I w (w.codeLineno I f) := by
  unfold Wr.codeLineno
  split
  · next e =>
    simp only [Bool.and_eq_true, Bool.not_eq_true', decide_eq_true_eq] at e
    refine ⟨[.self (w.outline + 2)], by simp [Wr.bump], fun _ => ?_, ?_⟩
    · simp [Wr.bump, nl, bytes, Piece.bytes, count_lineText hN]
    · intro a n b e'
      cases a with
      | nil =>
        simp only [List.nil_append, List.cons.injEq, Piece.self.injEq] at e'
        refine ⟨e.1, by simpa using h e.2, ?_⟩
        rw [← e'.1]; simp [nl, bytes]
      | cons x a => simp at e'
  · exact ExtW.refl w

/-! The starts of lines -/

theorem lineStart_put (w : Wr) {t : List Nat} (h : t.getLast? = some 10) : LineStart (bytes I.codeName (w.put .code t).code) := by
  refine .inr ?_
  simp [Wr.put, bytes_append, bytes, Piece.bytes, List.getLast?_append, h]

theorem code_bump (w : Wr) (k : Nat) : (w.bump k).code = w.code := rfl

theorem lineStart_putc (w : Wr) : LineStart (bytes I.codeName (w.putcCode .code 10).code) := by
  unfold Wr.putcCode; exact lineStart_put _ rfl

theorem lineStart_putcs (w : Wr) (t : List Nat) (h : t.getLast? = some 10) : LineStart (bytes I.codeName (w.putcs .code t).code) := by
  obtain ⟨s, rfl⟩ : ∃ s, t = s ++ [10] := by
    obtain ⟨s, hs⟩ := List.getLast?_eq_some_iff.1 h; exact ⟨s, hs⟩
  rw [Wr.putcs, List.foldl_append]
  exact lineStart_putc _

theorem lineStart_putl (w : Wr) {t : List Nat} (h : t.getLast? = some 10) : LineStart (bytes I.codeName (w.putlCode .code t).code) := by
  unfold Wr.putlCode; exact lineStart_put _ h

theorem lineStart_lineno (w : Wr) (h : LineStart (bytes I.codeName w.code)) : LineStart (bytes I.codeName (w.codeLineno I .code).code) := by
  unfold Wr.codeLineno
  split
  · refine .inr ?_
    simp [bytes_append, bytes, Piece.bytes, List.getLast?_append, last_lineText]
  · exact h

end Verif.Byacc
