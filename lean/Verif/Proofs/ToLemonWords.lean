import Verif.Byacc.ToLemon
import Verif.Proofs.NakedParse
import Verif.Spec.LemonFile
import Verif.Spec.LemonScan
/-
Auxiliary facts: how lemon reads what is written piece by piece.
-/
set_option autoImplicit false
namespace Verif.Byacc.ToLemon
open Verif.Spec.Words

/-! Texts -/

/-- the text is read as the given words, whatever follows -/
def Wc (z : List Nat) (xs : List (List Nat)) : Prop := ∀ line rest ws, Reads (line + z.count 10) rest ws [] →
  ∃ ws0, ws0.map Prod.snd = xs ∧ Reads line (z ++ rest) (ws0 ++ ws) []

def NB (rest : List Nat) : Prop := ∀ d, rest.head? = some d → ¬ inName d

/-- the text is read as the given words, if no name is continued -/
def Wd (z : List Nat) (xs : List (List Nat)) : Prop := ∀ line rest ws, NB rest → Reads (line + z.count 10) rest ws [] →
  ∃ ws0, ws0.map Prod.snd = xs ∧ Reads line (z ++ rest) (ws0 ++ ws) []

theorem Wc.wd {z xs} (h : Wc z xs) : Wd z xs := fun line rest ws _ hr => h line rest ws hr

theorem wc_nil : Wc [] [] := fun _ _ _ hr => ⟨[], rfl, hr⟩

theorem Wc.append {z z' xs ys} (h : Wc z xs) (h' : Wc z' ys) : Wc (z ++ z') (xs ++ ys) := by
  intro line rest ws hr
  rw [List.count_append, ← Nat.add_assoc] at hr
  obtain ⟨w1, e1, r1⟩ := h' _ _ _ hr
  obtain ⟨w0, e0, r0⟩ := h _ _ _ r1
  exact ⟨w0 ++ w1, by rw [List.map_append, e0, e1], by simpa using r0⟩

theorem Wc.appendD {z z' xs ys} (h : Wc z xs) (h' : Wd z' ys) : Wd (z ++ z') (xs ++ ys) := by
  intro line rest ws hn hr
  rw [List.count_append, ← Nat.add_assoc] at hr
  obtain ⟨w1, e1, r1⟩ := h' _ _ _ hn hr
  obtain ⟨w0, e0, r0⟩ := h _ _ _ r1
  exact ⟨w0 ++ w1, by rw [List.map_append, e0, e1], by simpa using r0⟩

theorem nb_append {z rest : List Nat} (h : NB z) (hr : NB rest) : NB (z ++ rest) := by
  cases z with
  | nil => exact hr
  | cons c z => intro d hd; exact h d (by simpa using hd)

theorem nb_append' {z : List Nat} (h : NB z) (hz : z ≠ []) (rest : List Nat) : NB (z ++ rest) := by
  cases z with
  | nil => exact absurd rfl hz
  | cons c z => intro d hd; exact h d (by simpa using hd)

theorem Wd.append {z z' xs ys} (h : Wd z xs) (hn : NB z') (hz : z' ≠ []) (h' : Wc z' ys) : Wc (z ++ z') (xs ++ ys) := by
  intro line rest ws hr
  rw [List.count_append, ← Nat.add_assoc] at hr
  obtain ⟨w1, e1, r1⟩ := h' _ _ _ hr
  obtain ⟨w0, e0, r0⟩ := h _ _ _ (nb_append' hn hz rest) r1
  exact ⟨w0 ++ w1, by rw [List.map_append, e0, e1], by simpa using r0⟩

theorem Wd.appendD {z z' xs ys} (h : Wd z xs) (hn : NB z') (h' : Wd z' ys) : Wd (z ++ z') (xs ++ ys) := by
  intro line rest ws hnr hr
  rw [List.count_append, ← Nat.add_assoc] at hr
  obtain ⟨w1, e1, r1⟩ := h' _ _ _ hnr hr
  obtain ⟨w0, e0, r0⟩ := h _ _ _ (nb_append hn hnr) r1
  exact ⟨w0 ++ w1, by rw [List.map_append, e0, e1], by simpa using r0⟩

theorem wc_blank {c : Nat} (h : blank c) : Wc [c] [] := fun _ rest _ hr => ⟨[], rfl, .skip (.blank h rest) hr⟩

theorem wc_char {c : Nat} (hc : ¬ blank c ∧ ¬ letter c ∧ ¬ digit c ∧ c ≠ 34 ∧ c ≠ 123) (h : c ≠ 58 ∧ c ≠ 47 ∧ c ≠ 124) : Wc [c] [[c]] :=
  fun line rest _ hr => ⟨[(line, [c])], rfl, .word (.char hc (fun e => absurd e h.1) (fun e => by rcases e with e | e; exacts [absurd e h.2.1, absurd e h.2.2]) (fun e => absurd e h.2.1)) hr⟩

theorem wc_arrow : Wc [58, 58, 61] [[58, 58, 61]] := fun line rest _ hr => ⟨[(line, _)], rfl, .word (.arrow rest) hr⟩

theorem wc_comment {b : List Nat} (h : 42 ∉ b) : Wc (47 :: 42 :: (b ++ [42, 47])) [] := by
  intro line rest ws hr
  refine ⟨[], rfl, .skip (.comment ⟨b, rfl, ?_⟩ rest) hr⟩
  rintro ⟨s, t, e⟩
  rcases List.eq_nil_or_concat t with rfl | ⟨t', x, rfl⟩
  · have := congrArg List.getLast? e
    rw [List.append_nil, List.getLast?_append] at this
    simp at this
  · rw [List.concat_eq_append, ← List.append_assoc] at e
    obtain ⟨e, -⟩ := List.append_inj' e rfl
    exact h (by rw [← e]; simp)

theorem wd_name {x : List Nat} (hx : Verif.Spec.GFile.Letter x) (h : ∀ c ∈ x, inName c) : Wd x [x] := by
  have : ∃ c t, x = c :: t ∧ letter c := by
    rcases hx with ⟨c, t, rfl, h1, h2⟩ | ⟨c, t, rfl, h1, h2⟩
    · exact ⟨c, t, rfl, .inl ⟨h1, h2⟩⟩
    · exact ⟨c, t, rfl, .inr ⟨h1, h2⟩⟩
  obtain ⟨c, t, rfl, hl⟩ := this
  exact fun line rest ws hn hr => ⟨[(line, c :: t)], rfl, .word (.name (.inl hl) (fun d hd => h d (by simp [hd])) hn) hr⟩

/-! Pieces -/

theorem written_append (a b : List (Option (List Nat))) : written (a ++ b) = (written a).bind fun x => (written b).map fun y => x ++ y := by
  induction a with
  | nil => rw [List.nil_append, written, Option.bind_some]; cases written b <;> rfl
  | cons p ps ih =>
    rw [List.cons_append, written, written, ih]
    cases p with
    | none => rfl
    | some p =>
      cases written ps with
      | none => rfl
      | some x => cases written b <;> simp

/-- the pieces are written and read as the given words, whatever follows -/
def PC (ps : List (Option (List Nat))) (xs : List (List Nat)) : Prop := ∃ z, written ps = some z ∧ Wc z xs

def PO (ps : List (Option (List Nat))) (xs : List (List Nat)) : Prop := ∃ z, written ps = some z ∧ Wd z xs

/-- the pieces do not start with a part of a name -/
def Starts (ps : List (Option (List Nat))) : Prop := ∃ c t r, ps = some (c :: t) :: r ∧ ¬ inName c

theorem PC.po {ps xs} (h : PC ps xs) : PO ps xs := by
  obtain ⟨z, h1, h2⟩ := h
  exact ⟨z, h1, h2.wd⟩

theorem pc_nil : PC [] [] := ⟨[], rfl, wc_nil⟩

theorem Starts.written {ps : List (Option (List Nat))} (h : Starts ps) {z : List Nat} (hw : written ps = some z) : NB z ∧ z ≠ [] := by
  obtain ⟨c, t, r, rfl, hc⟩ := h
  rw [Byacc.written, Option.bind_some, Option.map_eq_some_iff] at hw
  obtain ⟨y, -, rfl⟩ := hw
  refine ⟨fun d hd => ?_, by simp⟩
  simp at hd
  subst hd
  exact hc

theorem PC.append {a b xs ys} (h : PC a xs) (h' : PC b ys) : PC (a ++ b) (xs ++ ys) := by
  obtain ⟨z, h1, h2⟩ := h
  obtain ⟨y, h3, h4⟩ := h'
  exact ⟨z ++ y, by rw [written_append, h1, h3]; rfl, h2.append h4⟩

theorem PC.appendO {a b xs ys} (h : PC a xs) (h' : PO b ys) : PO (a ++ b) (xs ++ ys) := by
  obtain ⟨z, h1, h2⟩ := h
  obtain ⟨y, h3, h4⟩ := h'
  exact ⟨z ++ y, by rw [written_append, h1, h3]; rfl, h2.appendD h4⟩

theorem PO.append {a b xs ys} (h : PO a xs) (hs : Starts b) (h' : PC b ys) : PC (a ++ b) (xs ++ ys) := by
  obtain ⟨z, h1, h2⟩ := h
  obtain ⟨y, h3, h4⟩ := h'
  obtain ⟨k1, k2⟩ := hs.written h3
  exact ⟨z ++ y, by rw [written_append, h1, h3]; rfl, h2.append k1 k2 h4⟩

theorem PO.appendO {a b xs ys} (h : PO a xs) (hs : b = [] ∨ Starts b) (h' : PO b ys) : PO (a ++ b) (xs ++ ys) := by
  obtain ⟨z, h1, h2⟩ := h
  obtain ⟨y, h3, h4⟩ := h'
  refine ⟨z ++ y, by rw [written_append, h1, h3]; rfl, h2.appendD ?_ h4⟩
  rcases hs with rfl | hs
  · cases h3
    intro d hd; cases hd
  · exact (hs.written h3).1

theorem pc_one {z : List Nat} {xs : List (List Nat)} (h : Wc z xs) : PC [some z] xs := ⟨z, by simp [written], h⟩

theorem po_name {p : Option (List Nat)} {x : List Nat} (hp : p = some x) (hx : Verif.Spec.GFile.Letter x) (h : ∀ c ∈ x, inName c) : PO [p] [x] :=
  ⟨x, by simp [hp, written], wd_name hx h⟩

theorem starts_blank (t : List Nat) (r : List (Option (List Nat))) : Starts (some (32 :: t) :: r) := ⟨32, t, r, rfl, by simp [inName, letter, digit]⟩

theorem pc_blank : PC [some [32]] [] := pc_one (wc_blank (.inl rfl))
theorem pc_newline : PC [some [10]] [] := pc_one (wc_blank (.inr ⟨by omega, by omega⟩))

theorem wc_nl : Wc [10] [] := wc_blank (.inr ⟨by omega, by omega⟩)
theorem wc_sp : Wc [32] [] := wc_blank (.inl rfl)

theorem wc_dot : Wc [46] [[46]] := wc_char (by simp [blank, letter, digit]) (by simp)
theorem wc_perc : Wc [37] [[37]] := wc_char (by simp [blank, letter, digit]) (by simp)
theorem wc_open : Wc [91] [[91]] := wc_char (by simp [blank, letter, digit]) (by simp)
theorem wc_close : Wc [93] [[93]] := wc_char (by simp [blank, letter, digit]) (by simp)

theorem pc_dot : PC [some (str " .\n")] [[46]] := by
  have := (wc_sp.append wc_dot).append wc_nl
  exact pc_one this

theorem pc_arrow : PC [some (str " ::=")] [[58, 58, 61]] := pc_one (wc_sp.append wc_arrow)

theorem pc_open : PC [some (str " . [")] [[46], [91]] := pc_one (((wc_sp.append wc_dot).append wc_sp).append wc_open)

theorem pc_close : PC [some (str "]")] [[93]] := pc_one wc_close

theorem lower_text (s : List Nat) (h : s.all (fun c => decide (97 ≤ c ∧ c ≤ 122 ∨ c = 95)) = true) (h0 : ∃ c t, s = c :: t ∧ 97 ≤ c ∧ c ≤ 122) : Wd s [s] := by
  refine wd_name (.inr h0) fun c hc => ?_
  have := List.all_eq_true.1 h c hc
  simp only [decide_eq_true_eq] at this
  rcases this with h | h
  · exact .inl (.inr h)
  · exact .inr (.inr h)

theorem nb_sp : NB [32] := by intro d hd; simp at hd; subst hd; simp [inName, letter, digit]

theorem pc_token : PC [some (str "%token ")] [[37], str "token"] := by
  have := wc_perc.append ((lower_text (str "token") (by decide) ⟨116, str "oken", rfl, by omega, by omega⟩).append nb_sp (by simp) wc_sp)
  exact pc_one this

theorem pc_start : PC [some (str "\n%start_symbol ")] [[37], str "start_symbol"] := by
  have := wc_nl.append (wc_perc.append ((lower_text (str "start_symbol") (by decide) ⟨115, str "tart_symbol", rfl, by omega, by omega⟩).append nb_sp (by simp) wc_sp))
  exact pc_one this

theorem decInt_noStar (k : Int) : 42 ∉ Rd.decInt k := by
  have h0 : 42 ∉ decDigits k.natAbs := by
    intro hc
    have := Rd.decDigits_digit _ _ hc
    unfold Spec.YText.Digit at this; omega
  unfold Rd.decInt
  split
  · rw [List.mem_cons, not_or]
    exact ⟨by omega, h0⟩
  · exact h0

theorem pc_comment (prec : Int) (a : Assoc) : PC [some (precComment prec a)] [] := by
  have h : 42 ∉ Rd.decInt prec ++ [assocChr a] := by
    rw [List.mem_append, not_or]
    exact ⟨decInt_noStar _, by cases a <;> simp [assocChr]⟩
  have := wc_sp.append (wc_comment h)
  refine pc_one ?_
  have e : precComment prec a = [32] ++ 47 :: 42 :: ((Rd.decInt prec ++ [assocChr a]) ++ [42, 47]) := by
    unfold precComment
    simp [str]
  rw [e]; exact this

theorem pc_empty : PC [some (str " /*empty*/")] [] := by
  have := wc_sp.append (wc_comment (b := str "empty") (by decide))
  exact pc_one this

/-- the start of a declaration of precedence -/
theorem pc_prec {a : Assoc} {x : List Nat} (h : precName a = some x) (k : Int) : PC [some (37 :: x ++ str " /*" ++ Rd.decInt k ++ str "*/")] [[37], x] := by
  have hx : Wd x [x] := by
    cases a <;> simp only [precName, Option.some.injEq, reduceCtorEq] at h <;> subst h
    · exact lower_text _ (by decide) ⟨108, str "eft", rfl, by omega, by omega⟩
    · exact lower_text _ (by decide) ⟨114, str "ight", rfl, by omega, by omega⟩
    · exact lower_text _ (by decide) ⟨110, str "onassoc", rfl, by omega, by omega⟩
    · exact lower_text _ (by decide) ⟨112, str "recedence", rfl, by omega, by omega⟩
  have h2 : Wc ([32] ++ 47 :: 42 :: (Rd.decInt k ++ [42, 47])) ([] ++ []) := wc_sp.append (wc_comment (decInt_noStar k))
  have := wc_perc.append (hx.append (z' := [32] ++ 47 :: 42 :: (Rd.decInt k ++ [42, 47])) (fun d hd => nb_sp d (by simpa using hd)) (by simp) h2)
  refine pc_one ?_
  have e : 37 :: x ++ str " /*" ++ Rd.decInt k ++ str "*/" = [37] ++ (x ++ ([32] ++ 47 :: 42 :: (Rd.decInt k ++ [42, 47]))) := by simp [str]
  rw [e]; exact this

end Verif.Byacc.ToLemon
