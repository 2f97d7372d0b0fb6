import Verif.Spec.LemonText
import Verif.Props.C49
import Verif.Props.C75
import Verif.Props.C76
/-
Lemmas: lines and directives in the C file made by lemon.
-/
set_option autoImplicit false
namespace Verif.Lemon.LT
open Verif.Spec.LText
open Verif.Spec.GFile (text)

variable {I : LText} {d : Int} {k : Nat} {w : LW}

theorem bytes_append (n : List Nat) (a b : List LPiece) : bytes n (a ++ b) = bytes n a ++ bytes n b := by simp [bytes]

theorem bytes_text (n t : List Nat) : bytes n [.text t] = t := by simp [bytes]

theorem bytes_piece (n : List Nat) (l : List LPiece) : bytes n l = l.flatMap (LPiece.bytes n) := by
  unfold bytes
  congr 1
  funext p
  cases p <;> simp [LPiece.bytes, lineMacro_directive]

/-- the number is right, up to `d`, and so are those of the directives from piece `k` on -/
structure Mid (I : LText) (d : Int) (k : Nat) (w : LW) : Prop where
  off : (w.lineno : Int) = lineAfter (bytes I.outname w.code) + d
  selfs : SelfOff I.outname d w.code (fun a => k ≤ a.length)

/-- also, the text ends with a newline -/
structure Inv (I : LText) (d : Int) (k : Nat) (w : LW) : Prop extends Mid I d k w where
  start : LineStart (bytes I.outname w.code)

theorem selfOff_text {name : List Nat} {l : List LPiece} {P : List LPiece → Prop} (t : List Nat) (h : SelfOff name d l P) : SelfOff name d (l ++ [.text t]) P := by
  intro a n b e
  rcases List.eq_nil_or_concat b with rfl | ⟨b, x, rfl⟩
  · have := congrArg List.getLast? e
    simp at this
  · rw [List.concat_eq_append, ← List.cons_append, ← List.append_assoc] at e
    exact h a n b (List.append_inj' e rfl).1

theorem mid_put (t : List Nat) {n : Nat} (hn : n = t.count 10) (h : Mid I d k w) : Mid I d k ((w.put t).bump n) := by
  refine ⟨?_, selfOff_text t h.selfs⟩
  simp only [LW.put, LW.bump, bytes_append, bytes_text, lineAfter, List.count_append]
  have := h.off
  simp only [lineAfter] at this
  omega

theorem mid_put0 (t : List Nat) (hn : 10 ∉ t) (h : Mid I d k w) : Mid I d k (w.put t) :=
  mid_put (n := 0) t (List.count_eq_zero_of_not_mem hn).symm h

theorem lineStart_snoc (a t : List Nat) : LineStart (a ++ (t ++ [10])) := by
  right; simp [List.getLast?_append]

theorem inv_line (t : List Nat) (hn : 10 ∉ t) (h : Mid I d k w) : Inv I d k (w.line t) := by
  refine ⟨mid_put _ (by simp [List.count_eq_zero_of_not_mem hn]) h, ?_⟩
  simp only [LW.line, LW.put, LW.bump, bytes_append, bytes_text]
  exact lineStart_snoc _ _

/-- text that is empty or ends with a newline -/
theorem inv_put (t : List Nat) {n : Nat} (hn : n = t.count 10) (ht : LineStart t) (h : Inv I d k w) : Inv I d k ((w.put t).bump n) := by
  refine ⟨mid_put _ hn h.toMid, ?_⟩
  simp only [LW.put, LW.bump, bytes_append, bytes_text]
  rcases ht with rfl | ht
  · simpa using h.start
  · right; simp [List.getLast?_append, ht]

theorem inv_putNl (t : List Nat) {n : Nat} (hn : n = t.count 10) (ht : t.getLast? = some 10) (h : Mid I d k w) : Inv I d k ((w.put t).bump n) := by
  refine ⟨mid_put _ hn h, ?_⟩
  simp only [LW.put, LW.bump, bytes_append, bytes_text]
  right; simp [List.getLast?_append, ht]

theorem directive_last (n : Nat) (f : List Nat) : (Verif.Spec.GFile.directive n f).getLast? = some 10 := by
  unfold Verif.Spec.GFile.directive
  rw [show text "\"\n" = [34, 10] by decide, List.getLast?_append]
  rfl

theorem inv_selfDir (ho : 10 ∉ I.outname) (h : Inv I d k w) : Inv I d k (w.selfDir I) := by
  unfold LW.selfDir
  split
  · exact h
  · have hc : (Verif.Spec.GFile.directive (w.lineno + 1) I.outname).count 10 = 1 := directive_count _ _ ho
    have hb : bytes I.outname [.self (w.lineno + 1)] = Verif.Spec.GFile.directive (w.lineno + 1) I.outname := by simp [bytes]
    have hl := h.off
    simp only [lineAfter] at hl
    refine ⟨⟨?_, ?_⟩, ?_⟩
    · simp only [LW.bump, bytes_append, hb, lineAfter, List.count_append, hc]
      omega
    · intro a n b e ha
      simp only [LW.bump] at e
      rcases List.eq_nil_or_concat b with rfl | ⟨b, x, rfl⟩
      · obtain ⟨e1, e2⟩ := List.append_inj' e rfl
        simp at e2
        subst e1 e2
        refine ⟨h.start, ?_⟩
        rw [bytes_append, hb]
        simp only [lineAfter, List.count_append, hc]
        omega
      · rw [List.concat_eq_append, ← List.cons_append, ← List.append_assoc] at e
        exact h.selfs a n b (List.append_inj' e rfl).1 ha
    · simp only [LW.bump, bytes_append, hb]
      right
      simp [List.getLast?_append, directive_last]

theorem mid_oob {b : Bool} (h : Mid I d k w) : Mid I d k { w with oob := b } := ⟨h.off, h.selfs⟩
theorem mid_rest {r : List (List Nat)} (h : Mid I d k w) : Mid I d k { w with rest := r } := ⟨h.off, h.selfs⟩
theorem inv_oob {b : Bool} (h : Inv I d k w) : Inv I d k { w with oob := b } := ⟨mid_oob h.toMid, h.start⟩
theorem inv_rest {r : List (List Nat)} (h : Inv I d k w) : Inv I d k { w with rest := r } := ⟨mid_rest h.toMid, h.start⟩

theorem inv_ite {c : Prop} [Decidable c] {u v : LW} (h1 : c → Inv I d k u) (h2 : ¬ c → Inv I d k v) : Inv I d k (if c then u else v) := by
  split
  · exact h1 ‹_›
  · exact h2 ‹_›

theorem inv_print {prev : Option Nat} (ho : 10 ∉ I.outname) (hp : prev = none ∨ prev = some 10) (str : Option (List Nat)) (h : Inv I d k w) : Inv I d k (w.print I prev str) := by
  unfold LW.print
  cases str with
  | none => exact h
  | some t =>
    dsimp only
    apply inv_selfDir ho
    by_cases ht : t = []
    · subst ht
      have h' : Inv I d k ((w.put []).bump (newlines [])) := inv_put [] rfl (.inl rfl) h
      apply inv_ite
      · intro _; exact inv_oob h'
      · intro _; exact inv_line [] (by simp) (mid_oob h'.toMid)
    · obtain ⟨c, hc⟩ : ∃ c, t.getLast? = some c := by
        cases e : t.getLast? with
        | none => simp at e; exact absurd e ht
        | some c => exact ⟨c, rfl⟩
      have hm := mid_put t (newlines_count t) h.toMid
      apply inv_ite
      · intro e
        rw [hc] at e
        simp at e
        subst e
        exact inv_oob (inv_putNl t (newlines_count t) hc h.toMid)
      · intro _; exact inv_line [] (by simp) (mid_oob hm)

/-! ### the template -/

/-- lines of the template as they are read: each ends with its only newline -/
def LinesOK (ls : List (List Nat)) : Prop := ∀ l ∈ ls, ∃ t, l = t ++ [10] ∧ 10 ∉ t

theorem renameGo_snoc (name : List Nat) (hn : 10 ∉ name) : ∀ (n : Nat) (t : List Nat), t.length ≤ n → ∀ prev, 10 ∉ t → ∃ u, renameGo name prev (t ++ [10]) = u ++ [10] ∧ 10 ∉ u := by
  intro n
  induction n with
  | zero =>
    intro t ht prev _
    have : t = [] := List.eq_nil_of_length_eq_zero (by omega)
    subst this
    exact ⟨[], by simp [renameGo], by simp⟩
  | succ n ih =>
    intro t ht prev hx
    unfold renameGo
    split
    · rename_i prev t' e
      obtain ⟨t'', rfl⟩ : ∃ t'', t = 80 :: 97 :: 114 :: 115 :: 101 :: t'' := by
        rcases t with _ | ⟨a, _ | ⟨b, _ | ⟨c, _ | ⟨d, _ | ⟨e', t⟩⟩⟩⟩⟩ <;> simp_all
      simp only [List.cons_append, List.cons.injEq, true_and] at e
      subst e
      simp only [List.length_cons] at ht
      obtain ⟨u, e, hu⟩ := ih t'' (by omega) (some 101) (by simp at hx; exact hx)
      rw [e]
      split
      · exact ⟨80 :: 97 :: 114 :: 115 :: 101 :: u, by simp, by simp [hu]⟩
      · exact ⟨name ++ u, by simp, by simp [hn, hu]⟩
    · rename_i c t' _ e
      rcases t with _ | ⟨a, t⟩
      · simp at e
        obtain ⟨rfl, rfl⟩ := e
        exact ⟨[], by simp [renameGo], by simp⟩
      · simp only [List.cons_append, List.cons.injEq] at e
        obtain ⟨rfl, rfl⟩ := e
        simp only [List.length_cons] at ht
        simp at hx
        obtain ⟨u, e, hu⟩ := ih t (by omega) (some a) hx.2
        exact ⟨a :: u, by rw [e]; rfl, by simp [hu]; exact hx.1⟩
    · rename_i e
      simp at e

theorem renameLine_ok (name : Option (List Nat)) (hn : ∀ n, name = some n → 10 ∉ n) (t : List Nat) (ht : 10 ∉ t) : ∃ u, renameLine name (t ++ [10]) = u ++ [10] ∧ 10 ∉ u := by
  unfold renameLine
  cases name with
  | none => exact ⟨t, rfl, ht⟩
  | some n => exact renameGo_snoc n (hn n rfl) _ t (Nat.le_refl _) none ht

theorem inv_xferGo (name : Option (List Nat)) (hn : ∀ n, name = some n → 10 ∉ n) (ls : List (List Nat)) (hl : LinesOK ls) : ∀ {w : LW}, Inv I d k w →
    Inv I d k (LW.xferGo name ls w) ∧ LinesOK (LW.xferGo name ls w).rest := by
  induction ls with
  | nil => intro w h; exact ⟨inv_rest h, by intro l hl; simp [LW.xferGo] at hl⟩
  | cons l ls ih =>
    intro w h
    have hl' : LinesOK ls := fun x hx => hl x (by simp [hx])
    unfold LW.xferGo
    split
    · exact ⟨inv_rest h, hl'⟩
    · obtain ⟨t, rfl, ht⟩ := hl l (by simp)
      obtain ⟨u, e, hu⟩ := renameLine_ok name hn t ht
      rw [e]
      exact ih hl' (inv_line u hu h.toMid)

theorem skipGo_spec (ls : List (List Nat)) (hl : LinesOK ls) : ∀ {w : LW}, Inv I d k w → k = 0 → (∀ n, .self n ∉ w.code) →
    Inv I (d + (ls.takeWhile fun l => !isMark l).length) k (LW.skipGo ls w) ∧ LinesOK (LW.skipGo ls w).rest := by
  intro w h hk hs
  have key : ∀ (ls : List (List Nat)) (w : LW), (LW.skipGo ls w).code = w.code ∧ (LW.skipGo ls w).lineno = w.lineno + (ls.takeWhile fun l => !isMark l).length ∧
      (LW.skipGo ls w).rest = (ls.dropWhile fun l => !isMark l).drop 1 := by
    intro ls
    induction ls with
    | nil => intro w; simp [LW.skipGo]
    | cons l ls ih =>
      intro w
      unfold LW.skipGo
      by_cases hm : isMark l
      · simp [hm]
      · obtain ⟨h1, h2, h3⟩ := ih (w.bump 1)
        simp only [hm, Bool.false_eq_true, if_false]
        refine ⟨h1, ?_, ?_⟩
        · rw [h2]; simp [LW.bump, hm]; omega
        · rw [h3]; simp [hm]
  obtain ⟨h1, h2, h3⟩ := key ls w
  refine ⟨⟨⟨?_, ?_⟩, ?_⟩, ?_⟩
  · rw [h1, h2]; have := h.off; push_cast; omega
  · rw [h1]
    intro a n b e
    exact absurd (by rw [e]; simp) (hs n)
  · rw [h1]; exact h.start
  · rw [h3]
    intro l hl'
    exact hl l ((List.dropWhile_sublist _).subset (List.mem_of_mem_drop hl'))

end Verif.Lemon.LT
