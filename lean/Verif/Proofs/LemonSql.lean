import Verif.Lemon.Sql
import Verif.Spec.LemonSql
import Verif.Proofs.LemonSafe
import Verif.Proofs.LemonHFile
/-
Helper lemmas for C117: the statements that insert rows.
-/
set_option autoImplicit false
namespace Verif.Lemon
open Verif.Spec.GFile Verif.Spec.Sql
open Verif.Spec.RuleCode (num)

theorem gap_nil : Gap [] := by simp [Gap]
theorem gap_sp : Gap [32] := by simp [Gap]
theorem gap_if (b : Bool) : Gap (if b = true then [10] else []) := by cases b <;> simp [Gap]
theorem gap_append {p q : List Nat} (hp : Gap p) (hq : Gap q) : Gap (p ++ q) := by
  intro c hc
  rcases List.mem_append.1 hc with h | h
  · exact hp c h
  · exact hq c h

theorem sqlRows_rows (nl : Nat → Bool) (R : List (List Nat)) (t : List Nat) (ht : ∀ p q r, Gap p → Gap q → Rows (r :: R) (p ++ r ++ q ++ t)) :
    ∀ (rs : List (List Nat)) (b : Nat), 0 < b → ∀ p q r, Gap p → Gap q → Rows (r :: (rs ++ R)) (p ++ r ++ q ++ (sqlRows nl b rs ++ t))
  | [], _, _, p, q, r, hp, hq => by simpa [sqlRows] using ht p q r hp hq
  | r' :: rs, b, hb, p, q, r, hp, hq => by
    have ih := sqlRows_rows nl R t ht rs (b + 1) (by omega) [] (if nl b then [10] else []) r' gap_nil (gap_if _)
    have := Rows.more (r := r) hp (gap_append hq gap_sp) ih
    rw [sqlRows, sqlRow, if_pos hb]
    convert this using 1
    all_goals simp [show text "," = [44] by decide]


theorem sqlInsert_rows (head : List Nat) (nl : Nat → Bool) : ∀ (gs : List (List (List Nat))) (b : Nat), 0 < b → ∀ p q r, Gap p → Gap q →
    Rows (r :: gs.flatten) (p ++ r ++ q ++ sqlInsert head nl b gs)
  | [], b, hb, p, q, r, hp, hq => by
    have := Rows.last (r := r) hp (gap_append hq gap_sp)
    rw [sqlInsert, if_pos hb]
    convert this using 1
    all_goals simp [show cstr " ;\n" = [32, 59, 10] by decide, show text ";\n" = [59, 10] by decide]
  | g :: gs, b, hb, p, q, r, hp, hq => by
    rw [sqlInsert, if_neg (by omega), List.nil_append, List.flatten_cons]
    exact sqlRows_rows nl _ _ (sqlInsert_rows head nl gs (b + g.length) (by omega)) g b hb p q r hp hq

theorem sqlInsert_inserts (into : String) (head : List Nat) (hh : head = text "INSERT INTO " ++ text into ++ text " VALUES\n") (nl : Nat → Bool) (gs : List (List (List Nat))) (hg : ∀ g ∈ gs, g ≠ []) :
    Inserts into gs.flatten (sqlInsert head nl 0 gs) := by
  unfold Inserts
  cases gs with
  | nil => simp [sqlInsert]
  | cons g gs =>
    cases g with
    | nil => exact absurd rfl (hg [] (by simp))
    | cons r rs =>
      rw [if_neg (by simp), sqlInsert, if_pos rfl, ← hh, List.append_assoc]
      refine ⟨_, rfl, ?_⟩
      have := sqlRows_rows nl gs.flatten _ (sqlInsert_rows head nl gs (0 + (r :: rs).length) (by simp)) rs 1 (by omega) [32, 32] (if nl 0 then [10] else []) r
        (by simp [Gap]) (gap_if _)
      rw [sqlRows, sqlRow, if_neg (by omega)]
      convert this using 1 <;> simp

theorem flatten_singletons {α : Type} (l : List α) : (l.map fun x => [x]).flatten = l := by
  induction l with
  | nil => rfl
  | cons a l ih => simp [ih]

theorem quoted_eq {x : List Nat} (h : 39 ∉ x) : quoted x = text "'" ++ x ++ text "'" := by
  unfold quoted
  congr 2
  induction x with
  | nil => rfl
  | cons a x ih =>
    simp only [List.mem_cons, not_or] at h
    rw [List.flatMap_cons, if_neg (Ne.symm h.1), ih h.2]
    rfl

variable {o : Opts} {z : List Nat} {ws : List (Nat × Word)} {items : List Verif.Spec.GFile.Item} {s : RState}

theorem name_noQuote (hz : Verif.Spec.Words.HasWords z ws) (hf : IsFile items ws) (hv : Valid o items) {x : Word} (hx : x ∈ names o items) : 39 ∉ x := by
  rcases (mem_names _ _ _).1 hx with rfl | ⟨it, hi, hx⟩
  · decide
  · intro h
    have := mention_chars hz hf hv hi hx 39 h
    unfold Verif.Spec.Words.inName Verif.Spec.Words.letter Verif.Spec.Words.digit at this
    omega

theorem number_index (hv : Valid o items) (hh : Holds o items s) {x : Word} (hx : x ∈ tokens o items ∨ x ∈ nonterminals o items) : s.index x = number o items x := by
  unfold number
  split
  · next h => exact index_token hv hh x h
  · next h => exact index_nonterminal hv hh x (hx.resolve_left h)

theorem nodup_zipIdx {α β : Type} [BEq α] [LawfulBEq α] (f : α → β) (l : List α) (h : l.Nodup) : (l.map f).zipIdx = l.map fun x => (f x, l.idxOf x) := by
  refine List.ext_getElem (by simp) ?_
  intro k h1 h2
  simp at h1 h2
  simp [h.idxOf_getElem]

theorem low_zip (hv : Valid o items) (hh : Holds o items s) :
    (s.symbols.take s.nsymbol).zipIdx = (text "$" :: (tokens o items ++ nonterminals o items)).map fun x => (symOf o items x, s.index x) := by
  have h1 : s.symbols.take s.nsymbol = (text "$" :: (tokens o items ++ nonterminals o items)).map (symOf o items) := by
    rw [symbols_holds hv hh, List.append_assoc, ← List.map_append, nsymbol_eq hv hh]
    rw [List.take_append_of_le_length (by simp; omega), List.take_of_length_le (by simp; omega)]
    rfl
  have hn := nodup_symOrder (o := o) hv
  have e : symOrder o items = (text "$" :: (tokens o items ++ nonterminals o items)) ++ ([defaultName] ++ classes o items) := by
    simp [symOrder]
  rw [e] at hn
  rw [h1, nodup_zipIdx _ _ (List.nodup_append'.1 hn).1]
  refine List.map_congr_left fun x hx => ?_
  rw [index_eq hv hh, e, List.idxOf_append_of_mem hx]

end Verif.Lemon
