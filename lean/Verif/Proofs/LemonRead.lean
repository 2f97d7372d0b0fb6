import Verif.Spec.LemonRead
import Mathlib.Data.List.Nodup
/-
Helper lemmas for C72: the reader of grammar files, word by word.
-/
set_option autoImplicit false
namespace Verif.Lemon
open Verif.Spec.GFile

/-! ### errors are kept -/

theorem updRule_errs (s : RState) (f : RRule → RRule) : (s.updRule f).errs = s.errs := by
  unfold RState.updRule; split <;> rfl
theorem symNew_errs (s : RState) (x : Word) : (s.symNew x).errs = s.errs := by
  unfold RState.symNew; split <;> rfl
theorem upd_errs (s : RState) (x : Word) (f : Sym → Sym) : (s.upd x f).errs = s.errs := rfl
theorem goto_errs (s : RState) (t : RSt) : (s.goto t).errs = s.errs := rfl
theorem err_errs (s : RState) (l : Nat) (e : RErr) : (s.err l e).errs = s.errs ++ [(l, e)] := rfl
theorem fail_errs (s : RState) (l : Nat) (e : RErr) (t : RSt) : (s.fail l e t).errs = s.errs ++ [(l, e)] := rfl

theorem readToken_errs (o : ROpts) (s : RState) (l : Nat) (x : Word) : s.errs <+: (readToken o s l x).errs := by
  unfold readToken
  simp only [beginToken, codeToken, markToken, rhsToken, endRule, altToken, rhsAliasToken, keywordToken, destructorToken, datatypeToken, precToken,
    argToken, fallbackToken, tokenToken, wildcardToken, classToken, classMember]
  split
  all_goals repeat' split
  all_goals simp [updRule_errs, symNew_errs, upd_errs, goto_errs, err_errs, fail_errs]

theorem readTokens_cons (o : ROpts) (s : RState) (w : Nat × Word) (ws : List (Nat × Word)) :
    readTokens o s (w :: ws) = readTokens o (readToken o s w.1 w.2) ws := rfl
theorem readTokens_nil (o : ROpts) (s : RState) : readTokens o s [] = s := rfl
theorem readTokens_append (o : ROpts) (s : RState) (a b : List (Nat × Word)) :
    readTokens o s (a ++ b) = readTokens o (readTokens o s a) b := by simp [readTokens]

theorem readTokens_errs (o : ROpts) (ws : List (Nat × Word)) (s : RState) : s.errs <+: (readTokens o s ws).errs := by
  induction ws generalizing s with
  | nil => exact List.prefix_rfl
  | cons w ws ih => exact (readToken_errs o s w.1 w.2).trans (ih _)

theorem errs_nil_of (o : ROpts) (ws : List (Nat × Word)) (s : RState) (h : (readTokens o s ws).errs = []) : s.errs = [] := by
  have := readTokens_errs o ws s
  rw [h] at this
  exact List.prefix_nil.mp this

/-! ### the symbols -/

/-- `x` is put at the end of the list unless it is there already -/
def ins (ns : List Word) (x : Word) : List Word := if x ∈ ns then ns else ns ++ [x]

def adds (ns : List Word) (xs : List Word) : List Word := xs.foldl ins ns

theorem mem_ins (ns : List Word) (x y : Word) : y ∈ ins ns x ↔ y ∈ ns ∨ y = x := by
  unfold ins; split <;> simp; rintro rfl; assumption

theorem mem_adds (xs ns : List Word) (y : Word) : y ∈ adds ns xs ↔ y ∈ ns ∨ y ∈ xs := by
  induction xs generalizing ns with
  | nil => simp [adds]
  | cons x xs ih =>
    have : adds ns (x :: xs) = adds (ins ns x) xs := rfl
    rw [this, ih, mem_ins]; simp [or_assoc]

theorem adds_append (ns xs ys : List Word) : adds ns (xs ++ ys) = adds (adds ns xs) ys := by simp [adds]
theorem adds_cons (ns : List Word) (x : Word) (ys : List Word) : adds ns (x :: ys) = adds (ins ns x) ys := rfl

theorem eraseDups_concat (l : List Word) (x : Word) : (l ++ [x]).eraseDups = ins l.eraseDups x := by
  rw [List.eraseDups_append, ins]
  by_cases h : x ∈ l
  · simp [h, List.removeAll]
  · simp [h, List.removeAll, List.eraseDups_cons]

theorem eraseDups_append_adds (l xs : List Word) : (l ++ xs).eraseDups = adds l.eraseDups xs := by
  induction xs generalizing l with
  | nil => simp [adds]
  | cons x xs ih =>
    have : l ++ x :: xs = (l ++ [x]) ++ xs := by simp
    rw [this, ih, eraseDups_concat, adds_cons]

theorem names_append (o : Opts) (pre : List Item) (it : Item) : names o (pre ++ [it]) = adds (names o pre) (mentions o it) := by
  unfold names
  rw [← eraseDups_append_adds]; simp

/-- the symbols of the table: their names and contents -/
structure Rep (s : RState) (ns : List Word) (f : Word → Sym) : Prop where
  syms : s.syms = ns.map f
  name : ∀ x, (f x).name = x
  new : ∀ x, x ∉ ns → f x = newSym x

theorem Rep.find {s : RState} {ns : List Word} {f : Word → Sym} (h : Rep s ns f) (x : Word) :
    s.find x = if x ∈ ns then some (f x) else none := by
  unfold RState.find
  rw [h.syms, List.find?_map]
  have : ((fun y : Sym => y.name == x) ∘ f) = fun y => y == x := by funext y; simp [h.name]
  rw [this]
  have key : List.find? (fun y => y == x) ns = if x ∈ ns then some x else none := by
    clear this h
    induction ns with
    | nil => simp
    | cons a l ih =>
      rw [List.find?_cons]
      by_cases ha : a = x
      · simp [ha]
      · have : (a == x) = false := by simp [ha]
        rw [this]
        simp only [ih, List.mem_cons]
        by_cases hx : x ∈ l
        · simp [hx]
        · simp [hx, Ne.symm ha]
  rw [key]
  split <;> rfl

theorem Rep.sym {s : RState} {ns : List Word} {f : Word → Sym} (h : Rep s ns f) (x : Word) : s.sym x = f x := by
  unfold RState.sym
  rw [h.find]
  split
  · rfl
  · next hx => rw [h.new x hx]; rfl

theorem Rep.symNew_eq {s : RState} {ns : List Word} {f : Word → Sym} (h : Rep s ns f) (x : Word) :
    s.symNew x = { s with syms := (ins ns x).map f } := by
  unfold RState.symNew
  rw [h.find]
  by_cases hx : x ∈ ns
  · simp only [hx, if_true, Option.isSome_some, ins]
    rw [← h.syms]
  · simp only [hx, if_false, Option.isSome_none, ins]
    simp [h.syms, h.new x hx]

theorem Rep.ins {s : RState} {ns : List Word} {f : Word → Sym} (h : Rep s ns f) (x : Word) (s' : RState) (hs : s'.syms = (ins ns x).map f) :
    Rep s' (Lemon.ins ns x) f :=
  ⟨hs, h.name, fun y hy => h.new y (fun hy' => hy ((mem_ins ns x y).mpr (.inl hy')))⟩

theorem Rep.upd_eq {s : RState} {ns : List Word} {f : Word → Sym} (h : Rep s ns f) (x : Word) (g : Sym → Sym) :
    s.upd x g = { s with syms := ns.map fun y => if y = x then g (f y) else f y } := by
  unfold RState.upd
  congr 1
  rw [h.syms, List.map_map]
  apply List.map_congr_left
  intro y _
  simp [h.name]

theorem Rep.change {s : RState} {ns : List Word} {f : Word → Sym} (h : Rep s ns f) {x : Word} (hx : x ∈ ns) (g : Sym → Sym) (hg : ∀ y, (g y).name = y.name)
    (s' : RState) (hs : s'.syms = ns.map fun y => if y = x then g (f y) else f y) : Rep s' ns (fun y => if y = x then g (f y) else f y) := by
  refine ⟨hs, fun y => ?_, fun y hy => ?_⟩
  · split
    · rw [hg, h.name]
    · exact h.name y
  · have : y ≠ x := by rintro rfl; exact hy hx
    simp [this, h.new y hy]

end Verif.Lemon
