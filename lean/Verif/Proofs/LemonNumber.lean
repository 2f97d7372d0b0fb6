import Verif.Lemon.Number
import Verif.Spec.LemonRead
import Verif.Spec.LemonLang
import Verif.Proofs.LemonReadSpec
import Verif.Proofs.LemonReadLoops
import Verif.Proofs.LemonReadRule
import Verif.Proofs.LemonReadDecls
/-
Helper lemmas for C73: the numbers of the symbols.
-/
set_option autoImplicit false
namespace Verif.Lemon
open Verif.Spec.GFile

instance : Std.Total symLe := ⟨by
  intro a b
  unfold symLe
  omega⟩

instance : IsTrans (Sym × Nat) symLe := ⟨by
  intro a b c
  unfold symLe
  omega⟩

theorem symClass_range (y : Sym) : symClass y = 1 ∨ symClass y = 2 ∨ symClass y = 3 := by
  unfold symClass
  split_ifs <;> simp

theorem perm_filters (l : List (Sym × Nat)) :
    (l.filter (fun p => symClass p.1 == 1) ++ l.filter (fun p => symClass p.1 == 2) ++ l.filter (fun p => symClass p.1 == 3)).Perm l := by
  induction l with
  | nil => simp
  | cons a l ih =>
    rcases symClass_range a.1 with h | h | h
    · simp only [List.filter_cons, h]
      simpa using ih
    · simp only [List.filter_cons, h]
      simp only [beq_self_eq_true, if_true, Nat.reduceBEq, Bool.false_eq_true, if_false]
      refine List.Perm.trans ?_ (ih.cons a)
      simp only [List.append_assoc, List.cons_append]
      exact List.perm_middle
    · simp only [List.filter_cons, h]
      simp only [beq_self_eq_true, if_true, Nat.reduceBEq, Bool.false_eq_true, if_false]
      refine List.Perm.trans ?_ (ih.cons a)
      exact List.perm_middle

theorem pairwise_zipIdx (l : List Sym) (n : Nat) : (l.zipIdx n).Pairwise fun a b => a.2 < b.2 := by
  induction l generalizing n with
  | nil => simp
  | cons a l ih =>
    rw [List.zipIdx_cons, List.pairwise_cons]
    refine ⟨?_, ih _⟩
    intro b hb
    have := List.le_snd_of_mem_zipIdx hb
    simp; omega

/-- any list of the symbols sorted by `Symbolcmpp` -/
theorem sorted_symbols (l : List Sym) (l' : List (Sym × Nat)) (hp : l'.Perm l.zipIdx) (hs : l'.Pairwise symLe) :
    l'.map Prod.fst = l.filter (fun y => symClass y == 1) ++ l.filter (fun y => symClass y == 2) ++ l.filter (fun y => symClass y == 3) := by
  have hpw := pairwise_zipIdx l 0
  have key : l' = l.zipIdx.filter (fun p => symClass p.1 == 1) ++ l.zipIdx.filter (fun p => symClass p.1 == 2) ++ l.zipIdx.filter (fun p => symClass p.1 == 3) := by
    refine List.Perm.eq_of_pairwise (le := symLe) ?_ hs ?_ (hp.trans (perm_filters _).symm)
    · intro a b ha hb h1 h2
      have ha : a ∈ l.zipIdx := hp.mem_iff.mp ha
      have hb : b ∈ l.zipIdx := (perm_filters _).mem_iff.mp hb
      have h3 : a.2 = b.2 := by unfold symLe at h1 h2; omega
      have h4 := List.mem_zipIdx ha
      have h5 := List.mem_zipIdx hb
      ext1
      · rw [h4.2.2, h5.2.2]; simp [h3]
      · exact h3
    · have hsub : ∀ k, (l.zipIdx.filter fun p => symClass p.1 == k).Pairwise symLe := by
        intro k
        have := hpw.filter fun p => symClass p.1 == k
        refine List.Pairwise.imp_of_mem ?_ this
        intro a b ha hb h
        simp only [List.mem_filter, beq_iff_eq] at ha hb
        right
        exact ⟨ha.2.trans hb.2.symm, le_of_lt h⟩
      rw [List.pairwise_append, List.pairwise_append]
      refine ⟨⟨hsub 1, hsub 2, ?_⟩, hsub 3, ?_⟩
      · intro a ha b hb
        simp only [List.mem_filter, beq_iff_eq] at ha hb
        left; omega
      · intro a ha b hb
        simp only [List.mem_append, List.mem_filter, beq_iff_eq] at ha hb
        left; omega
  have hm : ∀ k n, (((l.zipIdx n).filter fun p => symClass p.1 == k).map Prod.fst) = l.filter fun y => symClass y == k := by
    intro k n
    clear key hs hp hpw
    induction l generalizing n with
    | nil => simp
    | cons a l ih =>
      rw [List.zipIdx_cons, List.filter_cons, List.filter_cons]
      simp only
      split <;> simp [ih]
  rw [key]
  simp only [List.map_append, hm]

theorem symbols_eq (s : RState) : s.symbols = s.table.filter (fun y => symClass y == 1) ++ s.table.filter (fun y => symClass y == 2) ++ s.table.filter (fun y => symClass y == 3) :=
  sorted_symbols _ _ (List.perm_insertionSort _ _) (List.pairwise_insertionSort _ _)


/-! ### the names -/

theorem nodup_eraseDups (n : Nat) (l : List Word) (hn : l.length ≤ n) : l.eraseDups.Nodup := by
  induction n generalizing l with
  | zero => have : l = [] := List.length_eq_zero_iff.mp (by omega)
            simp [this]
  | succ n ih =>
    cases l with
    | nil => simp
    | cons a l =>
      rw [List.eraseDups_cons, List.nodup_cons]
      refine ⟨?_, ih _ (le_trans (List.length_filter_le _ _) (by simpa using hn))⟩
      rw [List.mem_eraseDups]
      simp

theorem nodup_names (o : Opts) (items : List Item) : (names o items).Nodup := nodup_eraseDups _ _ le_rfl

theorem names_cons (o : Opts) (items : List Item) : ∃ l, names o items = text "$" :: l := by
  unfold names
  rw [List.eraseDups_cons]
  exact ⟨_, rfl⟩

theorem valid_form {o : Opts} {items : List Item} (hv : Valid o items) : ∀ it ∈ items, it.Form := by
  intro it hit
  obtain ⟨pre, post, rfl⟩ := List.append_of_mem hit
  exact (hv pre it post rfl).1

theorem mentions_letter (o : Opts) (it : Item) (hf : it.Form) (x : Word) (hx : x ∈ mentions o it) : Letter x := by
  cases it <;> simp only [mentions, Item.Form] at hx hf
  case rule l a rhs line =>
    rcases List.mem_cons.mp hx with rfl | hx
    · exact .inr hf.1
    · obtain ⟨e, he, hx⟩ := List.mem_flatMap.mp hx
      have h2 := hf.2.2 e he
      rcases List.mem_cons.mp hx with rfl | hx
      · exact h2.1
      · unfold Elem.alts at hx
        rw [List.mem_filterMap] at hx
        obtain ⟨p, hp, h⟩ := hx
        have h3 := h2.2 p hp
        cases p <;> simp at h
        subst h
        exact .inl h3.2
  case code => simp at hx
  case mark X =>
    split at hx
    · simp at hx
    · simp at hx; subst hx; exact .inl hf
  case arg => simp at hx
  case prec a Xs =>
    split at hx
    · simp at hx
    · exact .inl (hf.2 x hx)
  case destructor => simp at hx; subst hx; exact hf.1
  case type => simp at hx; subst hx; exact hf.1
  case fallback => exact .inl (hf x hx)
  case token => exact .inl (hf x hx)
  case wildcard => exact .inl (hf x hx)
  case tokenClass c Xs =>
    rcases List.mem_cons.mp hx with rfl | hx
    · exact .inr hf.1
    · obtain ⟨X, hX, rfl⟩ := List.mem_map.mp hx
      exact .inl (hf.2 X hX).1
  case yaccPrec => simp at hx

theorem names_letter {o : Opts} {items : List Item} (hv : Valid o items) (x : Word) (hx : x ∈ names o items) : x = text "$" ∨ Letter x := by
  rcases (mem_names o items x).mp hx with h | ⟨it, hit, h⟩
  · exact .inl h
  · exact .inr (mentions_letter o it (valid_form hv it hit) x h)

theorem class_lower {o : Opts} {items : List Item} (hv : Valid o items) (x : Word) (hx : isClass items x = true) : Lower x := by
  unfold isClass at hx
  rw [List.any_eq_true] at hx
  obtain ⟨it, hit, h⟩ := hx
  have hf := valid_form hv it hit
  cases it <;> simp at h
  subst h
  exact hf.1

theorem dollar_not_letter : ¬ Letter (text "$") := by
  have : text "$" = [36] := by decide
  rw [this]
  rintro (⟨c, t, h, h1, h2⟩ | ⟨c, t, h, h1, h2⟩) <;> (simp at h; omega)

theorem default_not_letter : ¬ Letter defaultName := by
  unfold defaultName
  rintro (⟨c, t, h, h1, h2⟩ | ⟨c, t, h, h1, h2⟩) <;> (simp at h; omega)

theorem default_not_mem {o : Opts} {items : List Item} (hv : Valid o items) : defaultName ∉ names o items := by
  intro h
  rcases names_letter hv _ h with h | h
  · exact absurd h (by decide)
  · exact default_not_letter h

theorem class_mem {o : Opts} {items : List Item} (x : Word) (hx : isClass items x = true) : x ∈ names o items := by
  unfold isClass at hx
  rw [List.any_eq_true] at hx
  obtain ⟨it, hit, h⟩ := hx
  rw [mem_names]
  right
  refine ⟨it, hit, ?_⟩
  cases it <;> simp at h
  subst h
  simp [mentions]

/-- the order of the symbols by `index` -/
def symOrder (o : Opts) (items : List Item) : List Word :=
  (text "$" :: tokens o items) ++ nonterminals o items ++ [defaultName] ++ classes o items

theorem table_eq {o : Opts} {items : List Item} {s : RState} (hv : Valid o items) (hh : Holds o items s) :
    s.table = (names o items).map (symOf o items) ++ [newSym defaultName] := by
  have : s.find defaultName = none := by
    unfold RState.find
    rw [hh.syms, List.find?_eq_none]
    intro y hy
    obtain ⟨x, hx, rfl⟩ := List.mem_map.mp hy
    simp only [symOf, beq_iff_eq]
    rintro rfl
    exact default_not_mem hv hx
  unfold RState.table RState.symNew
  rw [this, hh.syms]
  rfl

theorem symClass_symOf {o : Opts} {items : List Item} (hv : Valid o items) (x : Word) (hx : x ∈ names o items) :
    symClass (symOf o items x) = if isClass items x then 3 else if Upper x ∨ x = text "$" then 1 else 2 := by
  unfold symClass symOf
  simp only
  by_cases hc : isClass items x = true
  · simp [hc]
  · simp only [hc, Bool.false_eq_true, if_false]
    have ht : ¬ (if Upper x then SymType.TERMINAL else SymType.NONTERMINAL) = .MULTITERMINAL := by split <;> simp
    rw [if_neg ht]
    rcases names_letter hv x hx with rfl | h | h
    · have : (text "$").headD 0 = 36 := by decide
      rw [this]
      simp
    · obtain ⟨c, t, rfl, h1, h2⟩ := h
      have hu : Upper (c :: t) := ⟨c, t, rfl, h1, h2⟩
      simp [hu]; omega
    · have h1 : ¬ Upper x := fun hu => upper_not_lower hu h
      have h2 : x ≠ text "$" := by rintro rfl; exact dollar_not_letter (.inr h)
      obtain ⟨c, t, rfl, h3, h4⟩ := h
      simp [h1, h2]; omega

theorem filter_order {o : Opts} {items : List Item} (hv : Valid o items) (k : Nat) :
    ((names o items).map (symOf o items)).filter (fun y => symClass y == k) =
      ((names o items).filter fun x => (if isClass items x then 3 else if Upper x ∨ x = text "$" then 1 else 2) == k).map (symOf o items) := by
  rw [List.filter_map]
  congr 1
  apply List.filter_congr
  intro x hx
  simp only [Function.comp_apply]
  rw [symClass_symOf hv x hx]

theorem symbols_holds {o : Opts} {items : List Item} {s : RState} (hv : Valid o items) (hh : Holds o items s) :
    s.symbols = (text "$" :: tokens o items).map (symOf o items) ++ (nonterminals o items).map (symOf o items) ++ [newSym defaultName] ++
      (classes o items).map (symOf o items) := by
  rw [symbols_eq, table_eq hv hh]
  simp only [List.filter_append, filter_order hv]
  have h1 : [newSym defaultName].filter (fun y => symClass y == 1) = [] := by decide
  have h2 : [newSym defaultName].filter (fun y => symClass y == 2) = [newSym defaultName] := by decide
  have h3 : [newSym defaultName].filter (fun y => symClass y == 3) = [] := by decide
  rw [h1, h2, h3, List.append_nil, List.append_nil]
  have e1 : ((names o items).filter fun x => (if isClass items x then 3 else if Upper x ∨ x = text "$" then 1 else 2) == 1) = text "$" :: tokens o items := by
    obtain ⟨l, hl⟩ := names_cons o items
    have hnd := nodup_names o items
    have hd : isClass items (text "$") = false := by
      by_contra h
      exact dollar_not_letter (.inr (class_lower hv _ (by simpa using h)))
    unfold tokens
    rw [hl] at hnd ⊢
    have hnu : ¬ Upper (text "$") := fun h => dollar_not_letter (.inl h)
    rw [List.filter_cons, List.filter_cons]
    simp only [hd, Bool.false_eq_true, if_false, or_true, if_true, beq_self_eq_true, hnu, decide_false]
    congr 1
    apply List.filter_congr
    intro x hx
    have hx' : x ≠ text "$" := by rintro rfl; exact (List.nodup_cons.mp hnd).1 hx
    by_cases hc : isClass items x = true
    · have : ¬ Upper x := fun h => upper_not_lower h (class_lower hv x hc)
      simp [hc, this]
    · by_cases hu : Upper x <;> simp [hc, hu, hx']
  have e2 : ((names o items).filter fun x => (if isClass items x then 3 else if Upper x ∨ x = text "$" then 1 else 2) == 2) = nonterminals o items := by
    unfold nonterminals
    apply List.filter_congr
    intro x hx
    by_cases hc : isClass items x = true
    · simp [hc]
    · simp only [hc, Bool.false_eq_true, if_false]
      by_cases hu : Upper x
      · simp [hu]
      · by_cases hd : x = text "$"
        · simp only [hd, or_true, if_true]; simp
        · simp [hu, hd]
  have e3 : ((names o items).filter fun x => (if isClass items x then 3 else if Upper x ∨ x = text "$" then 1 else 2) == 3) = classes o items := by
    unfold classes
    apply List.filter_congr
    intro x hx
    by_cases hc : isClass items x = true
    · simp [hc]
    · simp only [hc, Bool.false_eq_true, if_false]
      by_cases hu : Upper x
      · simp [hu]
      · by_cases hd : x = text "$"
        · simp only [hd, or_true, if_true]; simp
        · simp [hu, hd]
  rw [e1, e2, e3]
  simp

end Verif.Lemon
