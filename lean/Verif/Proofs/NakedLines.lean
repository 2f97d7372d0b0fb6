import Verif.Proofs.NakedFile
/-
Auxiliary facts: the lines of the grammar without its actions.
-/
set_option autoImplicit false
namespace Verif.Byacc.Rd
open Spec Spec.YText
open Classical

/-- neither newline nor NUL -/
def Clean (l : List Nat) : Prop := ∀ c ∈ l, c ≠ 10 ∧ c ≠ 0

theorem Clean.append {l r : List Nat} (h : Clean l) (h' : Clean r) : Clean (l ++ r) := by
  intro c hc
  rcases List.mem_append.1 hc with hc | hc
  · exact h c hc
  · exact h' c hc

theorem Clean.cons {c : Nat} {r : List Nat} (h : c ≠ 10 ∧ c ≠ 0) (h' : Clean r) : Clean (c :: r) := by
  intro d hd
  rcases List.mem_cons.1 hd with rfl | hd
  · exact h
  · exact h' d hd

theorem Clean.nil : Clean [] := fun _ h => by cases h

theorem Clean.flatMap {α : Type} {l : List α} {f : α → List Nat} (h : ∀ x ∈ l, Clean (f x)) : Clean (l.flatMap f) := by
  intro c hc
  obtain ⟨x, hx, hc⟩ := List.mem_flatMap.1 hc
  exact h x hx c hc

/-- white space and then not `#` -/
def NoHash (l : List Nat) : Prop := (l.dropWhile fun c => decide (Space c)).head? ≠ some 35

theorem noHash_first {c : Nat} (r : List Nat) (h : ¬ Space c ∧ c ≠ 35) : NoHash (c :: r) := by
  unfold NoHash
  rw [List.dropWhile_cons_of_neg (by simpa using h.1)]
  simpa using h.2

theorem noHash_space {c : Nat} {r : List Nat} (h : Space c) (hr : NoHash r) : NoHash (c :: r) := by
  unfold NoHash
  rw [List.dropWhile_cons_of_pos (by simpa using h)]
  exact hr

theorem noHash_nil : NoHash [] := by simp [NoHash]

/-- lines -/
def Lined (t : List Nat) : Prop := ∃ ls : List (List Nat), (∀ l ∈ ls, Clean l ∧ NoHash l) ∧ t = ls.flatMap fun l => l ++ [10]

theorem Lined.nil : Lined [] := ⟨[], by simp, rfl⟩
theorem Lined.append {t u : List Nat} (h : Lined t) (h' : Lined u) : Lined (t ++ u) := by
  obtain ⟨ls, h1, rfl⟩ := h
  obtain ⟨ms, h2, rfl⟩ := h'
  refine ⟨ls ++ ms, ?_, by rw [List.flatMap_append]⟩
  intro l hl
  rcases List.mem_append.1 hl with hl | hl
  · exact h1 l hl
  · exact h2 l hl
theorem Lined.line {l : List Nat} (h : Clean l) (h' : NoHash l) : Lined (l ++ [10]) := ⟨[l], by simpa using ⟨h, h'⟩, by simp⟩
theorem Lined.flatMap {α : Type} {l : List α} {f : α → List Nat} (h : ∀ x ∈ l, Lined (f x)) : Lined (l.flatMap f) := by
  induction l with
  | nil => exact .nil
  | cons x l ih => exact (h x (by simp)).append (ih fun y hy => h y (by simp [hy]))

theorem noHash_not {l : List Nat} (h : NoHash l) : (∀ k g, ¬ LineDirective (l ++ [10]) k g) ∧ ∀ k, ¬ HalfDirective (l ++ [10]) k := by
  have key : ∀ a r, l ++ [10] = a ++ 35 :: r → (∀ x ∈ a, Space x) → False := by
    intro a r e ha
    have h1 : ((l ++ [10]).dropWhile fun c => decide (Space c)).head? = some 35 := by
      rw [e, List.dropWhile_append_of_pos (by simpa using ha), List.dropWhile_cons_of_neg (by simp [Space])]
      rfl
    unfold NoHash at h
    rw [List.dropWhile_append] at h1
    split at h1
    · rw [List.dropWhile_cons_of_pos (by simp [Space])] at h1
      cases h1
    · rename_i h2
      rw [List.head?_append] at h1
      cases h3 : l.dropWhile fun c => decide (Space c) with
      | nil => rw [h3] at h2; simp at h2
      | cons c m => rw [h3] at h h1; exact h (by simpa using h1)
  refine ⟨?_, ?_⟩
  · rintro k g ⟨a, b, c, ds, d, rest, e, ha, -⟩
    exact key _ _ e ha
  · rintro k ⟨a, b, c, ds, d, rest, e, ha, -⟩
    exact key _ _ e ha

theorem lined_given {t : List Nat} (h : Lined t) (file : List Nat) : 0 ∉ t ∧ GivenText file t t := by
  obtain ⟨ls, h, rfl⟩ := h
  refine ⟨?_, ls.map (· ++ [10]), ?_⟩
  · intro h0
    obtain ⟨l, hl, h0⟩ := List.mem_flatMap.1 h0
    rcases List.mem_append.1 h0 with h0 | h0
    · exact ((h l hl).1 0 h0).2 rfl
    · simp at h0
  · have : ∀ n : Int, ∃ out, Splits (ls.flatMap fun l => l ++ [10]) (ls.map (· ++ [10])) ∧ ReadLines n file (ls.map (· ++ [10])) out ∧
        (ls.flatMap fun l => l ++ [10]) = out.flatMap NLine.text := by
      induction ls with
      | nil => intro n; exact ⟨[], .nil, .nil n file, rfl⟩
      | cons l ls ih =>
        intro n
        obtain ⟨out, h1, h2, h3⟩ := ih (fun m hm => h m (by simp [hm])) (n + 1)
        obtain ⟨hc, hh⟩ := h l (by simp)
        refine ⟨⟨l ++ [10], n + 1, file⟩ :: out, ?_, ?_, ?_⟩
        · rw [List.flatMap_cons, List.map_cons, List.append_assoc]
          exact .line l _ _ (fun h => (hc 10 h).1 rfl) h1
        · exact .line n file _ _ _ (noHash_not hh).1 (noHash_not hh).2 h2
        · rw [List.flatMap_cons, List.flatMap_cons, ← h3]
    exact this 0

/-! Pieces -/

theorem litChar_clean (q c : Nat) (hq : q = 39 ∨ q = 34) : Clean (litChar q c) := by
  unfold litChar
  intro d hd
  split at hd
  · rename_i h
    have h : c = 92 ∨ c = q := by simpa using h
    simp only [List.mem_cons, List.not_mem_nil, or_false] at hd
    omega
  · split at hd
    · rename_i h2
      have h2 : 32 ≤ c ∧ c < 127 := by simpa [isPrint] using h2
      simp only [List.mem_cons, List.not_mem_nil, or_false] at hd
      omega
    · repeat' split at hd
      all_goals
        simp only [List.mem_cons, List.not_mem_nil, or_false] at hd
        omega

theorem key_clean {x : Sym} (h : Good x) : Clean x.key := by
  cases x with
  | name n =>
    obtain ⟨⟨t, u, ⟨-, h1, -⟩, -⟩, -⟩ := h
    intro c hc
    have := h1 c hc
    unfold NameChar Letter Digit at this
    omega
  | lit s =>
    change Clean (litName s)
    rw [litName_eq]
    have hq : (if s.length = 1 then 39 else 34) = 39 ∨ (if s.length = 1 then 39 else 34) = 34 := by split <;> simp
    refine Clean.append (Clean.cons (by omega) (Clean.flatMap fun c _ => litChar_clean _ c hq)) (Clean.cons (by omega) .nil)

theorem key_first {x : Sym} (h : Good x) : ∃ c r, x.key = c :: r ∧ ¬ Space c ∧ c ≠ 35 := by
  obtain ⟨c, r, e, hc⟩ := sym_first (sym_at h (u := [32]) ⟨32, [], rfl, .inl rfl⟩)
  cases hk : x.key with
  | nil =>
    rw [hk] at e
    cases e
    unfold NameFirst Letter at hc
    omega
  | cons d q =>
    rw [hk] at e
    cases e
    refine ⟨c, q, rfl, ?_⟩
    unfold NameFirst Letter at hc
    unfold Space
    omega

theorem decInt_clean (k : Int) (h : 0 ≤ k) : Clean (decInt k) := by
  intro c hc
  have := decInt_no k h
  exact ⟨fun e => this.2.1 (e ▸ hc), fun e => this.2.2.2 (e ▸ hc)⟩

theorem txt_clean (s : String) (h : (txt s).all (fun c => c != 10 && c != 0) = true) : Clean (txt s) := by
  intro c hc
  have := List.all_eq_true.1 h c hc
  simpa using this

theorem precComment_clean (k : Int) (h : 0 ≤ k) (a : Assoc) : Clean (precComment k a) := by
  unfold precComment
  refine Clean.append (Clean.append (Clean.append (txt_clean " /*" (by decide)) (decInt_clean k h)) (Clean.cons ?_ .nil)) (txt_clean "*/" (by decide))
  cases a <;> decide

theorem nSym_clean (us : List Use) {x : Sym} (h : Good x) : Clean (nSym us x.key) := by
  unfold nSym
  refine Clean.append (Clean.cons (by omega) (key_clean h)) ?_
  split
  · exact precComment_clean _ (level_nonneg us _) _
  · exact .nil

theorem named_mem {r : List El} {x : Sym} (hp : precNamed r = some x) : El.prec x ∈ r := by
  unfold precNamed at hp
  obtain ⟨e, he, h1⟩ := List.mem_filterMap.1 (List.mem_of_getLast? hp)
  cases e with
  | prec y => cases h1; exact he
  | _ => cases h1

theorem symList_mem {r : List El} {x : Sym} (hx : x ∈ symList r) : El.sym x ∈ r := by
  unfold symList at hx
  obtain ⟨e, he, h1⟩ := List.mem_filterMap.1 hx
  cases e with
  | sym y => cases h1; exact he
  | _ => cases h1

theorem aPrec_clean (us : List Use) {a : Alt} (h : GoodAlt a) : Clean (aPrec us a) := by
  unfold aPrec
  cases hp : precNamed a.rhs with
  | none => exact .nil
  | some x =>
    exact Clean.append (Clean.append (txt_clean " %prec " (by decide)) (key_clean (h.2 x (.inr (named_mem hp))))) (precComment_clean _ (level_nonneg us _) _)

/-- a right-hand side is the end of a line -/
theorem aBody_line (us : List Use) {a : Alt} (h : GoodAlt a) : ∃ l, aBody us a = l ++ [10] ∧ Clean l ∧ NoHash l := by
  refine ⟨_, rfl, ?_, ?_⟩
  · refine Clean.append (Clean.append ?_ ?_) (aPrec_clean us h)
    · split
      · exact txt_clean _ (by decide)
      · exact .nil
    · rw [symList_keys, List.flatMap_map]
      exact Clean.flatMap fun x hx => nSym_clean us (h.2 x (.inl (symList_mem hx)))
  · have h32 : Space 32 := by simp [Space]
    split
    · rw [show txt " /*empty*/" = 32 :: 47 :: txt "*empty*/" by decide]
      exact noHash_space h32 (noHash_first _ (by simp [Space]))
    · rw [List.nil_append, symList_keys, List.flatMap_map]
      cases hl : symList a.rhs with
      | nil =>
        unfold aPrec
        cases hp : precNamed a.rhs with
        | none => exact noHash_nil
        | some x =>
          simp only [List.flatMap_nil, List.nil_append, Option.elim_some]
          rw [show txt " %prec " = 32 :: 37 :: txt "prec " by decide]
          exact noHash_space h32 (noHash_first _ (by simp [Space]))
      | cons x l =>
        obtain ⟨c, r, e, hc⟩ := key_first (h.2 x (.inl (symList_mem (by rw [hl]; simp))))
        rw [List.flatMap_cons]
        unfold nSym
        rw [e]
        exact noHash_space h32 (noHash_first _ hc)

theorem lined_alts (us : List Use) (as : List Alt) (h : ∀ a ∈ as, GoodAlt a) : ∀ (i : Nat) (prev : List Nat), Lined (nAlts us i prev as) := by
  induction as with
  | nil => intro i prev; exact .nil
  | cons a as ih =>
    intro i prev
    rw [nAlts]
    refine Lined.append ?_ (ih (fun b hb => h b (by simp [hb])) _ _)
    have ha := h a (by simp)
    obtain ⟨l, e, h1, h2⟩ := aBody_line us ha
    rw [e]
    unfold aHead
    split
    · rw [show txt "\t|" = [9, 124] by decide, ← List.append_assoc]
      refine Lined.line (Clean.append (Clean.cons (by omega) (Clean.cons (by omega) .nil)) h1) ?_
      exact noHash_space (by simp [Space]) (noHash_first _ (by simp [Space]))
    · have e' : (if 3 < i + innerActions a.rhs then txt "\t;\n" else []) ++ a.lhs.key ++ txt " :\n\t" ++ (l ++ [10]) =
          (if 3 < i + innerActions a.rhs then txt "\t;\n" else []) ++ ((a.lhs.key ++ [32, 58] ++ [10]) ++ ((9 :: l) ++ [10])) := by
        rw [show txt " :\n\t" = [32, 58, 10, 9] by decide]; simp
      rw [e']
      refine Lined.append ?_ (Lined.append (Lined.line (Clean.append (key_clean ha.1) (Clean.cons (by omega) (Clean.cons (by omega) .nil))) ?_)
        (Lined.line (Clean.cons (by omega) h1) (noHash_space (by simp [Space]) h2)))
      · split
        · rw [show txt "\t;\n" = [9, 59] ++ [10] by decide]
          exact Lined.line (Clean.cons (by omega) (Clean.cons (by omega) .nil)) (noHash_space (by simp [Space]) (noHash_first _ (by simp [Space])))
        · exact .nil
      · obtain ⟨c, r, e, hc⟩ := key_first ha.1
        rw [e]
        exact noHash_first _ hc

theorem lined_level (us : List Use) (ts : List (List Nat)) (hT : ∀ n ∈ ts, Good (asSym n)) (k : Nat) : Lined (nLevel us ts k) := by
  unfold nLevel
  split
  · exact .nil
  · rename_i n ns e
    have hc : ∀ m ∈ n :: ns, Clean m := by
      intro m hm
      rw [← e] at hm
      have := key_clean (hT m (List.mem_filter.1 hm).1)
      rwa [asSym_key] at this
    have hp : Clean ((precName (kindOf us n)).getD []) := by
      cases kindOf us n
      · exact .nil
      · exact txt_clean "left" (by decide)
      · exact txt_clean "right" (by decide)
      · exact txt_clean "nonassoc" (by decide)
      · exact txt_clean "precedence" (by decide)
    refine Lined.line (Clean.append (Clean.append (Clean.append (Clean.append (Clean.cons (by omega) hp) (txt_clean _ (by decide))) (decInt_clean k (by omega)))
      (txt_clean _ (by decide))) (Clean.flatMap fun m hm => Clean.cons (by omega) (hc m hm))) ?_
    exact noHash_first _ (by simp [Space])

theorem lined_text (F : File) (hT : ∀ n ∈ tokenNames F.uses, Good (asSym n)) (hg : Good (.name F.goal)) (hA : ∀ a ∈ F.alts, GoodAlt a) :
    Lined (nTokens (tokenNames F.uses) ++ (List.range' 1 (levels F.all)).flatMap (nLevel F.uses (tokenNames F.uses)) ++ txt "\n%start " ++ F.goal ++ [10] ++
      txt "\n%%\n\n" ++ (nAlts F.uses 3 (txt "$accept") F.alts ++ txt "\t;\n")) := by
  have h37 : ¬ Space 37 ∧ 37 ≠ 35 := by simp [Space]
  have e : ∀ X Y Z : List Nat, X ++ Y ++ txt "\n%start " ++ F.goal ++ [10] ++ txt "\n%%\n\n" ++ Z =
      X ++ (Y ++ (([] ++ [10]) ++ (((37 :: (txt "start " ++ F.goal)) ++ [10]) ++ (([] ++ [10]) ++ (([37, 37] ++ [10]) ++ (([] ++ [10]) ++ Z)))))) := by
    intro X Y Z
    rw [show txt "\n%start " = 10 :: 37 :: txt "start " by decide, show txt "\n%%\n\n" = [10, 37, 37, 10, 10] by decide]; simp
  rw [e]
  have h0 : Lined ([] ++ [10]) := Lined.line .nil noHash_nil
  refine Lined.append ?_ (Lined.append (Lined.flatMap fun k _ => lined_level _ _ hT k) (Lined.append h0 (Lined.append (Lined.line ?_ (noHash_first _ h37))
    (Lined.append h0 (Lined.append (Lined.line (Clean.cons (by omega) (Clean.cons (by omega) .nil)) (noHash_first _ h37)) (Lined.append h0
      (Lined.append (lined_alts _ _ hA _ _) ?_)))))))
  · unfold nTokens
    refine Lined.append (Lined.flatMap fun n hn => ?_) h0
    have hc := key_clean (hT n (List.mem_filter.1 hn).1)
    rw [asSym_key] at hc
    refine Lined.line (Clean.append (txt_clean _ (by decide)) hc) ?_
    rw [show txt "%token " = 37 :: txt "token " by decide]
    exact noHash_first _ h37
  · exact Clean.cons (by omega) (Clean.append (txt_clean _ (by decide)) (key_clean hg))
  · rw [show txt "\t;\n" = [9, 59] ++ [10] by decide]
    exact Lined.line (Clean.cons (by omega) (Clean.cons (by omega) .nil)) (noHash_space (by simp [Space]) (noHash_first _ (by simp [Space])))

end Verif.Byacc.Rd
