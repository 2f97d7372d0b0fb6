import Verif.Proofs.NakedLines
/-
Auxiliary facts: what the grammar without its actions means.
-/
set_option autoImplicit false
namespace Verif.Byacc.Rd
open Spec Spec.YText
open Classical

/-! The symbols of a file -/

theorem alts_all (P : Sym → Prop) (toks : List RTok) : ∀ (l : Sym) (a : List El), P l → (∀ x, El.sym x ∈ a ∨ El.prec x ∈ a → P x) →
    (∀ x, RTok.sym x ∈ toks ∨ RTok.lhs x ∈ toks ∨ RTok.prec x ∈ toks → P x) →
    ∀ b ∈ altsFrom l a toks, P b.lhs ∧ ∀ x, El.sym x ∈ b.rhs ∨ El.prec x ∈ b.rhs → P x := by
  induction toks with
  | nil =>
    intro l a h1 h2 _ b hb
    rcases List.mem_singleton.1 hb with rfl
    exact ⟨h1, h2⟩
  | cons x ts ih =>
    intro l a h1 h2 h3
    have h3' : ∀ x, RTok.sym x ∈ ts ∨ RTok.lhs x ∈ ts ∨ RTok.prec x ∈ ts → P x := by
      intro y hy
      refine h3 y ?_
      rcases hy with h | h | h <;> simp [h]
    cases x with
    | sym x =>
      refine ih l (a ++ [.sym x]) h1 ?_ h3'
      intro y hy
      simp only [List.mem_append, List.mem_singleton, El.sym.injEq, reduceCtorEq, or_false] at hy
      rcases hy with (h | rfl) | h
      · exact h2 y (.inl h)
      · exact h3 y (by simp)
      · exact h2 y (.inr h)
    | action b ps =>
      refine ih l (a ++ [.action b ps]) h1 ?_ h3'
      intro y hy
      simp only [List.mem_append, List.mem_singleton, reduceCtorEq, or_false] at hy
      exact h2 y hy
    | prec x =>
      refine ih l (a ++ [.prec x]) h1 ?_ h3'
      intro y hy
      simp only [List.mem_append, List.mem_singleton, El.prec.injEq, reduceCtorEq, or_false] at hy
      rcases hy with h | h | rfl
      · exact h2 y (.inl h)
      · exact h2 y (.inr h)
      · exact h3 y (by simp)
    | bar =>
      intro b hb
      rcases List.mem_cons.1 hb with rfl | hb
      · exact ⟨h1, h2⟩
      · exact ih l [] h1 (by simp) h3' b hb
    | lhs y =>
      intro b hb
      rcases List.mem_cons.1 hb with rfl | hb
      · exact ⟨h1, h2⟩
      · exact ih y [] (h3 y (by simp)) (by simp) h3' b hb

/-- the left-hand sides are those of the rules -/
theorem altsFrom_lhs (toks : List RTok) (n : List Nat) : ∀ (l : Sym) (a : List El), (∃ b ∈ altsFrom l a toks, b.lhs.key = n) ↔ l.key = n ∨ ∃ x, RTok.lhs x ∈ toks ∧ x.key = n := by
  induction toks with
  | nil => intro l a; simp [altsFrom]
  | cons x ts ih =>
    intro l a
    cases x with
    | sym x => rw [altsFrom, ih]; simp
    | action b ps => rw [altsFrom, ih]; simp
    | prec x => rw [altsFrom, ih]; simp
    | bar =>
      rw [altsFrom]
      have := ih l []
      simp only [List.mem_cons, exists_eq_or_imp, this]
      simp
    | lhs y =>
      rw [altsFrom]
      have := ih y []
      simp only [List.mem_cons, exists_eq_or_imp, this]
      constructor
      · rintro (h | h | ⟨x, h, h'⟩)
        · exact .inl h
        · exact .inr ⟨y, .inl rfl, h⟩
        · exact .inr ⟨x, .inr h, h'⟩
      · rintro (h | ⟨x, h | h, h'⟩)
        · exact .inl h
        · cases h; exact .inr (.inl h')
        · exact .inr (.inr ⟨x, h, h'⟩)

theorem isLhs_alts (F : File) (n : List Nat) : IsLhs F.uses n ↔ ∃ a ∈ F.alts, a.lhs.key = n := by
  rw [isLhs_file]
  unfold File.alts
  rw [altsFrom_lhs]
  constructor
  · rintro (rfl | h)
    · exact .inl rfl
    · exact .inr h
  · rintro (h | h)
    · exact .inl h.symm
    · exact .inr h

theorem ruleUses_src (toks : List RTok) : ∀ (l : Sym) (p : Bool) (k : Nat), ∀ u ∈ ruleUses l p k toks,
    (∃ x, u = .plain x ∧ (RTok.sym x ∈ toks ∨ RTok.prec x ∈ toks)) ∨ (∃ x, u = .lhs x ∧ RTok.lhs x ∈ toks) ∨
      ((∃ k l, u = .hidden k l) ∧ (p = true ∨ ∃ b ps, RTok.action b ps ∈ toks)) := by
  induction toks with
  | nil => intro l p k u hu; cases hu
  | cons x ts ih =>
    intro l p k u hu
    have lift : ∀ (l : Sym) (q : Bool) (k : Nat), u ∈ ruleUses l q k ts → (q = true → p = true ∨ ∃ b ps, RTok.action b ps ∈ x :: ts) →
        (∃ y, u = .plain y ∧ (RTok.sym y ∈ x :: ts ∨ RTok.prec y ∈ x :: ts)) ∨ (∃ y, u = .lhs y ∧ RTok.lhs y ∈ x :: ts) ∨
          ((∃ k l, u = .hidden k l) ∧ (p = true ∨ ∃ b ps, RTok.action b ps ∈ x :: ts)) := by
      intro l q k h hq
      rcases ih l q k u h with ⟨y, e, h | h⟩ | ⟨y, e, h⟩ | ⟨h, h' | ⟨b, ps, h'⟩⟩
      · exact .inl ⟨y, e, .inl (by simp [h])⟩
      · exact .inl ⟨y, e, .inr (by simp [h])⟩
      · exact .inr (.inl ⟨y, e, by simp [h]⟩)
      · exact .inr (.inr ⟨h, hq h'⟩)
      · exact .inr (.inr ⟨h, .inr ⟨b, ps, by simp [h']⟩⟩)
    cases x with
    | sym x =>
      rw [ruleUses] at hu
      cases p with
      | true =>
        rw [if_pos rfl] at hu
        rcases List.mem_cons.1 hu with rfl | hu
        · exact .inl ⟨x, rfl, .inl (by simp)⟩
        · rcases List.mem_cons.1 hu with rfl | hu
          · exact .inr (.inr ⟨⟨_, _, rfl⟩, .inl rfl⟩)
          · exact lift _ _ _ hu (by simp)
      | false =>
        rw [if_neg (by simp)] at hu
        rcases List.mem_cons.1 hu with rfl | hu
        · exact .inl ⟨x, rfl, .inl (by simp)⟩
        · exact lift _ _ _ hu (by simp)
    | action b ps =>
      rw [ruleUses] at hu
      have ha : ∃ b' ps', RTok.action b' ps' ∈ RTok.action b ps :: ts := ⟨b, ps, by simp⟩
      cases p with
      | true =>
        rw [if_pos rfl] at hu
        rcases List.mem_cons.1 hu with rfl | hu
        · exact .inr (.inr ⟨⟨_, _, rfl⟩, .inl rfl⟩)
        · exact lift _ _ _ hu (fun _ => .inr ha)
      | false =>
        rw [if_neg (by simp)] at hu
        exact lift _ _ _ hu (fun _ => .inr ha)
    | prec x =>
      rw [ruleUses] at hu
      rcases List.mem_cons.1 hu with rfl | hu
      · exact .inl ⟨x, rfl, .inr (by simp)⟩
      · exact lift _ _ _ hu .inl
    | bar => rw [ruleUses] at hu; exact lift _ _ _ hu (by simp)
    | lhs y =>
      rw [ruleUses] at hu
      rcases List.mem_cons.1 hu with rfl | hu
      · exact .inr (.inl ⟨y, rfl, by simp⟩)
      · exact lift _ _ _ hu (by simp)

theorem declUses_mem (ds : List Decl) : ∀ (pre : List Decl), ∀ u ∈ declUses pre ds, ∃ d ∈ ds, ∃ p, u ∈ Decl.uses p d := by
  induction ds with
  | nil => intro pre u h; cases h
  | cons d ds ih =>
    intro pre u h
    rw [declUses] at h
    rcases List.mem_append.1 h with h | h
    · exact ⟨d, by simp, pre, h⟩
    · obtain ⟨e, he, h⟩ := ih _ u h
      exact ⟨e, by simp [he], h⟩

theorem error_good : Good (.name (txt "error")) := by
  refine ⟨⟨txt "error", [], ⟨⟨by simp, by unfold NameChar Letter Digit; decide, ⟨101, txt "rror", rfl, by unfold NameFirst Letter; omega⟩, by intro c u e; cases e⟩, ?_⟩⟩, trivial⟩
  rintro (h | h | h | ⟨ds, -, -, h⟩)
  · revert h; decide
  · revert h; decide
  · revert h; decide
  · have := congrArg List.head? h
    simp [txt] at this

/-- the symbols in a file of bytes -/
theorem uses_good {F : File} {t : List Nat} (hF : FileAt F t) (hb : YText.Bytes t) : ∀ u ∈ F.uses,
    (∃ x, Good x ∧ x.key = u.key) ∨ ∃ k l, u = .hidden k l := by
  obtain ⟨b1, b2⟩ := fileAt_bytes hF hb
  intro u hu
  have hw := uses_written hF u hu
  unfold File.uses at hu
  rcases List.mem_append.1 hu with hu | hu
  · obtain ⟨d, hd, p, hu⟩ := declUses_mem _ _ u hu
    have := b1 d hd
    cases d with
    | tokens a tag items =>
      simp only [Decl.uses, List.mem_map] at hu
      obtain ⟨y, hy, rfl⟩ := hu
      exact .inl ⟨y.1, ⟨hw, this y hy⟩, rfl⟩
    | types tag xs =>
      simp only [Decl.uses, List.mem_map] at hu
      obtain ⟨y, hy, rfl⟩ := hu
      exact .inl ⟨y, ⟨hw, this y hy⟩, rfl⟩
    | start n =>
      simp only [Decl.uses, List.mem_singleton] at hu
      subst hu
      exact .inl ⟨.name n, ⟨hw, trivial⟩, rfl⟩
    | _ => simp [Decl.uses] at hu
  · rcases List.mem_cons.1 hu with rfl | hu
    · exact .inl ⟨_, ⟨hw, trivial⟩, rfl⟩
    · rcases ruleUses_src _ _ _ _ u hu with ⟨x, rfl, h | h⟩ | ⟨x, rfl, h⟩ | ⟨h, -⟩
      · exact .inl ⟨x, ⟨hw, b2 _ h⟩, rfl⟩
      · exact .inl ⟨x, ⟨hw, b2 _ h⟩, rfl⟩
      · exact .inl ⟨x, ⟨hw, b2 _ h⟩, rfl⟩
      · exact .inr h

theorem tokens_good {F : File} {t : List Nat} (hF : FileAt F t) (hb : YText.Bytes t) : ∀ n ∈ tokenNames F.uses, Good (asSym n) := by
  intro n hn
  refine asSym_good ?_
  have h1 := (List.mem_filter.1 hn).1
  have h2 : Terminal F.uses n := by simpa using (List.mem_filter.1 hn).2
  rcases (mem_names _ _).1 h1 with rfl | ⟨u, hu, rfl⟩
  · exact ⟨_, error_good, rfl⟩
  · rcases uses_good hF hb u hu with h | ⟨k, l, rfl⟩
    · exact h
    · exact absurd h2.2 ((hid_hidden hF h1).1 ⟨k, rfl⟩)

theorem alts_good {F : File} {t : List Nat} (hF : FileAt F t) (hb : YText.Bytes t) : ∀ a ∈ F.alts, GoodAlt a := by
  obtain ⟨-, b2⟩ := fileAt_bytes hF hb
  obtain ⟨-, hf, hN⟩ := file_named hF
  intro a ha
  refine alts_all Good F.toks (.name F.first) [] ⟨hf, trivial⟩ (by simp) ?_ a ha
  intro x hx
  refine ⟨hN x hx, ?_⟩
  rcases hx with h | h | h <;> exact b2 _ h

/-! The rules -/

/-- a rule without its actions, with the last `%prec` only -/
def bare (a : Alt) : Alt := ⟨a.lhs, (symList a.rhs).map .sym ++ (precNamed a.rhs).toList.map .prec⟩

theorem altsFrom_syms (l : Sym) (xs : List Sym) (ts : List RTok) : ∀ a, altsFrom l a (xs.map .sym ++ ts) = altsFrom l (a ++ xs.map .sym) ts := by
  induction xs with
  | nil => intro a; simp
  | cons x xs ih => intro a; rw [List.map_cons, List.cons_append, altsFrom, ih]; simp

theorem altsFrom_elToks (l : Sym) (a : Alt) (ts : List RTok) : altsFrom l [] (elToks a ++ ts) = altsFrom l (bare a).rhs ts := by
  unfold elToks bare
  rw [List.append_assoc, altsFrom_syms]
  cases precNamed a.rhs with
  | none => simp
  | some x =>
    simp only [Option.toList_some, List.map_cons, List.map_nil, List.singleton_append, List.nil_append]
    rw [altsFrom]

theorem altsFrom_toksFrom (as : List Alt) : ∀ (n : List Nat) (r : List El), (∀ a ∈ as, ∃ m, a.lhs = .name m) →
    altsFrom (.name n) r (toksFrom n as) = ⟨.name n, r⟩ :: as.map bare := by
  induction as with
  | nil => intro n r _; rfl
  | cons a as ih =>
    intro n r h
    obtain ⟨m, hm⟩ := h a (by simp)
    have ih' := ih m (bare a).rhs (fun b hb => h b (by simp [hb]))
    have hb : bare a = ⟨.name m, (bare a).rhs⟩ := by rw [← hm]; rfl
    rw [toksFrom, hm, List.map_cons]
    change altsFrom _ _ ((if innerActions a.rhs = 0 ∧ m = n then _ else _) :: (elToks a ++ toksFrom m as)) = _
    split
    · rename_i hc
      obtain ⟨-, rfl⟩ := hc
      rw [altsFrom, altsFrom_elToks, ih', ← hb]
    · rw [altsFrom, altsFrom_elToks, ih', ← hb]

theorem naked_toks (F : File) (hd : dollar F.first = false) : toksFrom (txt "$accept") F.alts = .lhs (.name F.first) :: (nakedFile F).toks := by
  obtain ⟨r, as, he⟩ := altsFrom_first F.toks (.name F.first) []
  have he : F.alts = ⟨.name F.first, r⟩ :: as := he
  unfold nakedFile
  rw [he, toksFrom, if_neg]
  · rfl
  · rintro ⟨-, h⟩
    change F.first = txt "$accept" at h
    rw [h] at hd
    revert hd; decide

theorem naked_alts (F : File) (hn : ∀ a ∈ F.alts, ∃ m, a.lhs = .name m) : (nakedFile F).alts = F.alts.map bare := by
  obtain ⟨r, as, he⟩ := altsFrom_first F.toks (.name F.first) []
  have he : F.alts = ⟨.name F.first, r⟩ :: as := he
  unfold File.alts nakedFile
  change altsFrom _ _ (toksFrom (txt "$accept") F.alts).tail = F.alts.map bare
  rw [he, toksFrom, List.tail_cons, altsFrom_elToks, List.map_cons]
  exact altsFrom_toksFrom as F.first _ (fun b hb => hn b (by rw [he]; simp [hb]))

theorem symsOf_bare (a : Alt) : YText.symsOf (bare a).rhs = YText.symsOf a.rhs := by
  rw [symList_keys a.rhs]
  have : ∀ xs : List Sym, YText.symsOf (xs.map El.sym ++ (precNamed a.rhs).toList.map El.prec) = xs.map Sym.key := by
    intro xs
    induction xs with
    | nil => cases precNamed a.rhs <;> rfl
    | cons x xs ih => exact congrArg (x.key :: ·) ih
  exact this _

theorem precNamed_bare (a : Alt) : precNamed (bare a).rhs = precNamed a.rhs := by
  have : ∀ (xs : List Sym) (p : Option Sym), precNamed (xs.map El.sym ++ p.toList.map El.prec) = p := by
    intro xs p
    induction xs with
    | nil => cases p <;> rfl
    | cons x xs ih => exact ih
  exact this _ _

theorem actsIn_bare (us : List Use) (l : Sym) (n : Nat) (tags : Bool) (rest : List El) (h : ∀ b ps, El.action b ps ∉ rest) :
    ∀ a, ActsIn us l n tags a rest [] tags := by
  induction rest with
  | nil => intro a; exact .done _ _
  | cons e rest ih =>
    intro a
    have ih := ih (fun b ps hb => h b ps (by simp [hb]))
    cases e with
    | sym x => exact .sym _ _ _ _ _ _ (ih _)
    | prec x => exact .prec _ _ _ _ _ _ (ih _)
    | action b ps => exact absurd (by simp) (h b ps)

theorem actsOf_bare (us : List Use) (tags : Bool) (as : List Alt) : ∀ n, ActsOf us n tags (as.map bare) [] tags := by
  induction as with
  | nil => intro n; exact .nil _ _
  | cons a as ih =>
    intro n
    refine ActsOf.cons (acts := []) (more := []) n tags tags tags _ _ (actsIn_bare us _ n tags _ ?_ []) (ih _)
    intro b ps h
    unfold bare at h
    simp at h

end Verif.Byacc.Rd
