import Verif.Proofs.NakedAlts
import Verif.Proofs.ByaccSuffix
/-
Auxiliary facts: the grammar without its actions is read as a grammar file.
-/
set_option autoImplicit false
namespace Verif.Byacc.Rd
open Spec Spec.YText
open Classical

/-! White space -/

/-- only white space and comments between `t` and `u` -/
def Ws (t u : List Nat) : Prop := ∀ z, Skips u z → Skips t z

theorem Ws.refl (t : List Nat) : Ws t t := fun _ h => h
theorem Ws.trans {t u v : List Nat} (h : Ws t u) (h' : Ws u v) : Ws t v := fun z hz => h z (h' z hz)
theorem Ws.blank {c : Nat} (h : Blank c) (t : List Nat) : Ws (c :: t) t := fun _ hz => .blank c _ _ h hz

theorem no_close {s : List Nat} (h : 47 ∉ s) : ¬ [42, 47] <:+: s ++ [42] := by
  rintro ⟨a, b, e⟩
  have : 47 ∈ s ++ [42] := by rw [← e]; simp
  simp [h] at this

theorem Ws.comment {s : List Nat} (h : 47 ∉ s) (t : List Nat) : Ws (47 :: 42 :: (s ++ 42 :: 47 :: t)) t := fun _ hz => .block s _ _ (no_close h) hz

theorem _root_.Verif.Spec.YText.RTokensAt.ws {xs : List RTok} {t u : List Nat} (hw : Ws t u) (h : RTokensAt xs u) : RTokensAt xs t := by
  cases h with
  | done _ v h1 h2 => exact .done _ v (hw v h1) h2
  | cons x xs _ v w h1 h2 h3 => exact .cons x xs _ v w (hw v h1) h2 h3

theorem _root_.Verif.Spec.YText.ItemsAt.ws {xs : List (Sym × Option Nat)} {t u z : List Nat} (hw : Ws t u) (h : ItemsAt xs u z) : ItemsAt xs t z := by
  cases h with
  | nil _ v h1 h2 h3 => exact .nil _ _ (hw _ h1) h2 h3
  | sym x xs _ v w y z h1 h2 h3 h4 h5 => exact .sym x xs _ v w y z (hw _ h1) h2 h3 h4 h5
  | num x n xs _ v w y y' z h1 h2 h3 h4 h5 h6 => exact .num x n xs _ v w y y' z (hw _ h1) h2 h3 h4 h5 h6

theorem _root_.Verif.Spec.YText.DeclsAt.ws {xs : List Decl} {t u z : List Nat} (hw : Ws t u) (h : DeclsAt xs u z) : DeclsAt xs t z := by
  cases h with
  | done _ v _ h1 h2 => exact .done _ v _ (hw v h1) h2
  | cons x xs _ v w u h1 h2 h3 => exact .cons x xs _ v w _ (hw v h1) h2 h3

theorem decDigits_digit (k : Nat) : ∀ c ∈ decDigits k, Digit c := (decDigits_spec k).2.1

theorem decInt_nat (k : Nat) : decInt (k : Int) = decDigits k := by
  unfold decInt
  rw [if_neg (by omega)]; rfl

theorem decInt_no (k : Int) (h : 0 ≤ k) : 47 ∉ decInt k ∧ 10 ∉ decInt k ∧ 35 ∉ decInt k ∧ 0 ∉ decInt k := by
  obtain ⟨n, rfl⟩ := Int.eq_ofNat_of_zero_le h
  rw [decInt_nat]
  refine ⟨?_, ?_, ?_, ?_⟩ <;>
  · intro hc
    have := decDigits_digit _ _ hc
    unfold Digit at this; omega

theorem precComment_ws (k : Int) (h : 0 ≤ k) (a : Assoc) (t : List Nat) : Ws (precComment k a ++ t) t := by
  have e : precComment k a ++ t = 32 :: 47 :: 42 :: ((decInt k ++ [assocChr a]) ++ 42 :: 47 :: t) := by
    unfold precComment
    rw [show Byacc.str " /*" = [32, 47, 42] by decide, show Byacc.str "*/" = [42, 47] by decide]
    simp
  rw [e]
  refine (Ws.blank (by unfold Blank; omega) _).trans (Ws.comment ?_ t)
  intro hc
  rcases List.mem_append.1 hc with hc | hc
  · exact (decInt_no k h).1 hc
  · cases a <;> simp [assocChr] at hc

/-! Symbols -/

/-- a symbol of a file of bytes -/
def Good (x : Sym) : Prop := (∃ t u, SymAt x t u) ∧ x.Bytes

theorem litChar_body {q : Nat} (hq : q = 39 ∨ q = 34) (c : Nat) (hc : c < 256) (s t u : List Nat) (h : LitBody q s t u) :
    LitBody q (c :: s) (litChar q c ++ t) u := by
  unfold litChar
  split
  · rename_i h1
    have h1 : c = 92 ∨ c = q := by simpa using h1
    refine .other c s t u ?_ ?_ ?_ ?_ h
    · omega
    · unfold Octal; omega
    · omega
    · intro n hn
      simp only [escapes, List.mem_cons, Prod.mk.injEq, List.not_mem_nil, or_false] at hn
      omega
  · rename_i h1
    have h1 : ¬ (c = 92 ∨ c = q) := by simpa using h1
    split
    · rename_i h2
      have h2 : 32 ≤ c ∧ c < 127 := by simpa [isPrint] using h2
      exact .plain c s t u (by omega) (by omega) (by omega) h
    · rename_i h2
      have h2 : ¬ (32 ≤ c ∧ c < 127) := by simpa [isPrint] using h2
      by_cases a1 : c = 7
      · subst a1; exact .letter 97 7 s t u (by simp [escapes]) h
      by_cases a2 : c = 8
      · subst a2; exact .letter 98 8 s t u (by simp [escapes]) h
      by_cases a3 : c = 12
      · subst a3; exact .letter 102 12 s t u (by simp [escapes]) h
      by_cases a4 : c = 10
      · subst a4; exact .letter 110 10 s t u (by simp [escapes]) h
      by_cases a5 : c = 13
      · subst a5; exact .letter 114 13 s t u (by simp [escapes]) h
      by_cases a6 : c = 9
      · subst a6; exact .letter 116 9 s t u (by simp [escapes]) h
      by_cases a7 : c = 11
      · subst a7; exact .letter 118 11 s t u (by simp [escapes]) h
      simp only [a1, a2, a3, a4, a5, a6, a7, beq_iff_eq, if_false]
      refine .octal [(c / 64) % 8 + 48, (c / 8) % 8 + 48, c % 8 + 48] c s t u (by simp) ?_ (.inl rfl) ?_ (by omega) h
      · intro d hd
        simp only [List.mem_cons, List.not_mem_nil, or_false] at hd
        unfold Octal
        omega
      · simp only [List.foldl_cons, List.foldl_nil]
        omega

theorem lit_at (s : List Nat) (hs : YText.Bytes s) (u : List Nat) : LiteralAt s (litName s ++ u) u := by
  rw [litName_eq]
  generalize hq : (if s.length = 1 then 39 else 34) = q
  have hq' : q = 39 ∨ q = 34 := by rw [← hq]; split <;> simp
  refine ⟨q, (s.flatMap (litChar q)) ++ q :: u, hq', by simp, ?_⟩
  have : ∀ l : List Nat, YText.Bytes l → LitBody q l (l.flatMap (litChar q) ++ q :: u) u := by
    intro l
    induction l with
    | nil => intro _; exact .close u
    | cons c l ih =>
      intro hl
      rw [List.flatMap_cons, List.append_assoc]
      exact litChar_body hq' c (hl c (by simp)) _ _ _ (ih fun d hd => hl d (by simp [hd]))
  exact this s hs

/-- a text that goes on behind a symbol -/
def Gap (t : List Nat) : Prop := ∃ c r, t = c :: r ∧ (c = 32 ∨ c = 10)

theorem Gap.notName {t : List Nat} (h : Gap t) : NotNext NameChar t := by
  obtain ⟨c, r, rfl, h⟩ := h
  intro d u e
  cases e
  unfold NameChar Letter Digit
  omega

theorem sym_at {x : Sym} (h : Good x) {u : List Nat} (hu : Gap u) : SymAt x (x.key ++ u) u := by
  obtain ⟨⟨t, v, h1⟩, h2⟩ := h
  cases x with
  | name n => exact ⟨⟨rfl, h1.1.2.1, h1.1.2.2.1, hu.notName⟩, h1.2⟩
  | lit s => exact lit_at s h2 u

/-- how the text of a symbol begins -/
theorem sym_first {x : Sym} {t u : List Nat} (h : SymAt x t u) : ∃ c r, t = c :: r ∧ (NameFirst c ∨ c = 39 ∨ c = 34) := by
  cases x with
  | name n =>
    obtain ⟨⟨rfl, -, ⟨c, r, rfl, hc⟩, -⟩, -⟩ := h
    exact ⟨c, _, rfl, .inl hc⟩
  | lit s =>
    obtain ⟨q, r, hq, rfl, -⟩ := h
    exact ⟨q, r, rfl, .inr hq⟩

theorem first_stops {c : Nat} {r : List Nat} (h : NameFirst c ∨ c = 39 ∨ c = 34 ∨ c = 124 ∨ c = 37 ∨ c = 58) : Stops (c :: r) := by
  have hc : ¬ Blank c ∧ c ≠ 47 := by
    unfold Blank
    unfold NameFirst Letter at h
    omega
  refine ⟨fun d u e => by cases e; exact hc.1, ?_, ?_⟩
  · intro h; rw [List.cons_prefix_cons] at h; exact hc.2 h.1.symm
  · intro h; rw [List.cons_prefix_cons] at h; exact hc.2 h.1.symm

theorem sym_skips {x : Sym} {t u : List Nat} (h : SymAt x t u) : Skips t t := by
  obtain ⟨c, r, rfl, hc⟩ := sym_first h
  refine .here _ (first_stops ?_)
  rcases hc with h | h | h <;> simp [h]

/-! Rules -/

/-- no actions -/
def NoActs (xs : List RTok) : Prop := ∀ x ∈ xs, ∀ b ps, x ≠ .action b ps

theorem rtoks_next {xs : List RTok} {t : List Nat} (hn : NoActs xs) (h : RTokensAt xs t) :
    ∃ w, Skips t w ∧ RTokensAt xs w ∧ NotNext (fun c => c = 58 ∨ c = 40) w := by
  cases h with
  | done _ u h1 h2 =>
    refine ⟨u, h1, .done u u (skips_again h1) h2, ?_⟩
    rcases h2 with (rfl | ⟨v, rfl⟩) | ⟨p, v, hp, rfl, -⟩
    · intro c r e; cases e
    · intro c r e; cases e; omega
    · intro c r e; cases e; unfold Percent at hp; omega
  | cons x xs _ u v h1 h2 h3 =>
    refine ⟨u, h1, .cons x xs u u v (skips_again h1) h2 h3, ?_⟩
    have key : ∀ {y : Sym} {v : List Nat}, SymAt y u v → NotNext (fun c => c = 58 ∨ c = 40) u := by
      intro y v h c r e
      obtain ⟨d, r', e', hd⟩ := sym_first h
      rw [e] at e'
      cases e'
      unfold NameFirst Letter at hd
      omega
    cases h2 with
    | sym y _ v' _ h => exact key h
    | lhs y _ v' _ h => exact key h
    | bar u => intro c r e; cases e; omega
    | action b ps _ _ h => exact absurd rfl (hn _ (by simp) b ps)
    | prec y _ v' w _ h =>
      obtain ⟨p, z, hp, rfl, -⟩ := h
      intro c r e; cases e; unfold Percent at hp; omega

theorem rtoks_sym {x : Sym} {xs : List RTok} {t v : List Nat} (hn : NoActs xs) (hx : SymAt x t v) (h : RTokensAt xs v) : RTokensAt (.sym x :: xs) t := by
  obtain ⟨w, h1, h2, h3⟩ := rtoks_next hn h
  exact .cons _ _ t t w (sym_skips hx) (.sym x t v w hx h1 h3) h2

/-- the tokens of a right-hand side -/
def symList (a : List El) : List Sym := a.filterMap fun e => match e with | .sym x => some x | _ => none

theorem symList_keys (a : List El) : YText.symsOf a = (symList a).map Sym.key := by
  unfold YText.symsOf symList
  rw [List.map_filterMap]
  congr 1
  funext e
  cases e <;> rfl

def elToks (a : Alt) : List RTok := (symList a.rhs).map .sym ++ (precNamed a.rhs).toList.map .prec

/-- the tokens of rules behind `prev : ..` -/
def toksFrom (prev : List Nat) : List Alt → List RTok
  | [] => []
  | a :: as => (if innerActions a.rhs = 0 ∧ a.lhs.key = prev then .bar else .lhs a.lhs) :: (elToks a ++ toksFrom a.lhs.key as)

theorem elToks_noActs (a : Alt) : NoActs (elToks a) := by
  intro x hx b ps e
  subst e
  unfold elToks at hx
  simp at hx

theorem toksFrom_noActs (as : List Alt) : ∀ prev, NoActs (toksFrom prev as) := by
  induction as with
  | nil => intro prev x hx; cases hx
  | cons a as ih =>
    intro prev x hx b ps e
    subst e
    rw [toksFrom] at hx
    rcases List.mem_cons.1 hx with h | h
    · split at h <;> cases h
    · rcases List.mem_append.1 h with h | h
      · exact elToks_noActs a _ h b ps rfl
      · exact ih _ _ h b ps rfl

theorem NoActs.append {xs ys : List RTok} (h : NoActs xs) (h' : NoActs ys) : NoActs (xs ++ ys) := by
  intro x hx
  rcases List.mem_append.1 hx with hx | hx
  · exact h x hx
  · exact h' x hx

theorem nSym_ws (us : List Use) (x : Sym) (t : List Nat) :
    ∃ r, nSym us x.key ++ t = 32 :: (x.key ++ r) ∧ Ws r t ∧ (Gap t → Gap r) := by
  unfold nSym
  by_cases h : levelOf us x.key ≠ 0
  · rw [if_pos h]
    refine ⟨precComment (levelOf us x.key) (kindOf us x.key) ++ t, by simp, precComment_ws _ (level_nonneg us _) _ _, fun _ => ?_⟩
    exact ⟨32, _, rfl, .inl rfl⟩
  · rw [if_neg h]
    exact ⟨t, by simp, Ws.refl t, id⟩

theorem syms_rtoks (us : List Use) (l : List Sym) (hl : ∀ x ∈ l, Good x) (xs : List RTok) (hn : NoActs xs) (t : List Nat) (hg : Gap t) (h : RTokensAt xs t) :
    Gap (l.flatMap (fun x => nSym us x.key) ++ t) ∧ RTokensAt (l.map .sym ++ xs) (l.flatMap (fun x => nSym us x.key) ++ t) := by
  induction l with
  | nil => exact ⟨hg, h⟩
  | cons x l ih =>
    obtain ⟨g, r⟩ := ih fun y hy => hl y (by simp [hy])
    rw [List.flatMap_cons, List.append_assoc]
    obtain ⟨z, e, w, gz⟩ := nSym_ws us x (l.flatMap (fun x => nSym us x.key) ++ t)
    rw [e]
    refine ⟨⟨32, _, rfl, .inl rfl⟩, ?_⟩
    refine Spec.YText.RTokensAt.ws (Ws.blank (by unfold Blank; omega) _) ?_
    refine rtoks_sym ?_ (sym_at (hl x (by simp)) (gz g)) (Spec.YText.RTokensAt.ws w r)
    refine NoActs.append ?_ hn
    intro y hy b ps e
    subst e
    simp at hy

theorem prec_rtoks (us : List Use) (a : Alt) (ha : ∀ x, El.prec x ∈ a.rhs → Good x) (xs : List RTok) (t : List Nat) (h : RTokensAt xs t) :
    Gap (aPrec us a ++ 10 :: t) ∧ RTokensAt ((precNamed a.rhs).toList.map .prec ++ xs) (aPrec us a ++ 10 :: t) := by
  have hw : Ws (10 :: t) t := Ws.blank (by unfold Blank; omega) _
  unfold aPrec
  cases hp : precNamed a.rhs with
  | none => exact ⟨⟨10, t, rfl, .inr rfl⟩, h.ws hw⟩
  | some x =>
    have hx : Good x := by
      refine ha x ?_
      unfold precNamed at hp
      obtain ⟨e, he, h1⟩ := List.mem_filterMap.1 (List.mem_of_getLast? hp)
      cases e with
      | prec y => cases h1; exact he
      | _ => cases h1
    simp only [Option.elim_some, Option.toList_some, List.map_cons, List.map_nil, List.singleton_append]
    have e : txt " %prec " ++ x.key ++ precComment (levelOf us x.key) (kindOf us x.key) ++ 10 :: t =
        32 :: (37 :: (txt "prec" ++ 32 :: (x.key ++ (precComment (levelOf us x.key) (kindOf us x.key) ++ 10 :: t)))) := by
      rw [show txt " %prec " = 32 :: 37 :: (txt "prec" ++ [32]) by decide]
      simp
    rw [e]
    refine ⟨⟨32, _, rfl, .inl rfl⟩, Spec.YText.RTokensAt.ws (Ws.blank (by unfold Blank; omega) _) ?_⟩
    have hs : SymAt x (x.key ++ (precComment (levelOf us x.key) (kindOf us x.key) ++ 10 :: t)) (precComment (levelOf us x.key) (kindOf us x.key) ++ 10 :: t) :=
      sym_at hx ⟨32, _, rfl, .inl rfl⟩
    refine .cons _ _ _ _ (precComment (levelOf us x.key) (kindOf us x.key) ++ 10 :: t) (.here _ (first_stops (by omega))) (.prec x _ (32 :: (x.key ++ (precComment (levelOf us x.key) (kindOf us x.key) ++ 10 :: t))) _ _ ?_
      (.blank 32 _ _ (by unfold Blank; omega) (sym_skips hs)) hs) (h.ws ((precComment_ws _ (level_nonneg us _) _ _).trans hw))
    refine ⟨37, _, .inl rfl, rfl, .inr ⟨txt "prec", rfl, ?_, ?_⟩⟩
    · exact List.forall₂_same.2 fun c _ => .inl rfl
    · intro c u e; cases e; unfold NameChar Letter Digit; omega

theorem body_rtoks (us : List Use) (a : Alt) (ha : ∀ x, El.sym x ∈ a.rhs ∨ El.prec x ∈ a.rhs → Good x) (xs : List RTok) (hn : NoActs xs) (t : List Nat)
    (h : RTokensAt xs t) : RTokensAt (elToks a ++ xs) (aBody us a ++ t) := by
  obtain ⟨g, r⟩ := prec_rtoks us a (fun x hx => ha x (.inr hx)) xs t h
  obtain ⟨-, r'⟩ := syms_rtoks us (symList a.rhs) (fun x hx => ha x (.inl (by
    unfold symList at hx
    obtain ⟨e, he, h1⟩ := List.mem_filterMap.1 hx
    cases e with
    | sym y => cases h1; exact he
    | _ => cases h1))) _ (NoActs.append (xs := (precNamed a.rhs).toList.map .prec) (by intro y hy b ps e; subst e; simp at hy) hn) _ g r
  unfold elToks aBody
  rw [List.append_assoc, symList_keys, List.flatMap_map]
  have e : ((if rhsKeys 0 a.rhs = [] then txt " /*empty*/" else []) ++ (symList a.rhs).flatMap (fun x => nSym us x.key) ++ aPrec us a ++ [10] ++ t) =
      (if rhsKeys 0 a.rhs = [] then txt " /*empty*/" else []) ++ ((symList a.rhs).flatMap (fun x => nSym us x.key) ++ (aPrec us a ++ 10 :: t)) := by simp
  rw [e]
  refine r'.ws ?_
  split
  · rw [show txt " /*empty*/" = 32 :: 47 :: 42 :: (txt "empty" ++ [42, 47]) by decide]
    have := (Ws.blank (c := 32) (by unfold Blank; omega) _).trans (Ws.comment (s := txt "empty") (by decide) ((symList a.rhs).flatMap (fun x => nSym us x.key) ++ (aPrec us a ++ 10 :: t)))
    simpa using this
  · exact Ws.refl _

theorem rtoks_lhs {x : Sym} (hx : Good x) {xs : List RTok} {t : List Nat} (h : RTokensAt xs t) :
    RTokensAt (.lhs x :: xs) (x.key ++ txt " :\n\t" ++ t) := by
  have e : x.key ++ txt " :\n\t" ++ t = x.key ++ 32 :: 58 :: 10 :: 9 :: t := by
    rw [show txt " :\n\t" = [32, 58, 10, 9] by decide]; simp
  rw [e]
  have hs := sym_at hx (u := 32 :: 58 :: 10 :: 9 :: t) ⟨32, _, rfl, .inl rfl⟩
  refine .cons _ _ _ _ (10 :: 9 :: t) (sym_skips hs) (.lhs x _ _ _ hs (.blank 32 _ _ (by unfold Blank; omega) (.here _ (first_stops (by omega))))) ?_
  exact h.ws ((Ws.blank (by unfold Blank; omega) _).trans (Ws.blank (by unfold Blank; omega) _))

theorem semi_ws (t : List Nat) : Ws (txt "\t;\n" ++ t) t := by
  rw [show txt "\t;\n" = [9, 59, 10] by decide]
  exact (Ws.blank (by unfold Blank; omega) _).trans ((Ws.blank (by unfold Blank; omega) _).trans (Ws.blank (by unfold Blank; omega) _))

/-- the symbols of a rule can be written -/
def GoodAlt (a : Alt) : Prop := Good a.lhs ∧ ∀ x, El.sym x ∈ a.rhs ∨ El.prec x ∈ a.rhs → Good x

theorem alts_rtoks (us : List Use) (as : List Alt) (hg : ∀ a ∈ as, GoodAlt a) : ∀ (i : Nat) (prev : List Nat),
    RTokensAt (toksFrom prev as) (nAlts us i prev as ++ txt "\t;\n") := by
  induction as with
  | nil =>
    intro i prev
    refine .done _ [] ?_ (.inl (.inl rfl))
    have := semi_ws [] [] (.here _ ⟨fun c u e => by (cases e), by simp, by simp⟩)
    simpa [nAlts] using this
  | cons a as ih =>
    intro i prev
    obtain ⟨h1, h2⟩ := hg a (by simp)
    have r := body_rtoks us a h2 (toksFrom a.lhs.key as) (toksFrom_noActs _ _) _ (ih (fun b hb => hg b (by simp [hb])) (i + innerActions a.rhs + 1) a.lhs.key)
    rw [nAlts, toksFrom]
    unfold aHead
    split
    · rw [show txt "\t|" = [9, 124] by decide]
      simp only [List.cons_append, List.nil_append, List.append_assoc]
      refine Spec.YText.RTokensAt.ws (Ws.blank (by unfold Blank; omega) _) ?_
      exact .cons _ _ _ _ _ (.here _ (first_stops (by omega))) (.bar _) r
    · have r' := rtoks_lhs h1 r
      have e : ((if 3 < i + innerActions a.rhs then txt "\t;\n" else []) ++ a.lhs.key ++ txt " :\n\t" ++ aBody us a ++ nAlts us (i + innerActions a.rhs + 1) a.lhs.key as ++ txt "\t;\n") =
          (if 3 < i + innerActions a.rhs then txt "\t;\n" else []) ++ (a.lhs.key ++ txt " :\n\t" ++ (aBody us a ++ (nAlts us (i + innerActions a.rhs + 1) a.lhs.key as ++ txt "\t;\n"))) := by simp
      rw [e]
      refine r'.ws ?_
      split
      · exact semi_ws _
      · exact Ws.refl _

end Verif.Byacc.Rd
