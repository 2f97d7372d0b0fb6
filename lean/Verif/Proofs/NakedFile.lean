import Verif.Proofs.NakedParse
/-
Auxiliary facts: the grammar without its actions is the text of a grammar file.
-/
set_option autoImplicit false
namespace Verif.Byacc.Rd
open Spec Spec.YText
open Classical

/-! The symbol with a given name -/

noncomputable def asSym (n : List Nat) : Sym := if h : ∃ x, Good x ∧ x.key = n then h.choose else .name n

theorem asSym_key (n : List Nat) : (asSym n).key = n := by
  unfold asSym
  split
  · rename_i h; exact h.choose_spec.2
  · rfl

theorem asSym_good {n : List Nat} (h : ∃ x, Good x ∧ x.key = n) : Good (asSym n) := by
  unfold asSym
  rw [dif_pos h]; exact h.choose_spec.1

/-! The file -/

/-- the tokens of a level -/
noncomputable def lvl (us : List Use) (ts : List (List Nat)) (k : Nat) : List (List Nat) := ts.filter fun n => decide (levelOf us n = k)

noncomputable def lvlDecl (us : List Use) (ts : List (List Nat)) (k : Nat) : Decl :=
  .tokens ((lvl us ts k).head?.elim .TOKEN (kindOf us)) none ((lvl us ts k).map fun m => (asSym m, none))

noncomputable def lvlsOf (us : List Use) (ts : List (List Nat)) (n : Nat) : List Nat := (List.range' 1 n).filter fun k => decide (lvl us ts k ≠ [])

noncomputable def tokDecls (ts : List (List Nat)) : List Decl :=
  (ts.filter fun n => decide (n ≠ txt "error")).map fun n => .tokens .TOKEN none [(asSym n, none)]

/-- what is printed, as a file -/
noncomputable def nakedFile (F : File) : File :=
  { decls := tokDecls (tokenNames F.uses) ++ ((lvlsOf F.uses (tokenNames F.uses) (levels F.all)).map (lvlDecl F.uses (tokenNames F.uses)) ++ [.start F.goal])
    early := []
    first := F.first
    toks := (toksFrom (txt "$accept") F.alts).tail }

/-! Declarations -/

theorem declAt_percent {d : Decl} {t u : List Nat} (h : DeclAt d t u) : ∃ p r, Percent p ∧ t = p :: r := by
  have key : ∀ {k : Kw} {v : List Nat}, KwAt k t v → ∃ p r, Percent p ∧ t = p :: r := by
    rintro k v ⟨p, w, hp, rfl, -⟩; exact ⟨p, _, hp, rfl⟩
  cases h with
  | tokens _ _ _ _ _ _ _ h _ _ => exact key h
  | types _ _ _ _ _ h _ => exact key h
  | start _ _ _ _ _ h _ _ => exact key h
  | expect _ _ _ _ h _ => exact key h
  | expectRR _ _ _ _ h _ => exact key h
  | text _ _ _ _ _ h _ _ => exact key h
  | union _ _ _ h _ => exact key h
  | ident _ _ _ h _ => exact key h
  | flag _ _ _ h _ => exact key h

theorem declsAt_percent {ds : List Decl} {t z : List Nat} (h : DeclsAt ds t z) : ∃ w, Skips t w ∧ DeclsAt ds w z ∧ ∃ p r, Percent p ∧ w = p :: r := by
  cases h with
  | done _ v _ h1 h2 =>
    refine ⟨v, h1, .done _ v _ (skips_again h1) h2, ?_⟩
    obtain ⟨p, w, hp, rfl, -⟩ := h2
    exact ⟨p, _, hp, rfl⟩
  | cons d ds _ v w _ h1 h2 h3 => exact ⟨v, h1, .cons d ds _ v w _ (skips_again h1) h2 h3, declAt_percent h2⟩

theorem items_at (l : List (List Nat)) (hl : ∀ n ∈ l, Good (asSym n)) (rest w : List Nat) (hs : Skips rest w) (hw : ∃ p r, Percent p ∧ w = p :: r) :
    ItemsAt (l.map fun m => (asSym m, none)) (l.flatMap (fun m => 32 :: m) ++ 10 :: rest) w ∧ Gap (l.flatMap (fun m => 32 :: m) ++ 10 :: rest) := by
  induction l with
  | nil =>
    refine ⟨.nil _ _ (.blank 10 _ _ (by unfold Blank; omega) hs) ?_ ?_, ⟨10, rest, rfl, .inr rfl⟩⟩
    · obtain ⟨p, r, hp, rfl⟩ := hw
      unfold Percent at hp
      rintro (h | ⟨u, h⟩)
      · cases h
      · cases h; omega
    · obtain ⟨p, r, hp, rfl⟩ := hw
      unfold Percent at hp
      rintro ⟨c, u, h, h'⟩
      cases h
      unfold NameFirst Letter at h'
      omega
  | cons n l ih =>
    obtain ⟨ih, g⟩ := ih fun m hm => hl m (by simp [hm])
    have hn := sym_at (hl n (by simp)) g
    rw [asSym_key] at hn
    rw [List.map_cons, List.flatMap_cons, List.append_assoc, List.cons_append]
    refine ⟨?_, ⟨32, _, rfl, .inl rfl⟩⟩
    have : ∃ y, Skips (l.flatMap (fun m => 32 :: m) ++ 10 :: rest) y ∧ NotNext Digit y ∧ ItemsAt (l.map fun m => (asSym m, none)) y w := by
      generalize (l.map fun m => (asSym m, (none : Option Nat))) = xs at ih ⊢
      cases ih with
      | nil _ _ h1 h2 h3 =>
        refine ⟨w, h1, ?_, .nil _ _ (skips_again h1) h2 h3⟩
        obtain ⟨p, r, hp, rfl⟩ := hw
        unfold Percent at hp
        intro c u e; cases e; unfold Digit; omega
      | sym x xs _ v y z _ h1 h2 h3 h4 h5 =>
        refine ⟨v, h1, ?_, .sym x xs _ v y z _ (skips_again h1) h2 h3 h4 h5⟩
        obtain ⟨c, r, rfl, hc⟩ := sym_first h2
        intro c u e; cases e; unfold NameFirst Letter at hc; unfold Digit; omega
      | num x n xs _ v y z y' _ h1 h2 h3 h4 h5 h6 =>
        refine ⟨v, h1, ?_, .num x n xs _ v y z y' _ (skips_again h1) h2 h3 h4 h5 h6⟩
        obtain ⟨c, r, rfl, hc⟩ := sym_first h2
        intro c u e; cases e; unfold NameFirst Letter at hc; unfold Digit; omega
    obtain ⟨y, h1, h2, h3⟩ := this
    exact .sym _ _ _ _ _ y _ (.blank 32 _ _ (by unfold Blank; omega) (sym_skips hn)) hn h1 h2 h3

/-- a keyword, white space, and names -/
theorem tokens_at {k : Kw} {a : Assoc} (hka : (k, a) ∈ declares) (l : List (List Nat)) (hne : l ≠ []) (hl : ∀ n ∈ l, Good (asSym n)) (t v rest z : List Nat) (ds : List Decl)
    (hk : KwAt k t v) (hv : Ws v (l.flatMap (fun m => 32 :: m) ++ 10 :: rest)) (h : DeclsAt ds rest z) (ht : Skips t t) :
    DeclsAt (.tokens a none (l.map fun m => (asSym m, none)) :: ds) t z := by
  obtain ⟨w, h1, h2, h3⟩ := declsAt_percent h
  obtain ⟨hi, -⟩ := items_at l hl rest w h1 h3
  refine .cons _ _ _ t w _ ht (.tokens k a none _ t v w hk hka ?_) h2
  cases l with
  | nil => exact absurd rfl hne
  | cons n l =>
    cases hi with
    | sym x xs _ u y z _ h1 h2 h3 h4 h5 =>
      refine ⟨u, hv _ h1, ?_, .inl ⟨rfl, ?_, .sym _ _ _ u _ _ _ (skips_again h1) h2 h3 h4 h5⟩⟩
      · obtain ⟨c, r, rfl, hc⟩ := sym_first h2
        rintro (h | ⟨u, h⟩)
        · cases h
        · cases h; unfold NameFirst Letter at hc; omega
      · obtain ⟨c, r, rfl, hc⟩ := sym_first h2
        intro c u e; cases e; unfold NameFirst Letter at hc; omega

theorem same_letters (w : List Nat) : List.Forall₂ SameLetter w w := List.forall₂_same.2 fun _ _ => .inl rfl

theorem kw_at {name : String} {k : Kw} (hk : (name, k) ∈ keywords) (r : List Nat) : KwAt k (37 :: (txt name ++ 32 :: r)) (32 :: r) := by
  refine ⟨37, txt name, .inl rfl, rfl, .inl ⟨name, hk, same_letters _, ?_⟩⟩
  intro c u e; cases e; unfold KwChar Letter Digit; omega

theorem skips_percent (r : List Nat) : Skips (37 :: r) (37 :: r) := .here _ (first_stops (by omega))

theorem tokDecls_at (l : List (List Nat)) (hl : ∀ n ∈ l, Good (asSym n)) (ds : List Decl) (rest z : List Nat) (h : DeclsAt ds rest z) :
    DeclsAt (l.map (fun n => .tokens .TOKEN none [(asSym n, none)]) ++ ds) (l.flatMap (fun n => txt "%token " ++ n ++ [10]) ++ rest) z := by
  induction l with
  | nil => exact h
  | cons n l ih =>
    have ih := ih fun m hm => hl m (by simp [hm])
    rw [List.map_cons, List.flatMap_cons, List.cons_append]
    have e : txt "%token " ++ n ++ [10] ++ l.flatMap (fun n => txt "%token " ++ n ++ [10]) ++ rest =
        37 :: (txt "token" ++ 32 :: (n ++ 10 :: (l.flatMap (fun n => txt "%token " ++ n ++ [10]) ++ rest))) := by
      rw [show txt "%token " = 37 :: (txt "token" ++ [32]) by decide]; simp
    rw [e]
    exact tokens_at (k := .TOKEN) (by decide) [n] (by simp) (by simpa using hl n (by simp)) _ (32 :: (n ++ 10 :: (l.flatMap (fun n => txt "%token " ++ n ++ [10]) ++ rest))) _ _ _
      (kw_at (name := "token") (by decide) _) (by simpa using Ws.refl _) ih (skips_percent _)

theorem level_at (us : List Use) (ts : List (List Nat)) (k : Nat) (hne : lvl us ts k ≠ []) (hg : ∀ n ∈ lvl us ts k, Good (asSym n))
    (hk : ∀ n ∈ lvl us ts k, kindOf us n ∈ [Assoc.LEFT, .RIGHT, .NONASSOC, .PRECEDENCE]) (ds : List Decl) (rest z : List Nat) (h : DeclsAt ds rest z) :
    DeclsAt (lvlDecl us ts k :: ds) (nLevel us ts k ++ rest) z := by
  unfold lvlDecl nLevel
  change DeclsAt _ ((match lvl us ts k with
    | [] => []
    | n :: ns => 37 :: (precName (kindOf us n)).getD [] ++ txt " /*" ++ decInt k ++ txt "*/" ++ (n :: ns).flatMap (fun m => 32 :: m) ++ [10]) ++ rest) z
  generalize lvl us ts k = l at hne hg hk
  cases l with
  | nil => exact absurd rfl hne
  | cons n ns =>
    have hn := hk n (by simp)
    have ha : ∃ name kw, precName (kindOf us n) = some (txt name) ∧ (name, kw) ∈ keywords ∧ (kw, kindOf us n) ∈ declares := by
      generalize kindOf us n = a at hn
      simp only [List.mem_cons, List.not_mem_nil, or_false] at hn
      rcases hn with rfl | rfl | rfl | rfl
      · exact ⟨"left", .LEFT, rfl, by decide, by decide⟩
      · exact ⟨"right", .RIGHT, rfl, by decide, by decide⟩
      · exact ⟨"nonassoc", .NONASSOC, rfl, by decide, by decide⟩
      · exact ⟨"precedence", .PRECEDENCE, rfl, by decide, by decide⟩
    obtain ⟨name, kw, h1, h2, h3⟩ := ha
    have e : 37 :: (precName (kindOf us n)).getD [] ++ txt " /*" ++ decInt k ++ txt "*/" ++ (n :: ns).flatMap (fun m => 32 :: m) ++ [10] ++ rest =
        37 :: (txt name ++ 32 :: (47 :: 42 :: (decInt k ++ 42 :: 47 :: ((n :: ns).flatMap (fun m => 32 :: m) ++ 10 :: rest)))) := by
      rw [h1, show txt " /*" = [32, 47, 42] by decide, show txt "*/" = [42, 47] by decide]; simp
    simp only
    rw [e]
    refine tokens_at h3 (n :: ns) (by simp) hg _ _ rest z ds (kw_at h2 _) ?_ h (skips_percent _)
    exact (Ws.blank (by unfold Blank; omega) _).trans (Ws.comment (decInt_no k (by omega)).1 _)

theorem levels_at (us : List Use) (ts : List (List Nat)) (ks : List Nat) (hg : ∀ k ∈ ks, ∀ n ∈ lvl us ts k, Good (asSym n))
    (hk : ∀ k ∈ ks, ∀ n ∈ lvl us ts k, kindOf us n ∈ [Assoc.LEFT, .RIGHT, .NONASSOC, .PRECEDENCE]) (ds : List Decl) (rest z : List Nat) (h : DeclsAt ds rest z) :
    DeclsAt ((ks.filter fun k => decide (lvl us ts k ≠ [])).map (lvlDecl us ts) ++ ds) (ks.flatMap (nLevel us ts) ++ rest) z := by
  induction ks with
  | nil => exact h
  | cons k ks ih =>
    have ih := ih (fun j hj => hg j (by simp [hj])) (fun j hj => hk j (by simp [hj]))
    rw [List.flatMap_cons, List.append_assoc]
    by_cases hne : lvl us ts k ≠ []
    · rw [List.filter_cons_of_pos (by simpa using hne), List.map_cons, List.cons_append]
      exact level_at us ts k hne (hg k (by simp)) (hk k (by simp)) _ _ _ ih
    · rw [List.filter_cons_of_neg (by simpa using hne)]
      have : nLevel us ts k = [] := by
        have hne : lvl us ts k = [] := by simpa using hne
        unfold nLevel
        change (match lvl us ts k with | [] => [] | _ :: _ => _) = _
        rw [hne]
      rw [this]; exact ih

theorem start_at {g : List Nat} (hg : Good (.name g)) (t : List Nat) :
    DeclsAt [.start g] (txt "\n%start " ++ g ++ [10] ++ txt "\n%%\n\n" ++ t) (10 :: 10 :: t) := by
  have e : txt "\n%start " ++ g ++ [10] ++ txt "\n%%\n\n" ++ t = 10 :: 37 :: (txt "start" ++ 32 :: (g ++ 10 :: 10 :: 37 :: 37 :: 10 :: 10 :: t)) := by
    rw [show txt "\n%start " = 10 :: 37 :: (txt "start" ++ [32]) by decide, show txt "\n%%\n\n" = [10, 37, 37, 10, 10] by decide]; simp
  rw [e]
  have hs := sym_at hg (u := 10 :: 10 :: 37 :: 37 :: 10 :: 10 :: t) ⟨10, _, rfl, .inr rfl⟩
  refine .cons _ _ _ _ _ _ (.blank 10 _ _ (by unfold Blank; omega) (skips_percent _)) (.start g _ _ _ _ (kw_at (by decide) _) (.blank 32 _ _ (by unfold Blank; omega) (sym_skips hs)) hs) ?_
  refine .done _ _ _ (.blank 10 _ _ (by unfold Blank; omega) (.blank 10 _ _ (by unfold Blank; omega) (skips_percent _))) ?_
  exact ⟨37, [37], .inl rfl, rfl, .inr ⟨37, rfl, by decide⟩⟩

theorem altsFrom_first (toks : List RTok) : ∀ (l : Sym) (a : List El), ∃ r as, altsFrom l a toks = ⟨l, r⟩ :: as := by
  induction toks with
  | nil => intro l a; exact ⟨a, [], rfl⟩
  | cons x ts ih =>
    intro l a
    cases x with
    | sym x => exact ih l _
    | action b ps => exact ih l _
    | prec x => exact ih l _
    | bar => exact ⟨a, _, rfl⟩
    | lhs y => exact ⟨a, _, rfl⟩

theorem naked_fileAt (F : File) (hT : ∀ n ∈ tokenNames F.uses, Good (asSym n)) (hg : Good (.name F.goal)) (hA : ∀ a ∈ F.alts, GoodAlt a)
    (hd : dollar F.first = false)
    (hk : ∀ n ∈ tokenNames F.uses, levelOf F.uses n ≠ 0 → kindOf F.uses n ∈ [Assoc.LEFT, .RIGHT, .NONASSOC, .PRECEDENCE]) :
    FileAt (nakedFile F) (nTokens (tokenNames F.uses) ++ (List.range' 1 (levels F.all)).flatMap (nLevel F.uses (tokenNames F.uses)) ++ txt "\n%start " ++ F.goal ++ [10] ++
      txt "\n%%\n\n" ++ (nAlts F.uses 3 (txt "$accept") F.alts ++ txt "\t;\n")) := by
  obtain ⟨r, as, he⟩ := altsFrom_first F.toks (.name F.first) []
  have he : F.alts = ⟨.name F.first, r⟩ :: as := he
  have h1 : toksFrom (txt "$accept") F.alts = .lhs (.name F.first) :: (nakedFile F).toks := by
    unfold nakedFile
    rw [he, toksFrom, if_neg]
    · rfl
    · rintro ⟨-, h⟩
      change F.first = txt "$accept" at h
      rw [h] at hd
      revert hd; decide
  have h2 := alts_rtoks F.uses F.alts hA 3 (txt "$accept")
  rw [h1] at h2
  generalize nAlts F.uses 3 (txt "$accept") F.alts ++ txt "\t;\n" = T at h2
  cases h2 with
  | cons x xs _ u v h2 h3 h4 =>
    cases h3 with
    | lhs x _ v' _ h5 h6 =>
      refine ⟨10 :: 10 :: T, u, v, ?_, .done _ _ (.blank 10 _ _ (by unfold Blank; omega) (.blank 10 _ _ (by unfold Blank; omega) h2)) ?_, ⟨v', h5, ?_, h6⟩, h4⟩
      · have := start_at hg T
        have := levels_at F.uses (tokenNames F.uses) (List.range' 1 (levels F.all)) (fun k _ n hn => hT n (List.mem_filter.1 hn).1)
          (fun k hk' n hn => by
            have h1 := List.mem_filter.1 hn
            refine hk n h1.1 ?_
            have h2 : levelOf F.uses n = k := by simpa using h1.2
            have := List.mem_range'_1.1 hk'
            omega) _ _ _ this
        have := tokDecls_at ((tokenNames F.uses).filter fun n => decide (n ≠ txt "error")) (fun n hn => hT n (List.mem_filter.1 hn).1) _ _ _
          (this.ws (Ws.blank (c := 10) (by unfold Blank; omega) _))
        unfold nTokens
        simpa [nakedFile, tokDecls, lvlsOf] using this
      · obtain ⟨c, r, rfl, hc⟩ := sym_first h5
        intro d z e
        cases e
        unfold NameFirst Letter at hc
        unfold Percent
        omega
      · intro c z e
        obtain ⟨⟨h7, -, -, -⟩, -⟩ := h5
        rintro rfl
        rw [h7] at e
        obtain ⟨⟨-, -, ⟨c, q, h8, -⟩, -⟩, -⟩ := (hA ⟨.name F.first, r⟩ (by rw [he]; simp)).1.1.choose_spec.choose_spec
        change F.first = c :: q at h8
        rw [h8] at e hd
        cases e
        revert hd
        simp [dollar]

end Verif.Byacc.Rd
