import Verif.Proofs.ToLemonFile
/-
Auxiliary facts: what the grammar file that byacc writes for lemon says.
-/
set_option autoImplicit false
namespace Verif.Byacc.Rd
open Spec Spec.YText ToLemon
open Spec.GFile (Item)
open Classical

section
variable {F : File} {t : List Nat} {tok nt : List Nat → List Nat}

/-! The file is valid -/

def ValidFrom (o : GFile.Opts) : List Item → List Item → Prop
  | _, [] => True
  | pre, it :: post => (it.Form ∧ it.Allowed o pre) ∧ ValidFrom o (pre ++ [it]) post

theorem validFrom_append (o : GFile.Opts) (a b : List Item) : ∀ pre, ValidFrom o pre (a ++ b) ↔ ValidFrom o pre a ∧ ValidFrom o (pre ++ a) b := by
  induction a with
  | nil => intro pre; simp [ValidFrom]
  | cons x a ih => intro pre; rw [List.cons_append, ValidFrom, ValidFrom, ih, List.append_assoc, List.singleton_append]; simp only [and_assoc]

theorem valid_of_from {o : GFile.Opts} {items : List Item} (h : ValidFrom o [] items) : GFile.Valid o items := by
  rintro pre it post rfl
  have := ((validFrom_append o pre _ []).1 h).2
  exact this.1

theorem validFrom_all (o : GFile.Opts) (l : List Item) (h : ∀ it ∈ l, it.Form ∧ ∀ pre, it.Allowed o pre) : ∀ pre, ValidFrom o pre l := by
  induction l with
  | nil => intro pre; trivial
  | cons x l ih => intro pre; exact ⟨⟨(h x (by simp)).1, (h x (by simp)).2 pre⟩, ih (fun y hy => h y (by simp [hy])) _⟩

theorem lprecOf_none (o : GFile.Opts) (items : List Item) (X : List Nat) (h : ∀ a Xs, Item.prec a Xs ∈ items → X ∉ Xs) : GFile.precOf o items X = none := by
  unfold GFile.precOf
  split
  · rfl
  · rw [List.findSome?_eq_none_iff]
    rintro ⟨⟨a, Xs⟩, i⟩ hd
    have h1 : (a, Xs) ∈ GFile.precs items := (List.mem_zipIdx_iff_getElem?.1 hd |> List.mem_of_getElem?)
    unfold GFile.precs at h1
    obtain ⟨it, hi, he⟩ := List.mem_filterMap.1 h1
    cases it with
    | prec b Ys =>
      cases he
      rw [if_neg (h _ _ hi)]
    | _ => cases he

theorem valid_levels (h : Nk F t) (hk : Lk F tok nt) (o : GFile.Opts) (ks : List Nat) : ks.Pairwise (· < ·) → (∀ k ∈ ks, 1 ≤ k ∧ lvl F.uses (tokenNames F.uses) k ≠ []) →
    ∀ pre, (∀ a Xs, Item.prec a Xs ∈ pre → ∀ X ∈ Xs, ∃ n ∈ tokenNames F.uses, X = tok n ∧ ∀ k ∈ ks, levelOf F.uses n < k) →
    ValidFrom o pre (ks.map fun k => .prec (precItem F tok k).1 (precItem F tok k).2) := by
  induction ks with
  | nil => intros; trivial
  | cons k ks ih =>
    intro hs hp pre hpre
    obtain ⟨s1, s2⟩ := List.pairwise_cons.1 hs
    obtain ⟨hk1, hne⟩ := hp k (by simp)
    rw [List.map_cons, ValidFrom]
    have hlv : ∀ X ∈ (precItem F tok k).2, ∃ n ∈ tokenNames F.uses, X = tok n ∧ levelOf F.uses n = k := by
      intro X hX
      obtain ⟨n, hn, rfl⟩ := List.mem_map.1 hX
      obtain ⟨a, b⟩ := List.mem_filter.1 hn
      exact ⟨n, a, rfl, by simpa using b⟩
    refine ⟨⟨⟨?_, ?_⟩, ?_⟩, ?_⟩
    · cases hl : lvl F.uses (tokenNames F.uses) k with
      | nil => exact absurd hl hne
      | cons n ns =>
        have hn : n ∈ lvl F.uses (tokenNames F.uses) k := by rw [hl]; simp
        obtain ⟨hT, a, ha, hna⟩ := h.level hk1 hn
        unfold precItem
        rw [h.lvlKind hk1 hn ha]
        revert hna
        cases a <;> simp [lemonAssoc]
    · intro X hX
      obtain ⟨n, hn, rfl, -⟩ := hlv X hX
      exact (hk.names.tokOk n hn).1
    · intro _
      refine ⟨?_, ?_⟩
      · unfold precItem
        refine List.Nodup.map_on ?_ ((tokenNames_nodup F.uses).filter _)
        intro n hn m hm e
        exact hk.names.tokInj n (List.mem_filter.1 hn).1 m (List.mem_filter.1 hm).1 e
      · intro X hX
        obtain ⟨n, hn, rfl, hl⟩ := hlv X hX
        refine lprecOf_none _ _ _ fun a Xs hi hm => ?_
        obtain ⟨m, hm, e, hlt⟩ := hpre a Xs hi _ hm
        have := hk.names.tokInj n hn m hm e
        subst this
        have := hlt k (by simp)
        omega
    · refine ih s2 (fun j hj => hp j (by simp [hj])) _ ?_
      intro a Xs hi X hX
      rcases List.mem_append.1 hi with hi | hi
      · obtain ⟨n, hn, e, hlt⟩ := hpre a Xs hi X hX
        exact ⟨n, hn, e, fun j hj => hlt j (by simp [hj])⟩
      · cases List.mem_singleton.1 hi
        obtain ⟨n, hn, e, hl⟩ := hlv X hX
        refine ⟨n, hn, e, fun j hj => ?_⟩
        have := s1 j hj
        omega

theorem Nk.symOk (h : Nk F t) (hk : Lk F tok nt) {n : List Nat} (hn : n ∈ YText.names F.uses) (hh : ¬ Hid n) :
    (Terminal F.uses n ∧ n ∈ tokenNames F.uses ∧ GFile.Upper (lemonSymbol F tok nt n)) ∨ (IsLhs F.uses n ∧ ¬ Terminal F.uses n ∧ GFile.Lower (lemonSymbol F tok nt n)) := by
  unfold lemonSymbol
  by_cases ht : Terminal F.uses n
  · have hT : n ∈ tokenNames F.uses := List.mem_filter.2 ⟨hn, by simpa using ht⟩
    rw [if_pos ht]
    exact .inl ⟨ht, hT, (hk.names.tokOk n hT).1⟩
  · have hl : IsLhs F.uses n := by
      by_contra hc
      refine ht ⟨hc, ?_⟩
      by_contra hc2
      exact hh (hiddenOf_some hc2)
    rw [if_neg ht]
    exact .inr ⟨hl, ht, (hk.names.ntOk n hl).1⟩

/-- the symbols of a rule -/
theorem Nk.symsOk (h : Nk F t) {a : Alt} (ha : a ∈ F.alts) {n : List Nat} (hn : n ∈ YText.symsOf a.rhs) : n ∈ YText.names F.uses ∧ ¬ Hid n := by
  unfold YText.symsOf at hn
  obtain ⟨e, he, hx⟩ := List.mem_filterMap.1 hn
  cases e with
  | sym x =>
    cases hx
    exact ⟨(file_keys F a ha).2 x (.inl he), (file_alts h.at_ a ha).2.2 x he⟩
  | _ => cases hx

theorem sinceRule_rule (pre : List Item) (it : Item) (hi : it.isRule = true) : GFile.sinceRule (pre ++ [it]) = [] := by
  unfold GFile.sinceRule
  simp [hi]

theorem valid_rules (h : Nk F t) (hk : Lk F tok nt) (hfit : FitsLemon F) (o : GFile.Opts) (al : List (Alt × Nat)) : (∀ p ∈ al, p.1 ∈ F.alts) →
    ∀ pre, ValidFrom o pre (al.flatMap fun p => ruleItems F tok nt p.1 p.2) := by
  induction al with
  | nil => intros; trivial
  | cons p al ih =>
    intro hal pre
    have ha := hal p (by simp)
    rw [List.flatMap_cons, validFrom_append]
    refine ⟨?_, ih (fun q hq => hal q (by simp [hq])) _⟩
    unfold ruleItems
    refine ⟨⟨⟨?_, by simp, ?_⟩, ?_, ?_⟩, ?_⟩
    · exact (hk.names.ntOk _ (file_alts h.at_ _ ha).1).1
    · intro e he
      obtain ⟨n, hn, rfl⟩ := List.mem_map.1 he
      refine ⟨?_, by simp⟩
      obtain ⟨h1, h2⟩ := h.symsOk ha hn
      rcases h.symOk hk h1 h2 with h | h
      · exact .inl h.2.2
      · exact .inr h.2.2
    · rw [List.length_map]; exact hfit.size _ ha
    · intro e he
      obtain ⟨n, hn, rfl⟩ := List.mem_map.1 he
      intro hc
      exact absurd rfl hc
    · cases hp : precNamed p.1.rhs with
      | none => trivial
      | some x =>
        refine ⟨⟨?_, ⟨.rule (nt p.1.lhs.key) none ((YText.symsOf p.1.rhs).map fun n => ⟨lemonSymbol F tok nt n, []⟩) p.2, by simp, rfl⟩, fun _ => ?_⟩, trivial⟩
        · exact (hk.names.tokOk _ (Nk.precToken hfit ha hp)).1
        · rw [sinceRule_rule _ _ rfl]; rfl

theorem lower_not {x : List Nat} (h : GFile.Lower x) : x.head? ≠ some 34 ∧ x.head? ≠ some 123 := by
  obtain ⟨c, t, rfl, h1, h2⟩ := h
  constructor <;> · intro e; simp at e; omega

theorem items_valid (h : Nk F t) (hk : Lk F tok nt) (hfit : FitsLemon F) (o : GFile.Opts) (l0 : Nat) (al : List (Alt × Nat)) (hal : al.map Prod.fst = F.alts) :
    GFile.Valid o (lemonItems F tok nt l0 al) := by
  refine valid_of_from ?_
  unfold lemonItems
  rw [validFrom_append, validFrom_append, validFrom_append]
  refine ⟨⟨⟨?_, ?_⟩, ?_⟩, ?_⟩
  · refine validFrom_all _ _ ?_ _
    intro it hi
    obtain ⟨n, hn, rfl⟩ := List.mem_map.1 hi
    refine ⟨?_, fun _ => trivial⟩
    intro X hX
    rcases List.mem_singleton.1 hX with rfl
    exact (hk.names.tokOk n (List.mem_filter.1 hn).1).1
  · refine valid_levels h hk o (lvlsIn F) (lvls_sorted _ _ _) (fun k hk => ?_) _ ?_
    · have := mem_lvls.1 hk
      exact ⟨this.1.1, this.2⟩
    · intro a Xs hi
      obtain ⟨n, -, e⟩ := List.mem_map.1 (show _ ∈ tokItems F tok from by simpa using hi)
      cases e
  · refine ⟨⟨⟨by decide, .inl (.inr (hk.names.ntOk _ h.goal).1)⟩, trivial⟩, trivial⟩
  · refine valid_rules h hk hfit o al ?_ _
    intro p hp
    rw [← hal]
    exact List.mem_map_of_mem hp

/-! What it says -/

theorem parts_noRule (A B : List Item) (h : ∀ it ∈ A, it.isRule = false) : GFile.parts (A ++ B) = GFile.parts B := by
  induction A with
  | nil => rfl
  | cons x A ih =>
    rw [List.cons_append, GFile.parts, if_neg (by simp [h x (by simp)]), ih fun y hy => h y (by simp [hy])]

theorem parts_rules (al : List (Alt × Nat)) : List.Forall₂ (LemonRule F tok nt) (al.map Prod.fst) (GFile.parts (al.flatMap fun p => ruleItems F tok nt p.1 p.2)) := by
  induction al with
  | nil => exact .nil
  | cons p al ih =>
    rw [List.flatMap_cons, List.map_cons]
    unfold ruleItems
    have hm : ∀ it ∈ ((precNamed p.1.rhs).toList.map fun x => Item.mark (tok x.key)), it.isRule = false := by
      intro it hi
      obtain ⟨x, -, rfl⟩ := List.mem_map.1 hi
      rfl
    rw [List.cons_append, GFile.parts, if_pos (show Item.isRule (Item.rule _ _ _ _) = true from rfl), parts_noRule _ _ hm]
    refine .cons ⟨⟨p.2, rfl⟩, ?_⟩ ih
    have : ∀ B : List Item, (B = [] ∨ ∃ x y, B = x :: y ∧ x.isRule = true) → ∀ A : List Item, (∀ it ∈ A, it.isRule = false) → (A ++ B).takeWhile (fun i => !i.isRule) = A := by
      intro B hB A
      induction A with
      | nil =>
        intro _
        rcases hB with rfl | ⟨x, y, rfl, hx⟩
        · rfl
        · rw [List.nil_append, List.takeWhile_cons, if_neg (by simp [hx])]
      | cons x A ih =>
        intro hA
        rw [List.cons_append, List.takeWhile_cons, if_pos (by simp [hA x (by simp)]), ih fun y hy => hA y (by simp [hy])]
    refine this _ ?_ _ hm
    cases al with
    | nil => exact .inl rfl
    | cons q al => exact .inr ⟨_, _, rfl, rfl⟩

theorem items_noRule {it : Item} (l0 : Nat) (hi : it ∈ tokItems F tok ++ precItems F tok ++ [.arg "start_symbol" (nt F.goal) l0]) : it.isRule = false := by
  rcases List.mem_append.1 hi with hi | hi
  · rcases List.mem_append.1 hi with hi | hi <;>
    · obtain ⟨n, -, rfl⟩ := List.mem_map.1 hi; rfl
  · rcases List.mem_singleton.1 hi with rfl; rfl

theorem findLevel (ks : List Nat) (f : Nat → Lemon.Assoc × List (List Nat)) (X : List Nat) (k : Nat) (hX : ∀ j ∈ ks, X ∈ (f j).2 ↔ j = k) : k ∈ ks → ∀ s,
    ((ks.map f).zipIdx s).findSome? (fun d => if X ∈ d.1.2 then some (d.2 + 1, d.1.1) else none) = some (s + ks.idxOf k + 1, (f k).1) := by
  induction ks with
  | nil => intro h; cases h
  | cons j ks ih =>
    intro hk s
    rw [List.map_cons, List.zipIdx_cons, List.findSome?_cons]
    by_cases e : j = k
    · subst e
      rw [if_pos ((hX j (by simp)).2 rfl), List.idxOf_cons_self]
    · rw [if_neg (fun c => e ((hX j (by simp)).1 c)), List.idxOf_cons_ne _ e]
      dsimp only
      rw [ih (fun i hi => hX i (by simp [hi])) (by rcases List.mem_cons.1 hk with h | h; exacts [absurd h.symm e, h])]
      congr 2 <;> omega

theorem precs_append (a b : List Item) : GFile.precs (a ++ b) = GFile.precs a ++ GFile.precs b := by
  unfold GFile.precs; rw [List.filterMap_append]

theorem precs_none (l : List Item) (h : ∀ a Xs, Item.prec a Xs ∉ l) : GFile.precs l = [] := by
  unfold GFile.precs
  rw [List.filterMap_eq_nil_iff]
  intro it hi
  cases it with
  | prec a Xs => exact absurd hi (h a Xs)
  | _ => rfl

theorem precs_items (l0 : Nat) (al : List (Alt × Nat)) : GFile.precs (lemonItems F tok nt l0 al) = (lvlsIn F).map (precItem F tok) := by
  unfold lemonItems
  rw [precs_append, precs_append, precs_append]
  have e1 : GFile.precs (tokItems F tok) = [] := precs_none _ fun a Xs hi => by
    obtain ⟨n, -, e⟩ := List.mem_map.1 hi; cases e
  have e2 : GFile.precs (al.flatMap fun p => ruleItems F tok nt p.1 p.2) = [] := precs_none _ fun a Xs hi => by
    obtain ⟨p, -, hi⟩ := List.mem_flatMap.1 hi
    unfold ruleItems at hi
    rcases List.mem_cons.1 hi with hi | hi
    · cases hi
    · obtain ⟨n, -, e⟩ := List.mem_map.1 hi; cases e
  have e3 : GFile.precs (precItems F tok) = (lvlsIn F).map (precItem F tok) := by
    unfold precItems GFile.precs
    rw [List.filterMap_map]
    exact List.filterMap_eq_map' ▸ rfl
  rw [e1, e2, e3]
  simp [GFile.precs]

theorem items_prec (h : Nk F t) (hk : Lk F tok nt) (o : GFile.Opts) (ho : o.ignorePrec = false) (l0 : Nat) (al : List (Alt × Nat)) {n : List Nat} (hn : n ∈ tokenNames F.uses) :
    GFile.precOf o (lemonItems F tok nt l0 al) (tok n) = (Spec.YText.precOf F.uses n).map fun p => ((lvlsIn F).idxOf p.1 + 1, lemonAssoc p.2) := by
  unfold GFile.precOf
  rw [if_neg (by simp [ho]), precs_items]
  have hmem : ∀ j, tok n ∈ (precItem F tok j).2 ↔ levelOf F.uses n = j := by
    intro j
    unfold precItem
    constructor
    · intro hm
      obtain ⟨m, hm, e⟩ := List.mem_map.1 hm
      obtain ⟨a, b⟩ := List.mem_filter.1 hm
      have := hk.names.tokInj m a n hn e
      subst this
      simpa using b
    · intro e
      exact List.mem_map_of_mem (List.mem_filter.2 ⟨hn, by simpa using e⟩)
  cases hp : Spec.YText.precOf F.uses n with
  | none =>
    have h0 : levelOf F.uses n = 0 := by unfold levelOf; rw [hp]; rfl
    rw [Option.map_none, List.findSome?_eq_none_iff]
    rintro ⟨d, i⟩ hd
    have h1 := List.mem_of_getElem? (List.mem_zipIdx_iff_getElem?.1 hd)
    obtain ⟨k, hk', rfl⟩ := List.mem_map.1 h1
    have := (mem_lvls.1 hk').1.1
    rw [if_neg]
    rw [hmem, h0]
    omega
  | some p =>
    obtain ⟨k, a⟩ := p
    obtain ⟨h1, h2⟩ := h.token_of_prec hp
    have hlv : levelOf F.uses n = k := by unfold levelOf; rw [hp]; rfl
    have hX : ∀ j ∈ lvlsIn F, tok n ∈ (precItem F tok j).2 ↔ j = k := by
      intro j _
      rw [hmem, hlv]
      omega
    have := findLevel (lvlsIn F) (precItem F tok) (tok n) k hX h2 0
    rw [this, Option.map_some]
    have hkd : (precItem F tok k).1 = lemonAssoc a := by
      unfold precItem
      rw [h.lvlKind (mem_lvls.1 h2).1.1 h1 hp]
    rw [hkd, Nat.zero_add]

theorem items_start (h : Nk F t) (hk : Lk F tok nt) (o : GFile.Opts) (l0 : Nat) (al : List (Alt × Nat)) :
    GFile.startSymbol o (lemonItems F tok nt l0 al) = some (nt F.goal) := by
  have ha : GFile.argsOf (lemonItems F tok nt l0 al) "start_symbol" = [(l0, nt F.goal)] := by
    have n0 : ∀ a b : List Item, GFile.argsOf (a ++ b) "start_symbol" = GFile.argsOf a "start_symbol" ++ GFile.argsOf b "start_symbol" := by
      intro a b
      unfold GFile.argsOf
      rw [List.filterMap_append]
    unfold lemonItems
    rw [n0, n0, n0]
    have n1 : ∀ (l : List Item), (∀ it ∈ l, (match it with | .arg _ _ _ => False | _ => True)) → GFile.argsOf l "start_symbol" = [] := by
      intro l hl
      unfold GFile.argsOf
      rw [List.filterMap_eq_nil_iff]
      intro it hi
      have := hl it hi
      cases it <;> first | rfl | exact absurd this id
    rw [n1 (tokItems F tok), n1 (precItems F tok), n1 (al.flatMap fun p => ruleItems F tok nt p.1 p.2)]
    · simp [GFile.argsOf]
    · intro it hi
      obtain ⟨p, -, hi⟩ := List.mem_flatMap.1 hi
      unfold ruleItems at hi
      rcases List.mem_cons.1 hi with rfl | hi
      · trivial
      · obtain ⟨n, -, rfl⟩ := List.mem_map.1 hi; trivial
    · intro it hi
      obtain ⟨n, -, rfl⟩ := List.mem_map.1 hi; trivial
    · intro it hi
      obtain ⟨n, -, rfl⟩ := List.mem_map.1 hi; trivial
  unfold GFile.startSymbol GFile.argOf
  rw [ha, if_neg (by simp)]
  obtain ⟨k1, k2⟩ := lower_not (hk.names.ntOk _ h.goal).1
  simp [GFile.addText, GFile.body, k1, k2]

theorem items_lemonOf (h : Nk F t) (hk : Lk F tok nt) (o : GFile.Opts) (l0 : Nat) (al : List (Alt × Nat)) (hal : al.map Prod.fst = F.alts) :
    LemonOf o F tok nt (lemonItems F tok nt l0 al) where
  start := items_start h hk o l0 al
  rules := by
    unfold lemonItems
    rw [parts_noRule _ _ fun it hi => items_noRule l0 hi, ← hal]
    exact parts_rules al
  kind := by
    intro ho n hn
    rw [items_prec h hk o ho l0 al hn, Option.map_map]
    rfl
  order := by
    intro n hn m hm p q hp hq
    have ho : o.ignorePrec = false := by
      cases hc : o.ignorePrec with
      | false => rfl
      | true => unfold GFile.precOf at hp; rw [if_pos hc] at hp; cases hp
    rw [items_prec h hk o ho l0 al hn, Option.map_eq_some_iff] at hp
    rw [items_prec h hk o ho l0 al hm, Option.map_eq_some_iff] at hq
    obtain ⟨⟨j, a⟩, hp, rfl⟩ := hp
    obtain ⟨⟨k, b⟩, hq, rfl⟩ := hq
    have := idxOf_lt (lvls_sorted F.uses (tokenNames F.uses) (levels F.all)) (h.token_of_prec hp).2 (h.token_of_prec hq).2
    unfold levelOf
    rw [hp, hq]
    unfold lvlsIn
    simp only [Option.elim_some]
    omega
  other := by
    intro it hi
    unfold lemonItems at hi
    rcases List.mem_append.1 hi with hi | hi
    · rcases List.mem_append.1 hi with hi | hi
      · rcases List.mem_append.1 hi with hi | hi <;>
        · obtain ⟨n, -, rfl⟩ := List.mem_map.1 hi; trivial
      · rcases List.mem_singleton.1 hi with rfl; rfl
    · obtain ⟨p, -, hi⟩ := List.mem_flatMap.1 hi
      unfold ruleItems at hi
      rcases List.mem_cons.1 hi with rfl | hi
      · trivial
      · obtain ⟨n, -, rfl⟩ := List.mem_map.1 hi; trivial

/-! The language -/

theorem items_rule {l0 : Nat} {al : List (Alt × Nat)} {l : List Nat} {a : Option (List Nat)} {rhs : List GFile.Elem} {line : Nat}
    (hr : Item.rule l a rhs line ∈ lemonItems F tok nt l0 al) :
    ∃ p ∈ al, l = nt p.1.lhs.key ∧ rhs = (YText.symsOf p.1.rhs).map fun n => ⟨lemonSymbol F tok nt n, []⟩ := by
  unfold lemonItems at hr
  rcases List.mem_append.1 hr with hr | hr
  · have := items_noRule l0 hr
    cases this
  · obtain ⟨p, hp, hi⟩ := List.mem_flatMap.1 hr
    unfold ruleItems at hi
    rcases List.mem_cons.1 hi with hi | hi
    · cases hi
      exact ⟨p, hp, rfl, rfl⟩
    · obtain ⟨n, -, e⟩ := List.mem_map.1 hi; cases e

theorem items_noClass (l0 : Nat) (al : List (Alt × Nat)) (c : List Nat) : GFile.isClass (lemonItems F tok nt l0 al) c = false := by
  unfold GFile.isClass
  rw [List.any_eq_false]
  intro it hi
  unfold lemonItems at hi
  rcases List.mem_append.1 hi with hi | hi
  · rcases List.mem_append.1 hi with hi | hi
    · rcases List.mem_append.1 hi with hi | hi <;>
      · obtain ⟨n, -, rfl⟩ := List.mem_map.1 hi; simp
    · rcases List.mem_singleton.1 hi with rfl; simp
  · obtain ⟨p, -, hi⟩ := List.mem_flatMap.1 hi
    unfold ruleItems at hi
    rcases List.mem_cons.1 hi with rfl | hi
    · simp
    · obtain ⟨n, -, rfl⟩ := List.mem_map.1 hi; simp

theorem upper_lower {x : List Nat} (h : GFile.Upper x) (h' : GFile.Lower x) : False := by
  obtain ⟨c, t, rfl, h1, h2⟩ := h
  obtain ⟨d, u, e, h3, h4⟩ := h'
  cases e
  omega

theorem stands_to (h : Nk F t) (hk : Lk F tok nt) (l0 : Nat) (al : List (Alt × Nat)) (hal : al.map Prod.fst = F.alts) {β w : List (List Nat)} (hs : Stands F β w) :
    (∀ n ∈ β, n ∈ YText.names F.uses ∧ ¬ Hid n) → GFile.Stands (lemonItems F tok nt l0 al) (β.map fun n => ⟨lemonSymbol F tok nt n, []⟩) (w.map tok) := by
  induction hs with
  | nil => intro _; exact .nil
  | token n β w ht _ ih =>
    intro hβ
    obtain ⟨h1, h2⟩ := hβ n (by simp)
    have hT : n ∈ tokenNames F.uses := List.mem_filter.2 ⟨h1, by simpa using ht⟩
    have e : lemonSymbol F tok nt n = tok n := if_pos ht
    rw [List.map_cons, List.map_cons]
    refine .token (e := ⟨lemonSymbol F tok nt n, []⟩) ?_ ?_ (ih fun m hm => hβ m (by simp [hm]))
    · rw [e]; exact (hk.names.tokOk n hT).1
    · rw [e]; simp
  | rule a β w w' ha _ _ ih1 ih2 =>
    intro hβ
    rw [List.map_cons, List.map_append]
    have hl := (file_alts h.at_ a ha).1
    have e : lemonSymbol F tok nt a.lhs.key = nt a.lhs.key := if_neg fun ht => ht.1 hl
    rw [← hal] at ha
    obtain ⟨p, hp, rfl⟩ := List.mem_map.1 ha
    refine .rule (e := ⟨lemonSymbol F tok nt p.1.lhs.key, []⟩) (a := none) (line := p.2) ?_ (ih1 ?_) (ih2 fun m hm => hβ m (by simp [hm]))
    · rw [e]
      unfold lemonItems
      exact List.mem_append_right _ (List.mem_flatMap.2 ⟨p, hp, by unfold ruleItems; simp⟩)
    · intro n hn
      rw [hal] at ha
      exact h.symsOk ha hn

theorem stands_from (h : Nk F t) (hk : Lk F tok nt) (l0 : Nat) (al : List (Alt × Nat)) (hal : al.map Prod.fst = F.alts) {es : List GFile.Elem} {v : List (List Nat)}
    (hs : GFile.Stands (lemonItems F tok nt l0 al) es v) : ∀ β : List (List Nat), es = β.map (fun n => ⟨lemonSymbol F tok nt n, []⟩) → (∀ n ∈ β, n ∈ YText.names F.uses ∧ ¬ Hid n) →
      ∃ w, v = w.map tok ∧ Stands F β w := by
  induction hs with
  | nil =>
    intro β e _
    cases β with
    | nil => exact ⟨[], rfl, .nil⟩
    | cons n β => cases e
  | token he hX _ ih =>
    intro β e hβ
    cases β with
    | nil => cases e
    | cons n β =>
      rw [List.map_cons, List.cons.injEq] at e
      obtain ⟨rfl, rfl⟩ := e
      obtain ⟨w, rfl, hw⟩ := ih β rfl fun m hm => hβ m (by simp [hm])
      obtain ⟨h1, h2⟩ := hβ n (by simp)
      rcases h.symOk hk h1 h2 with ⟨ht, -, -⟩ | ⟨-, -, hl⟩
      · have hX' := List.mem_singleton.1 (show _ ∈ [lemonSymbol F tok nt n] from hX)
        refine ⟨n :: w, ?_, .token n β w ht hw⟩
        rw [hX', List.map_cons, show lemonSymbol F tok nt n = tok n from if_pos ht]
      · exact (upper_lower he hl).elim
  | cls he _ _ _ => rw [items_noClass] at he; cases he
  | rule hr _ _ ih1 ih2 =>
    intro β e hβ
    cases β with
    | nil => cases e
    | cons n β =>
      rw [List.map_cons, List.cons.injEq] at e
      obtain ⟨rfl, rfl⟩ := e
      obtain ⟨p, hp, e1, e2⟩ := items_rule hr
      have ha : p.1 ∈ F.alts := by rw [← hal]; exact List.mem_map_of_mem hp
      have hl := (file_alts h.at_ _ ha).1
      obtain ⟨w, rfl, hw⟩ := ih1 _ e2 fun m hm => h.symsOk ha hm
      obtain ⟨w', rfl, hw'⟩ := ih2 β rfl fun m hm => hβ m (by simp [hm])
      obtain ⟨h1, h2⟩ := hβ n (by simp)
      have hn : n = p.1.lhs.key := by
        change lemonSymbol F tok nt n = _ at e1
        rcases h.symOk hk h1 h2 with ⟨-, -, hu⟩ | ⟨hn, ht, -⟩
        · rw [e1] at hu
          exact (upper_lower hu (hk.names.ntOk _ hl).1).elim
        · unfold lemonSymbol at e1
          rw [if_neg ht] at e1
          exact hk.names.ntInj _ _ hn hl e1
      subst hn
      exact ⟨w ++ w', by rw [List.map_append], .rule p.1 β w w' ha hw hw'⟩

theorem items_sentence (h : Nk F t) (hk : Lk F tok nt) (l0 : Nat) (al : List (Alt × Nat)) (hal : al.map Prod.fst = F.alts) (v : List (List Nat)) :
    GFile.Sentence (lemonItems F tok nt l0 al) (nt F.goal) v ↔ ∃ w, v = w.map tok ∧ F.Sentence w := by
  have hg : ∀ n ∈ [F.goal], n ∈ YText.names F.uses ∧ ¬ Hid n := by
    intro n hn
    rcases List.mem_singleton.1 hn with rfl
    obtain ⟨x, hx, hk'⟩ := h.goal
    exact ⟨(mem_names _ _).2 (.inr ⟨_, hx, hk'⟩), h.goalGood.2⟩
  have e : [F.goal].map (fun n => (⟨lemonSymbol F tok nt n, []⟩ : GFile.Elem)) = [⟨nt F.goal, []⟩] := by
    have : lemonSymbol F tok nt F.goal = nt F.goal := if_neg fun ht => ht.1 h.goal
    simp [this]
  unfold GFile.Sentence File.Sentence
  constructor
  · intro hs
    exact stands_from h hk l0 al hal hs [F.goal] e.symm hg
  · rintro ⟨w, rfl, hw⟩
    have := stands_to h hk l0 al hal hw hg
    rwa [e] at this

theorem items_kind {l0 : Nat} {al : List (Alt × Nat)} {it : Item} (hi : it ∈ lemonItems F tok nt l0 al) :
    match it with | .wildcard _ | .fallback _ => False | _ => True := by
  unfold lemonItems at hi
  rcases List.mem_append.1 hi with hi | hi
  · rcases List.mem_append.1 hi with hi | hi
    · rcases List.mem_append.1 hi with hi | hi <;>
      · obtain ⟨n, -, rfl⟩ := List.mem_map.1 hi; trivial
    · rcases List.mem_singleton.1 hi with rfl; trivial
  · obtain ⟨p, -, hi⟩ := List.mem_flatMap.1 hi
    unfold ruleItems at hi
    rcases List.mem_cons.1 hi with rfl | hi
    · trivial
    · obtain ⟨n, -, rfl⟩ := List.mem_map.1 hi; trivial

theorem items_noWild (l0 : Nat) (al : List (Alt × Nat)) : GFile.wildcards (lemonItems F tok nt l0 al) = [] := by
  unfold GFile.wildcards
  rw [List.flatMap_eq_nil_iff]
  intro it hi
  have := items_kind hi
  cases it <;> first | rfl | exact this.elim

theorem items_noFallback (l0 : Nat) (al : List (Alt × Nat)) (X : List Nat) : GFile.fallbackOf (lemonItems F tok nt l0 al) X = none := by
  unfold GFile.fallbackOf
  rw [List.findSome?_eq_none_iff]
  intro it hi
  have := items_kind hi
  cases it <;> first | rfl | exact this.elim

theorem items_size (l0 : Nat) (al : List (Alt × Nat)) :
    GFile.fileSize (lemonItems F tok nt l0 al) = ((al.map Prod.fst).map fun a => (YText.symsOf a.rhs).length + 1).sum := by
  have hz : ∀ xs : List Item, (∀ it ∈ xs, it.isRule = false) → (xs.map Item.size).sum = 0 := by
    intro xs
    induction xs with
    | nil => intro _; rfl
    | cons it xs ih =>
      intro h
      rw [List.map_cons, List.sum_cons, ih fun i hi => h i (by simp [hi])]
      have := h it (by simp)
      cases it <;> first | rfl | cases this
  unfold GFile.fileSize lemonItems
  rw [List.map_append, List.sum_append, hz _ fun it hi => by simpa using items_noRule l0 hi, Nat.zero_add]
  induction al with
  | nil => rfl
  | cons p al ih =>
    rw [List.flatMap_cons, List.map_append, List.sum_append, ih, List.map_cons, List.map_cons, List.sum_cons]
    congr 1
    unfold ruleItems
    rw [List.map_cons, List.sum_cons, hz _ (by
      intro it hi
      obtain ⟨n, -, rfl⟩ := List.mem_map.1 hi; rfl)]
    simp [GFile.Item.size]

end

end Verif.Byacc.Rd
