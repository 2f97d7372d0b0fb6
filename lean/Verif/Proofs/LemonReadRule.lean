import Verif.Proofs.LemonReadDecls
/-
Helper lemmas for C72: the rules.
-/
set_option autoImplicit false
namespace Verif.Lemon
open Verif.Spec.GFile

/-- the members which the right side `es` of a rule gives to the class `c` -/
def newMembers (es : List Elem) (c : Word) : List Word := es.flatMap fun e => if e.name = c then e.alts else []

theorem isClass_rule (pre : List Item) (l : Word) (a : Option Word) (es : List Elem) (n : Nat) : isClass (pre ++ [.rule l a es n]) = isClass pre :=
  isClass_same _ _ fun _ => rfl

theorem membersOf_rule (pre : List Item) (l : Word) (a : Option Word) (es : List Elem) (n : Nat) (c : Word) :
    membersOf (pre ++ [.rule l a es n]) c = if isClass pre c then membersOf pre c ++ newMembers es c else [] := by
  unfold membersOf
  rw [isClass_rule]
  split
  · rw [List.flatMap_append]
    congr 1
    simp [newMembers]
  · rfl

/-- the symbols after a part `es` of the right side was read -/
def midSym (o : Opts) (pre : List Item) (es : List Elem) (x : Word) : Sym :=
  { symOf o pre x with subsym := if isClass pre x then membersOf pre x ++ newMembers es x else [] }

theorem symOf_rule (o : Opts) (pre : List Item) (l : Word) (a : Option Word) (es : List Elem) (n : Nat) :
    symOf o (pre ++ [.rule l a es n]) = midSym o pre es := by
  funext x
  have g : ∀ x, destructorsOf [Item.rule l a es n] x = [] := fun _ => rfl
  simp only [symOf, isClass_rule, fallbackOf_same _ (.rule l a es n) (fun _ => rfl), precOf_same _ _ (.rule l a es n) rfl,
    destructorOf_same _ _ (.rule l a es n) g, typeOf_same _ (.rule l a es n) (fun _ => rfl), membersOf_rule, midSym]

def midNames (o : Opts) (pre : List Item) (l : Word) (es : List Elem) : List Word :=
  adds (names o pre) (l :: es.flatMap fun e => e.name :: e.alts)

def cell (pre : List Item) (e : Elem) : RhsRef × Option Word := (refOf (isClass pre) e, e.label)

/-- the reader after a part `es` of the right side -/
def mid (o : Opts) (pre : List Item) (l : Word) (a : Option Word) (s : RState) (es : List Elem) : RState :=
  { s with state := .IN_RHS, lhs := l, lhsalias := a, rhs := es.map (cell pre), syms := (midNames o pre l es).map (midSym o pre es) }

theorem mid_rep (o : Opts) (pre : List Item) (l : Word) (a : Option Word) (s : RState) (es : List Elem) :
    Rep (mid o pre l a s es) (midNames o pre l es) (midSym o pre es) := by
  refine ⟨rfl, fun _ => rfl, fun x hx => ?_⟩
  have h := symOf_new o (pre ++ [.rule l a es 0]) x
  rw [symOf_rule, names_append] at h
  exact h hx

theorem newMembers_snoc (es : List Elem) (e : Elem) (x : Word) : newMembers (es ++ [e]) x = newMembers es x ++ if e.name = x then e.alts else [] := by
  simp [newMembers]

theorem midNames_snoc (o : Opts) (pre : List Item) (l : Word) (es : List Elem) (e : Elem) :
    midNames o pre l (es ++ [e]) = adds (midNames o pre l es) (e.name :: e.alts) := by
  unfold midNames
  rw [← adds_append]
  simp

/-- a symbol is read -/
theorem mid_name (o : Opts) (pre : List Item) (l : Word) (a : Option Word) (s : RState) (es : List Elem) (line : Nat) (x : Word) (hx : Letter x) :
    readToken (ropts o) (mid o pre l a s es) line x =
      if es.length ≥ MAXRHS then (mid o pre l a s es).fail line (.tooMany x) .RESYNC_AFTER_RULE_ERROR else mid o pre l a s (es ++ [⟨x, []⟩]) := by
  rw [rd_rhs _ _ _ rfl, rhsToken]
  have h1 : ¬ x.headD 0 = 46 := by rcases hx with h | h
                                   · exact upper_ne h 46 (by omega)
                                   · exact lower_ne h 46 (by omega)
  simp only [h1, if_false, (letter_iff x).mp hx, if_true]
  have : (mid o pre l a s es).rhs.length = es.length := by simp [mid]
  rw [this]
  split
  · rfl
  · rw [(mid_rep o pre l a s es).symNew_eq]
    have h2 : midSym o pre (es ++ [⟨x, []⟩]) = midSym o pre es := by
      funext y; simp [midSym, newMembers_snoc, Elem.alts]
    simp only [mid, h2, midNames_snoc]
    congr 1
    simp [cell, refOf, Elem.alts, Elem.label]

/-- an alias is read -/
theorem mid_label (o : Opts) (pre : List Item) (l : Word) (a : Option Word) (s : RState) (es : List Elem) (e : Elem) (l1 l2 l3 : Nat) (x : Word) (hx : Letter x) :
    readTokens (ropts o) (mid o pre l a s (es ++ [e])) [(l1, text "("), (l2, x), (l3, text ")")] =
      mid o pre l a s (es ++ [{ e with posts := e.posts ++ [.label x] }]) := by
  have hlast : (mid o pre l a s (es ++ [e])).rhs = es.map (cell pre) ++ [cell pre e] := by simp [mid]
  have r1 : readToken (ropts o) (mid o pre l a s (es ++ [e])) l1 (text "(") = (mid o pre l a s (es ++ [e])).goto .RHS_ALIAS_1 := by
    rw [rd_rhs _ _ _ rfl, rhsToken, hlast]
    simp [cell, text, isAlpha]
  rw [readTokens_cons, readTokens_cons, readTokens_cons, readTokens_nil, r1]
  rw [rd_rhsAlias1 (ropts o) l2 x rfl, rhsAliasToken]
  have hlast' : ((mid o pre l a s (es ++ [e])).goto .RHS_ALIAS_1).rhs = es.map (cell pre) ++ [cell pre e] := hlast
  rw [hlast']
  simp only [List.getLast?_append, List.getLast?_singleton, Option.some_or, cell, (letter_iff x).mp hx, if_true]
  rw [rd_rhsAlias2 (ropts o) l3 (text ")") rfl, if_pos (by decide)]
  have ha : ({ e with posts := e.posts ++ [.label x] } : Elem).alts = e.alts := by simp [Elem.alts]
  have h2 : midSym o pre (es ++ [{ e with posts := e.posts ++ [.label x] }]) = midSym o pre (es ++ [e]) := by
    funext y; simp only [midSym, newMembers_snoc, ha]
  have h3 : midNames o pre l (es ++ [{ e with posts := e.posts ++ [.label x] }]) = midNames o pre l (es ++ [e]) := by
    simp only [midNames_snoc, ha]
  have h4 : cell pre { e with posts := e.posts ++ [.label x] } = (refOf (isClass pre) e, some x) := by
    simp only [cell, refOf, ha]; simp [Elem.label]
  simp only [mid, RState.goto, h2, h3, List.map_append, List.map_cons, List.map_nil, h4, List.dropLast_concat]

theorem upper_not_isLower {x : Word} (h : Upper x) : isLower (x.headD 0) = false := by
  have := upper_not_lower h
  rw [lower_iff] at this
  simpa using this

theorem letter_cases {x : Word} (h : Letter x) : Upper x ∨ isLower (x.headD 0) = true := by
  rcases h with h | h
  · exact .inl h
  · exact .inr ((lower_iff x).mp h)

/-- an alternative is read -/
theorem mid_alt (o : Opts) (pre : List Item) (l : Word) (a : Option Word) (s : RState) (es : List Elem) (e : Elem) (line sep : Nat) (X : Word)
    (hsep : sep = 124 ∨ sep = 47) (hX : Upper X) (he : Letter e.name) (hmem : ∀ c Y, Y ∈ membersOf pre c → Upper Y) (hmem' : ∀ c Y, Y ∈ newMembers (es ++ [e]) c → Upper Y) :
    let s' := readToken (ropts o) (mid o pre l a s (es ++ [e])) line (sep :: X)
    ((Upper e.name ∨ isClass pre e.name = true) → s' = mid o pre l a s (es ++ [{ e with posts := e.posts ++ [.alt sep X] }])) ∧
    (¬ (Upper e.name ∨ isClass pre e.name = true) → s'.errs ≠ []) := by
  intro s'
  have hlast : (mid o pre l a s (es ++ [e])).rhs = es.map (cell pre) ++ [cell pre e] := by simp [mid]
  have hXl := upper_not_isLower hX
  have hs' : s' = altToken (mid o pre l a s (es ++ [e])) line (sep :: X) (refOf (isClass pre) e) e.label := by
    simp only [s']
    rw [rd_rhs _ _ _ rfl, rhsToken, hlast]
    have h0 : isAlpha sep = false := by rcases hsep with rfl | rfl <;> decide
    have h1 : ¬ sep = 46 := by omega
    have h2 : isUpper (((sep :: X)[1]?).getD 0) = true := by
      obtain ⟨c, t, rfl, h⟩ := hX; simp [isUpper, h]
    have h3 : (((sep :: X).headD 0 = 124 ∨ (sep :: X).headD 0 = 47) ∧ isUpper (((sep :: X)[1]?).getD 0) = true) := ⟨hsep, h2⟩
    have h4 : ¬ (sep :: X).headD 0 = 46 := h1
    have h5 : isAlpha ((sep :: X).headD 0) = false := h0
    simp only [h4, h5, if_false, Bool.false_eq_true, List.getLast?_append, List.getLast?_singleton, Option.some_or, cell, h3, and_self, if_true]
  have hrep := mid_rep o pre l a s (es ++ [e])
  have ha : ({ e with posts := e.posts ++ [.alt sep X] } : Elem).alts = e.alts ++ [X] := by simp [Elem.alts]
  have hlab : ({ e with posts := e.posts ++ [.alt sep X] } : Elem).label = e.label := by simp [Elem.label]
  have h3 : midNames o pre l (es ++ [{ e with posts := e.posts ++ [.alt sep X] }]) = ins (midNames o pre l (es ++ [e])) X := by
    simp only [midNames_snoc, ha]
    rw [← List.cons_append, adds_append]; rfl
  have hin : e.name ∈ ins (midNames o pre l (es ++ [e])) X := by
    rw [mem_ins]; left
    rw [midNames_snoc, mem_adds]; right; simp
  rw [hs']
  unfold altToken
  simp only [List.drop_succ_cons, List.drop_zero, hXl, Bool.false_or]
  rw [hrep.symNew_eq]
  have hrep1 := hrep.ins X { mid o pre l a s (es ++ [e]) with syms := (ins (midNames o pre l (es ++ [e])) X).map (midSym o pre (es ++ [e])) } rfl
  by_cases hc : isClass pre e.name = true
  · -- a token class
    have hm : refOf (isClass pre) e = .sym e.name := by simp [refOf, hc]
    have hty : ((mid o pre l a s (es ++ [e])).sym e.name).type = .MULTITERMINAL := by
      rw [hrep.sym]; simp [midSym, symOf, hc]
    rw [hm]
    simp only [hty, if_true]
    rw [hrep1.upd_eq]
    have hrep2 := hrep1.change hin (fun z => { z with subsym := z.subsym ++ [X] }) (fun _ => rfl)
      { mid o pre l a s (es ++ [e]) with
        syms := (ins (midNames o pre l (es ++ [e])) X).map fun y => if y = e.name then { midSym o pre (es ++ [e]) y with subsym := (midSym o pre (es ++ [e]) y).subsym ++ [X] } else midSym o pre (es ++ [e]) y } rfl
    have hsub : ∀ z : Sym, z = { midSym o pre (es ++ [e]) e.name with subsym := (midSym o pre (es ++ [e]) e.name).subsym ++ [X] } →
        isLower ((z.subsym.headD []).headD 0) = false := by
      rintro z rfl
      have : ∀ Y ∈ (midSym o pre (es ++ [e]) e.name).subsym ++ [X], Upper Y := by
        intro Y hY
        simp only [midSym, hc, if_true, List.mem_append, List.mem_singleton] at hY
        rcases hY with (hY | hY) | rfl
        · exact hmem _ _ hY
        · exact hmem' _ _ hY
        · exact hX
      cases hl : (midSym o pre (es ++ [e]) e.name).subsym ++ [X] with
      | nil => simp at hl
      | cons Y t => exact upper_not_isLower (this Y (by rw [hl]; simp))
    have hsym := hrep2.sym e.name
    rw [if_pos rfl] at hsym
    rw [if_neg (by rw [hsub _ hsym]; simp)]
    refine ⟨fun _ => ?_, fun hn => absurd (.inr hc) hn⟩
    simp only [mid, h3, List.map_append, List.map_cons, List.map_nil]
    have hcell : cell pre { e with posts := e.posts ++ [.alt sep X] } = cell pre e := by
      simp only [cell, hlab, refOf, hc, true_or, if_true]
    rw [hcell]
    congr 1
    refine List.map_congr_left fun y _ => ?_
    by_cases hy : y = e.name
    · subst hy
      simp [midSym, hc, newMembers_snoc, ha]
    · have hy' : ¬ e.name = y := fun h => hy h.symm
      simp [midSym, newMembers_snoc, hy, hy']
  · have hc' : isClass pre e.name = false := by simpa using hc
    have hsame : midSym o pre (es ++ [{ e with posts := e.posts ++ [.alt sep X] }]) = midSym o pre (es ++ [e]) := by
      funext y
      simp only [midSym, newMembers_snoc]
      by_cases hy : e.name = y
      · subst hy; simp [hc']
      · simp [hy]
    have hcell : cell pre { e with posts := e.posts ++ [.alt sep X] } = (.alts (e.name :: (e.alts ++ [X])), e.label) := by
      simp [cell, hlab, refOf, hc', ha]
    have goal : ∀ s1 : RState, s1 = { mid o pre l a s (es ++ [e]) with
          syms := (ins (midNames o pre l (es ++ [e])) X).map (midSym o pre (es ++ [e]))
          rhs := (mid o pre l a s (es ++ [e])).rhs.dropLast ++ [(.alts (e.name :: (e.alts ++ [X])), e.label)] } →
        ((Upper e.name ∨ isClass pre e.name = true) → (if isLower (e.name.headD 0) = true then s1.err line .compound else s1) =
            mid o pre l a s (es ++ [{ e with posts := e.posts ++ [.alt sep X] }])) ∧
        (¬ (Upper e.name ∨ isClass pre e.name = true) → (if isLower (e.name.headD 0) = true then s1.err line .compound else s1).errs ≠ []) := by
      rintro s1 rfl
      constructor
      · rintro (hu | hu)
        · rw [if_neg (by rw [upper_not_isLower hu]; simp), hlast]
          simp only [mid, h3, List.map_append, List.map_cons, List.map_nil, hcell, hsame, List.dropLast_concat]
        · exact absurd hu hc
      · intro hn
        rcases letter_cases he with h | h
        · exact absurd (.inl h) hn
        · rw [if_pos h]; simp [err_errs]
    by_cases hal : e.alts = []
    · have hm : refOf (isClass pre) e = .sym e.name := by simp [refOf, hal]
      have hty : ¬ ((mid o pre l a s (es ++ [e])).sym e.name).type = .MULTITERMINAL := by
        rw [hrep.sym]; simp only [midSym, symOf, hc']
        split
        · simp at *
        · split <;> simp
      rw [hm]
      simp only [hty, if_false]
      exact goal _ (by rw [hal]; rfl)
    · have hm : refOf (isClass pre) e = .alts (e.name :: e.alts) := by simp [refOf, hal, hc']
      rw [hm]
      simp only [List.headD_cons]
      exact goal _ rfl

/-- the form of what follows a symbol -/
def PostForm : Post → Prop
  | .alt sep X => (sep = 124 ∨ sep = 47) ∧ Upper X
  | .label a => Letter a

theorem newMembers_upper (es : List Elem) (h : ∀ e ∈ es, ∀ p ∈ e.posts, PostForm p) (c Y : Word) (hY : Y ∈ newMembers es c) : Upper Y := by
  simp only [newMembers, List.mem_flatMap] at hY
  obtain ⟨e, he, hY⟩ := hY
  split at hY
  · simp only [Elem.alts, List.mem_filterMap] at hY
    obtain ⟨p, hp, hY⟩ := hY
    have := h e he p hp
    split at hY
    · simp at hY; subst hY; exact this.2
    · simp at hY
  · simp at hY

/-- what follows a symbol is read -/
theorem mid_posts (o : Opts) (pre : List Item) (l : Word) (a : Option Word) (s : RState) (es : List Elem) (hmem : ∀ c Y, Y ∈ membersOf pre c → Upper Y)
    (hes : ∀ e ∈ es, ∀ p ∈ e.posts, PostForm p) (ps : List Post) (e : Elem) (he : Letter e.name) (hep : ∀ p ∈ e.posts, PostForm p) (hps : ∀ p ∈ ps, PostForm p) (ws : List (Nat × Word))
    (hws : List.Forall₂ Is (ps.flatMap Post.words) ws) :
    let s' := readTokens (ropts o) (mid o pre l a s (es ++ [e])) ws
    ((∀ sep X, Post.alt sep X ∈ ps → Upper e.name ∨ isClass pre e.name = true) → s' = mid o pre l a s (es ++ [{ e with posts := e.posts ++ ps }])) ∧
    (¬ (∀ sep X, Post.alt sep X ∈ ps → Upper e.name ∨ isClass pre e.name = true) → s'.errs ≠ []) := by
  induction ps generalizing e ws with
  | nil =>
    simp only [List.flatMap_nil, List.forall₂_nil_left_iff] at hws
    subst hws
    simp [readTokens_nil]
  | cons p ps ih =>
    rw [List.flatMap_cons] at hws
    obtain ⟨u, v, rfl, h1, h2⟩ := forall₂_split _ _ _ hws
    intro s'
    simp only [s']
    rw [readTokens_append]
    have hes' : ∀ e' ∈ es ++ [e], ∀ p ∈ e'.posts, PostForm p := by
      intro e' he'; simp at he'
      rcases he' with he' | rfl
      · exact hes e' he'
      · exact hep
    have hp := hps p (by simp)
    cases p with
    | alt sep X =>
      simp only [Post.words, List.forall₂_cons_left_iff, List.forall₂_nil_left_iff, is_any] at h1
      obtain ⟨⟨l1, _⟩, _, rfl, rfl, rfl⟩ := h1
      have key := mid_alt o pre l a s es e l1 sep X hp.1 hp.2 he hmem (newMembers_upper _ hes')
      rw [readTokens_cons, readTokens_nil]
      by_cases hok : Upper e.name ∨ isClass pre e.name = true
      · rw [key.1 hok]
        have := ih { e with posts := e.posts ++ [.alt sep X] } he (by
          intro q hq; simp at hq; rcases hq with hq | rfl
          · exact hep q hq
          · exact hp) (fun q hq => hps q (by simp [hq])) v h2
        simp only [List.append_assoc, List.singleton_append] at this
        refine ⟨fun h => this.1 fun sep X h' => hok, fun h => this.2 fun h' => h ?_⟩
        intro _ _ _; exact hok
      · refine ⟨fun h => absurd (h sep X (by simp)) hok, fun _ he' => ?_⟩
        exact key.2 hok (errs_nil_of _ _ _ he')
    | label x =>
      simp only [Post.words, List.forall₂_cons_left_iff, List.forall₂_nil_left_iff, is_any] at h1
      obtain ⟨⟨l1, _⟩, _, rfl, ⟨⟨l2, _⟩, _, rfl, ⟨⟨l3, _⟩, _, rfl, rfl, rfl⟩, rfl⟩, rfl⟩ := h1
      have key := mid_label o pre l a s es e l1 l2 l3 _ hp
      rw [key]
      have := ih { e with posts := e.posts ++ [.label _] } he (by
          intro q hq; simp at hq; rcases hq with hq | rfl
          · exact hep q hq
          · exact hp) (fun q hq => hps q (by simp [hq])) v h2
      simp only [List.append_assoc, List.singleton_append] at this
      refine ⟨fun h => this.1 fun sep X h' => h sep X (by simp [h']), fun h => this.2 fun h' => h fun sep X hX => ?_⟩
      simp at hX
      exact h' sep X hX

theorem alts_ne_nil (e : Elem) : e.alts ≠ [] ↔ ∃ sep X, Post.alt sep X ∈ e.posts := by
  rw [Ne, Elem.alts, List.filterMap_eq_nil_iff]
  push Not
  constructor
  · rintro ⟨p, hp, h⟩
    cases p with
    | alt sep X => exact ⟨sep, X, hp⟩
    | label a => simp at h
  · rintro ⟨sep, X, h⟩
    exact ⟨_, h, by simp⟩

/-- the right side is read -/
theorem mid_elems (o : Opts) (pre : List Item) (l : Word) (a : Option Word) (s : RState) (hmem : ∀ c Y, Y ∈ membersOf pre c → Upper Y)
    (rest es : List Elem) (hes : ∀ e ∈ es, ∀ p ∈ e.posts, PostForm p) (hlen : es.length ≤ 1000) (hrest : ∀ e ∈ rest, Letter e.name ∧ ∀ p ∈ e.posts, PostForm p) (ws : List (Nat × Word))
    (hws : List.Forall₂ Is (rest.flatMap Elem.words) ws) :
    let s' := readTokens (ropts o) (mid o pre l a s es) ws
    let ok := es.length + rest.length ≤ 1000 ∧ ∀ e ∈ rest, e.alts ≠ [] → Upper e.name ∨ isClass pre e.name = true
    (ok → s' = mid o pre l a s (es ++ rest)) ∧ (¬ ok → s'.errs ≠ []) := by
  induction rest generalizing es ws with
  | nil =>
    simp only [List.flatMap_nil, List.forall₂_nil_left_iff] at hws
    subst hws
    simp [readTokens_nil, hlen]
  | cons e rest ih =>
    rw [List.flatMap_cons] at hws
    obtain ⟨u, v, rfl, h1, h2⟩ := forall₂_split _ _ _ hws
    rw [Elem.words, List.forall₂_cons_left_iff] at h1
    obtain ⟨⟨l1, w⟩, u, hw, h1, rfl⟩ := h1
    rw [is_any] at hw
    simp only at hw
    subst hw
    intro s' ok
    simp only [s']
    rw [List.cons_append, readTokens_cons, readTokens_append]
    obtain ⟨he, hp⟩ := hrest e (by simp)
    have hname := mid_name o pre l a s es l1 e.name he
    simp only at hname ⊢
    rw [hname]
    by_cases hl : es.length ≥ MAXRHS
    · rw [if_pos hl]
      refine ⟨fun h => ?_, fun _ h => ?_⟩
      · simp [ok, MAXRHS] at h hl; omega
      · have := errs_nil_of _ _ _ (errs_nil_of _ _ _ h)
        simp [fail_errs] at this
    · rw [if_neg hl]
      have hl' : es.length < 1000 := by simp [MAXRHS] at hl; omega
      have key := mid_posts o pre l a s es hmem hes e.posts ⟨e.name, []⟩ he (by simp) hp u h1
      simp only [List.nil_append] at key
      by_cases hok : ∀ sep X, Post.alt sep X ∈ e.posts → Upper e.name ∨ isClass pre e.name = true
      · rw [key.1 hok]
        have := ih (es ++ [e]) (by
          intro e' he'; simp at he'
          rcases he' with he' | rfl
          · exact hes e' he'
          · exact hp) (by simp; omega) (fun e' he' => hrest e' (by simp [he'])) v h2
        simp only [List.append_assoc, List.singleton_append, List.length_append, List.length_singleton] at this
        refine ⟨fun h => this.1 ⟨?_, fun e' he' => h.2 e' (by simp [he'])⟩, fun h => this.2 fun h' => h ⟨?_, ?_⟩⟩
        · have := h.1; simp at this; omega
        · have := h'.1; simp; omega
        · intro e' he' ha
          simp at he'
          rcases he' with rfl | he'
          · obtain ⟨sep, X, hX⟩ := (alts_ne_nil _).mp ha
            exact hok sep X hX
          · exact h'.2 e' he' ha
      · refine ⟨fun h => absurd (fun sep X hX => h.2 e (by simp) ((alts_ne_nil e).mpr ⟨sep, X, hX⟩)) hok, fun _ h => ?_⟩
        exact key.2 hok (errs_nil_of _ _ _ h)

theorem membersOf_upper (pre : List Item) (h : ∀ it ∈ pre, it.Form) (c Y : Word) (hY : Y ∈ membersOf pre c) : Upper Y := by
  unfold membersOf at hY
  split at hY
  · rw [List.mem_flatMap] at hY
    obtain ⟨it, hit, hY⟩ := hY
    have hf := h it hit
    split at hY
    · split at hY
      · simp only [List.mem_map] at hY
        obtain ⟨X, hX, rfl⟩ := hY
        exact (hf.2 X hX).1
      · simp at hY
    · next rhs _ =>
      refine newMembers_upper rhs (fun e he p hp => ?_) c Y hY
      have := (hf.2.2 e he).2 p hp
      cases p <;> exact this
    · simp at hY
  · simp at hY

theorem step_rule (o : Opts) (pre : List Item) (s : RState) (h : Inv o pre s) (hpre : ∀ it ∈ pre, it.Form) (l : Word) (a : Option Word) (rhs : List Elem) (line : Nat)
    (hf : (Item.rule l a rhs line).Form) (ws : List (Nat × Word)) (hws : List.Forall₂ Is (Item.rule l a rhs line).words ws) :
    StepOK o pre s (.rule l a rhs line) ws := by
  obtain ⟨hl, ha, hr⟩ := hf
  simp only [Item.words] at hws
  rw [List.append_assoc, List.append_assoc, List.append_assoc] at hws
  obtain ⟨u1, v1, rfl, h1, h2⟩ := forall₂_split _ _ _ hws
  obtain ⟨u2, v2, rfl, h3, h4⟩ := forall₂_split _ _ _ h2
  obtain ⟨u3, v3, rfl, h5, h6⟩ := forall₂_split _ _ _ h4
  obtain ⟨u4, v4, rfl, h7, h8⟩ := forall₂_split _ _ _ h6
  simp only [List.forall₂_cons_left_iff, List.forall₂_nil_left_iff, is_any, is_line] at h1 h5 h8
  obtain ⟨⟨l1, w⟩, _, hw, rfl, rfl⟩ := h1
  obtain ⟨⟨l2, _⟩, _, rfl, rfl, rfl⟩ := h5
  obtain ⟨_, _, rfl, rfl, rfl⟩ := h8
  simp only at hw
  subst hw
  have hstart : readTokens (ropts o) s ([(l1, w)] ++ (u2 ++ [(l2, text "::=")])) = mid o pre w a s [] := by
    have hb : readToken (ropts o) s l1 w = { mid o pre w none s [] with state := .WAITING_FOR_ARROW } := by
      have n1 : ¬ w.headD 0 = 37 := lower_ne hl 37 (by omega)
      rw [rd_begin _ _ _ h.bt, beginToken]
      simp only [n1, if_false, (lower_iff w).mp hl, if_true]
      rw [h.rep.symNew_eq]
      have : midSym o pre [] = symOf o pre := by
        rw [← symOf_rule o pre w none [] 0]
        funext x
        have g : ∀ x, destructorsOf [Item.rule w none [] 0] x = [] := fun _ => rfl
        simp only [symOf, isClass_rule, fallbackOf_same _ (.rule w none [] 0) (fun _ => rfl), precOf_same _ _ (.rule w none [] 0) rfl,
          destructorOf_same _ _ (.rule w none [] 0) g, typeOf_same _ (.rule w none [] 0) (fun _ => rfl), membersOf_rule]
        congr 1
        by_cases hcx : isClass pre x = true
        · simp [hcx, newMembers]
        · have hcx' : isClass pre x = false := by simpa using hcx
          simp [hcx', membersOf]
      simp only [mid, this]
      rfl
    rw [List.singleton_append, readTokens_cons, hb]
    cases a with
    | none =>
      simp only [List.forall₂_nil_left_iff] at h3
      subst h3
      rw [List.nil_append, readTokens_cons, readTokens_nil, rd_arrow (ropts o) l2 (text "::=") rfl, if_pos (by decide)]
      rfl
    | some a =>
      simp only [List.forall₂_cons_left_iff, List.forall₂_nil_left_iff, is_any] at h3
      obtain ⟨⟨m1, _⟩, _, rfl, ⟨⟨m2, x⟩, _, hx, ⟨⟨m3, _⟩, _, rfl, rfl, rfl⟩, rfl⟩, rfl⟩ := h3
      simp only at hx
      subst hx
      simp only [List.cons_append, List.nil_append]
      rw [readTokens_cons, rd_arrow (ropts o) m1 (text "(") rfl, if_neg (by decide), if_pos (by decide)]
      rw [readTokens_cons, rd_lhs1 (ropts o) m2 x rfl, if_pos ((letter_iff x).mp (ha x rfl))]
      rw [readTokens_cons, rd_lhs2 (ropts o) m3 (text ")") rfl, if_pos (by decide)]
      rw [readTokens_cons, readTokens_nil, rd_lhs3 (ropts o) l2 (text "::=") rfl, if_pos (by decide)]
      rfl
  have hsplit : [(l1, w)] ++ (u2 ++ ([(l2, text "::=")] ++ (u4 ++ [(line, text ".")]))) = ([(l1, w)] ++ (u2 ++ [(l2, text "::=")])) ++ (u4 ++ [(line, text ".")]) := by simp
  have key := mid_elems o pre w a s (membersOf_upper pre hpre) rhs [] (by simp) (by simp) (fun e he => ⟨(hr e he).1, fun p hp => by
    have := (hr e he).2 p hp
    cases p <;> exact this⟩) u4 h7
  simp only [List.length_nil, Nat.zero_add, List.nil_append] at key
  unfold StepOK
  rw [hsplit, readTokens_append, readTokens_append, hstart]
  refine ⟨fun he => ?_, fun hall => ?_⟩
  · by_contra hn
    exact key.2 hn (errs_nil_of _ _ _ he)
  · rw [key.1 hall, readTokens_cons, readTokens_nil, rd_rhs (ropts o) line (text ".") rfl]
    have : rhsToken (mid o pre w a s rhs) line (text ".") = endRule (mid o pre w a s rhs) line := rfl
    simp only [this]
    refine Inv.next h (.inr rfl) h.errs ?_ ?_
      (by rw [argOf_same _ _ _ (fun _ => rfl)]; exact h.holds.args) (by rw [wildcards_same _ _ rfl]; exact h.holds.wildcard)
      (by rw [wildcards_same _ _ rfl]; exact h.wild) (by rw [yacc_same _ _ (by simp)]; exact h.holds.yaccPrec)
      (by rw [precs_same _ _ rfl]; exact h.prec) (lines_same h fun _ => rfl)
    · rw [parts_rule _ _ rfl, isClass_rule, List.map_append, ← h.holds.rules]
      simp [endRule, mid, ruleOf, cell, RState.goto]
    · rw [symOf_rule, names_append]
      rfl

end Verif.Lemon
