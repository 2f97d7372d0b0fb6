import Verif.Proofs.BtMarks
/-
The array of conflicts: every list that is referred to is in it, and it is large enough.
-/
set_option autoImplicit false
namespace Verif.Byacc
open Spec

/-- the entry for an action -/
def Action.alt (x : Action) : Int := if x.code = .SHIFT then x.number else (x.number : Int) - 2

/-- the list for actions that take part in a conflict (without the terminator): the state to shift
to, or -1 if there is no shift; then the rules to reduce by -/
def altsOf : List Action → List Int
  | [] => []
  | x :: l => (if x.code = .SHIFT then [] else [-1]) ++ (x :: l).map Action.alt

/-- the actions of a row that are listed for token `s` -/
def listing (defred : Nat) (acts : List Action) (s : Nat) : List Action :=
  acts.filter (fun x => x.symbol == s && x.suppressed == 1 && (x.code == .SHIFT || x.number != defred))

theorem altsOf_cons (x : Action) (l : List Action) :
    altsOf (x :: l) = (if x.code = .SHIFT then [] else [-1]) ++ (x :: l).map Action.alt := rfl

theorem altsOf_snoc {l : List Action} (h : l ≠ []) (p : Action) : altsOf (l ++ [p]) = altsOf l ++ [p.alt] := by
  cases l with
  | nil => exact absurd rfl h
  | cons x l => simp [altsOf]

theorem altsOf_one (p : Action) : altsOf [p] = (if p.code = .SHIFT then [] else [-1]) ++ [p.alt] := rfl

theorem altsOf_eq_nil {l : List Action} : altsOf l = [] ↔ l = [] := by
  cases l with
  | nil => simp [altsOf]
  | cons x l => simp [altsOf]

/-- no entry but possibly the first is negative -/
theorem altsOf_tail {l : List Action} (h : ∀ x ∈ l, 0 ≤ x.alt) {i : Nat} {v : Int} (hi : 0 < i)
    (hv : (altsOf l)[i]? = some v) : 0 ≤ v := by
  cases l with
  | nil => simp [altsOf] at hv
  | cons x l =>
    have : v ∈ (x :: l).map Action.alt := by
      rw [altsOf_cons] at hv
      by_cases hc : x.code = .SHIFT
      · rw [if_pos hc] at hv
        exact List.mem_of_getElem? hv
      · rw [if_neg hc] at hv
        cases i with
        | zero => omega
        | succ i => exact List.mem_of_getElem? (by simpa using hv)
    obtain ⟨y, hy, rfl⟩ := List.mem_map.1 this
    exact h y hy

theorem listing_snoc (d : Nat) (pre : List Action) (p : Action) (s : Nat) : listing d (pre ++ [p]) s =
    listing d pre s ++ if p.symbol = s ∧ p.suppressed = 1 ∧ (p.code = .SHIFT ∨ p.number ≠ d) then [p] else [] := by
  unfold listing
  rw [List.filter_append]
  congr 1
  by_cases h : p.symbol = s ∧ p.suppressed = 1 ∧ (p.code = .SHIFT ∨ p.number ≠ d)
  · rw [if_pos h, List.filter_cons_of_pos (by simpa [and_assoc] using h)]
    rfl
  · rw [if_neg h, List.filter_cons_of_neg (by simpa [and_assoc] using h)]
    rfl

theorem listing_snoc_ne {d : Nat} {pre : List Action} {p : Action} {s : Nat} (h : p.symbol ≠ s) :
    listing d (pre ++ [p]) s = listing d pre s := by
  rw [listing_snoc, if_neg (fun h' => h h'.1), List.append_nil]

/-- token `s` has a marked action -/
def Marked (acts : List Action) (s : Nat) : Prop := ∃ x ∈ acts, x.symbol = s ∧ x.suppressed = 1

/-- empty, or ends with a terminator -/
def EndsNeg (l : List Int) : Prop := l = [] ∨ l.getLast? = some (-1)

/-- What the row and the array say about the closed tokens. -/
def Entry (d : Nat) (acts : List Action) (row : List Nat) (com : List Int) (s : Nat) : Prop :=
  ∃ j, row.getD s 0 = j + 1 ∧ (altsOf (listing d acts s) ++ [-1]) <+: com.drop j

theorem Entry.mono {d : Nat} {acts : List Action} {row : List Nat} {com com' : List Int} {s : Nat}
    (h : Entry d acts row com s) (hc : com <+: com') : Entry d acts row com' s := by
  obtain ⟨j, h1, h2⟩ := h
  exact ⟨j, h1, h2.trans (hc.drop j)⟩

structure ConfInv (nt d : Nat) (c0 : List Int) (pre : List Action) (c : ConfAcc) (K : Nat) : Prop where
  rowlen : c.row.length = nt
  half : Half nt c.row 0 c.count (fun j v => v ≠ 0 ∧ c.row.getD j 0 = v)
  K_le : K ≤ c.conflicts.length
  init : c0 <+: c.conflicts.take K
  ends : EndsNeg (c.conflicts.take K)
  none_ : c.csym = none → c.cbase = c.conflicts.length ∧ K = c.conflicts.length
  some_ : ∀ s, c.csym = some s → Marked pre s ∧ c.cbase ≤ c.conflicts.length ∧
    c.conflicts.drop c.cbase = altsOf (listing d pre s) ∧
    (c.cbase = K ∨ (c.cbase + 1 = K ∧ (altsOf (listing d pre s)).head? = some (-1)))
  closed : ∀ s, Marked pre s → c.csym ≠ some s → Entry d pre c.row (c.conflicts.take K) s
  unmarked : ∀ s, ¬ Marked pre s → c.row.getD s 0 = 0
  opened : ∀ s, c.csym = some s → c.row.getD s 0 = 0
  order : ∀ x ∈ pre, x.suppressed = 1 → c.csym = some x.symbol ∨ ∃ y ∈ pre, x.symbol < y.symbol
  len_none : c.csym = none → K ≤ c0.length + weight pre
  len_some : ∀ s, c.csym = some s → c.conflicts.length ≤ K + 1 + (pre.countP (fun x => x.symbol == s && x.suppressed == 1)) ∧
    K + (pre.countP (fun x => x.symbol == s && x.suppressed == 1)) + 2 ≤ c0.length + weight pre

/-- `ConfInv` when no list is open -/
structure Shut (nt d : Nat) (c0 : List Int) (pre : List Action) (c : ConfAcc) : Prop where
  csym : c.csym = none
  cbase : c.cbase = c.conflicts.length
  rowlen : c.row.length = nt
  half : Half nt c.row 0 c.count (fun j v => v ≠ 0 ∧ c.row.getD j 0 = v)
  init : c0 <+: c.conflicts
  ends : EndsNeg c.conflicts
  closed : ∀ s, Marked pre s → Entry d pre c.row c.conflicts s
  unmarked : ∀ s, ¬ Marked pre s → c.row.getD s 0 = 0
  len : c.conflicts.length ≤ c0.length + weight pre

theorem ConfInv.shut {nt d : Nat} {c0 : List Int} {pre : List Action} {c : ConfAcc} {K : Nat}
    (I : ConfInv nt d c0 pre c K) (h : c.csym = none) : Shut nt d c0 pre c := by
  obtain ⟨h1, h2⟩ := I.none_ h
  have e : c.conflicts.take K = c.conflicts := by rw [h2, List.take_length]
  have hi := I.init
  have he := I.ends
  have hc := I.closed
  have hl := I.len_none h
  rw [e] at hi he hc
  exact ⟨h, h1, I.rowlen, I.half, hi, he, fun s hs => hc s hs (by rw [h]; simp), I.unmarked, by omega⟩

theorem isPrefix_take_drop {L l : List Int} {j b : Nat} (h : L <+: l.drop j) (hb : j + L.length ≤ b) :
    L <+: (l.take b).drop j := by
  rw [List.drop_take]
  have := h.take (b - j)
  rwa [List.take_of_length_le (by omega)] at this

theorem isPrefix_getElem? {L l : List Int} {j i : Nat} (h : L <+: l.drop j) (hi : i < L.length) :
    l[j + i]? = L[i]? := by
  obtain ⟨e, he⟩ := h
  rw [← List.getElem?_drop, ← he, List.getElem?_append_left hi]

/-- the end of a list -/
theorem ConfInv.flush {nt d cap : Nat} {c0 : List Int} {pre : List Action} {c : ConfAcc} {K s : Nat}
    (I : ConfInv nt d c0 pre c K) (hs : c.csym = some s) (hnt : s < nt) (halt : ∀ x ∈ pre, 0 ≤ x.alt)
    (hcap : c0.length + weight pre ≤ cap) :
    ∃ c', c.flush cap s = .ok c' ∧ Shut nt d c0 pre c' := by
  obtain ⟨hm, hcb, hdrop, hK⟩ := I.some_ s hs
  obtain ⟨l1, l2⟩ := I.len_some s hs
  have hlist : ∀ x ∈ listing d pre s, 0 ≤ x.alt := fun x hx => halt x (List.mem_filter.1 hx).1
  have hput : c.put cap (-1) = .ok { c with conflicts := c.conflicts ++ [-1] } := by
    unfold ConfAcc.put
    rw [if_pos (by omega)]
  unfold ConfAcc.flush
  rw [hput]
  simp only [Out.bind]
  generalize hcs : c.conflicts ++ [-1] = cs
  have hlen : cs.length = c.conflicts.length + 1 := by rw [← hcs]; simp
  have hL : cs.drop c.cbase = altsOf (listing d pre s) ++ [-1] := by
    rw [← hcs, List.drop_append_of_le_length hcb, hdrop]
  have hLlen : (altsOf (listing d pre s) ++ [-1]).length = cs.length - c.cbase := by
    rw [← hL, List.length_drop]
  have htake : ∀ m, K ≤ m → c.conflicts.take K <+: cs.take m := by
    intro m hm
    rw [← hcs]
    have h1 : c.conflicts.take K = (c.conflicts ++ [-1]).take K := by
      rw [List.take_append_of_le_length I.K_le]
    rw [h1]
    exact List.take_prefix_take_left (i := K) (j := m) (by omega)
  have hrow0 := I.opened s hs
  have hhalf : ∀ j, Half nt (c.row.set s (j + 1)) 0 (c.count + 1) (fun k v => v ≠ 0 ∧ (c.row.set s (j + 1)).getD k 0 = v) := by
    intro j
    have h := I.half.add (j := s) (v := j + 1) (S' := fun k v => (v ≠ 0 ∧ c.row.getD k 0 = v) ∨ (k = s ∧ v = j + 1)) hnt (by omega)
      (by rw [I.rowlen]; omega) (fun w hw => hw.1 (by rw [← hw.2, hrow0])) (fun k w => Iff.rfl)
    rw [Nat.zero_add] at h
    refine h.congr ?_
    intro k w
    by_cases e : k = s
    · subst e
      rw [List.getD_eq_getElem?_getD, List.getElem?_set_self (by rw [I.rowlen]; omega)]
      simp only [Option.getD_some, true_and, hrow0]
      constructor
      · rintro ⟨h1, h2⟩; exact .inr h2.symm
      · rintro (⟨h1, h2⟩ | h2)
        · exact absurd h2.symm h1
        · exact ⟨by omega, h2.symm⟩
    · rw [List.getD_eq_getElem?_getD, List.getElem?_set_ne (by omega), ← List.getD_eq_getElem?_getD]
      simp [e]
  have hrowget : ∀ j s', s' ≠ s → (c.row.set s (j + 1)).getD s' 0 = c.row.getD s' 0 := by
    intro j s' hne
    rw [List.getD_eq_getElem?_getD, List.getElem?_set_ne (by omega), ← List.getD_eq_getElem?_getD]
  have hrowself : ∀ j, (c.row.set s (j + 1)).getD s 0 = j + 1 := by
    intro j
    rw [List.getD_eq_getElem?_getD, List.getElem?_set_self (by rw [I.rowlen]; omega)]
    rfl
  have hun : ∀ j s', ¬ Marked pre s' → (c.row.set s (j + 1)).getD s' 0 = 0 := by
    intro j s' h
    have : s' ≠ s := fun e => h (e ▸ hm)
    rw [hrowget j s' this]
    exact I.unmarked s' h
  have hent : ∀ j m, K ≤ m → (altsOf (listing d pre s) ++ [-1]) <+: (cs.take m).drop j → ∀ s', Marked pre s' →
      Entry d pre (c.row.set s (j + 1)) (cs.take m) s' := by
    intro j m hm hp s' hs'
    by_cases e : s' = s
    · subst e
      exact ⟨j, hrowself j, hp⟩
    · obtain ⟨k, k1, k2⟩ := (I.closed s' hs' (by rw [hs]; simp [Ne.symm e])).mono (htake m hm)
      exact ⟨k, by rw [hrowget j s' e]; exact k1, k2⟩
  have hKle := I.K_le
  have hfind : findConflictBase cs c.cbase = c.cbase ∨ (findConflictBase cs c.cbase < c.cbase ∧
      (altsOf (listing d pre s) ++ [-1]) <+: cs.drop (findConflictBase cs c.cbase)) := by
    unfold findConflictBase
    cases hf : (List.range c.cbase).find? (fun i => (cs.drop c.cbase).isPrefixOf (cs.drop i)) with
    | none => exact .inl rfl
    | some i =>
      right
      have h1 := List.find?_some hf
      have h2 := List.mem_of_find?_eq_some hf
      rw [hL] at h1
      exact ⟨List.mem_range.1 h2, List.isPrefixOf_iff_prefix.1 h1⟩
  generalize hj : findConflictBase cs c.cbase = j at hfind ⊢
  by_cases hjb : j = c.cbase
  · rw [if_pos hjb]
    refine ⟨_, rfl, rfl, rfl, by simpa using I.rowlen, hhalf j, ?_, ?_, ?_, hun j, ?_⟩
    · have := I.init.trans (htake cs.length (by omega))
      rwa [List.take_length] at this
    · right
      simp only
      rw [← hcs]; simp
    · have := hent j cs.length (by omega) (by rw [List.take_length, hjb, hL])
      rwa [List.take_length] at this
    · simp only; omega
  · rw [if_neg hjb]
    obtain ⟨hjlt, hjp⟩ := hfind.resolve_left hjb
    -- the first entry
    have h0 : cs[c.cbase]? = (altsOf (listing d pre s) ++ [-1])[0]? := by rw [← hL, List.getElem?_drop]; rfl
    have hjl : j + (altsOf (listing d pre s) ++ [-1]).length ≤ cs.length := by
      have := hjp.length_le
      rw [List.length_drop] at this
      omega
    -- the match cannot reach into the list, but for the first entry
    have hover : ∀ i, i < (altsOf (listing d pre s)).length → cs[c.cbase + i]? = (altsOf (listing d pre s))[i]? := by
      intro i hi
      have := isPrefix_getElem? (L := altsOf (listing d pre s) ++ [-1]) (l := cs) (j := c.cbase) (i := i)
        (by rw [hL]) (by simp; omega)
      rw [this, List.getElem?_append_left hi]
    have hlast : cs[j + (altsOf (listing d pre s)).length]? = some (-1) := by
      rw [isPrefix_getElem? hjp (by simp)]
      simp
    have hb1 : (altsOf (listing d pre s)).length + 1 = cs.length - c.cbase := by rw [← hLlen]; simp
    set b := if cs.getD c.cbase 0 = -1 then c.cbase + 1 else c.cbase with hb
    have hfacts : K ≤ b ∧ j + ((altsOf (listing d pre s)).length + 1) ≤ b ∧ b ≤ cs.length ∧ EndsNeg (cs.take b) := by
      cases hl : altsOf (listing d pre s) with
      | nil =>
        rw [hl] at h0
        have : cs.getD c.cbase 0 = -1 := by rw [List.getD_eq_getElem?_getD, h0]; rfl
        rw [if_pos this] at hb
        refine ⟨?_, ?_, ?_, ?_⟩
        · rcases hK with h | ⟨_, h⟩
          · omega
          · rw [hl] at h; simp at h
        · simp only [List.length_nil]; omega
        · rw [hl] at hb1; simp at hb1; omega
        · right
          rw [hb, List.getLast?_eq_getElem?, List.length_take]
          rw [hl] at hb1; simp at hb1
          rw [show min (c.cbase + 1) cs.length - 1 = c.cbase by omega, List.getElem?_take_of_lt (by omega), h0]
          rfl
      | cons v r =>
        rw [hl] at h0 hb1
        simp only [List.length_cons] at hb1
        by_cases hv : v = -1
        · have : cs.getD c.cbase 0 = -1 := by rw [List.getD_eq_getElem?_getD, h0, hv]; rfl
          rw [if_pos this] at hb
          refine ⟨by omega, ?_, by omega, ?_⟩
          · by_contra hcon
            simp only [List.length_cons] at hcon
            have hi := hover (j + r.length + 1 - c.cbase) (by rw [hl]; simp only [List.length_cons]; omega)
            rw [show c.cbase + (j + r.length + 1 - c.cbase) = j + (altsOf (listing d pre s)).length by
              rw [hl]; simp only [List.length_cons]; omega, hlast] at hi
            have := altsOf_tail hlist (by omega) hi.symm
            omega
          · right
            rw [hb, List.getLast?_eq_getElem?, List.length_take]
            rw [show min (c.cbase + 1) cs.length - 1 = c.cbase by omega, List.getElem?_take_of_lt (by omega), h0, hv]
            rfl
        · have : cs.getD c.cbase 0 ≠ -1 := by rw [List.getD_eq_getElem?_getD, h0]; exact hv
          rw [if_neg this] at hb
          have hKb : c.cbase = K := by
            rcases hK with h | ⟨_, h⟩
            · exact h
            · rw [hl] at h; simp at h; exact absurd h hv
          have hv0 : 0 ≤ v := by
            cases hli : listing d pre s with
            | nil => rw [hli] at hl; simp [altsOf] at hl
            | cons x l =>
              rw [hli, altsOf_cons] at hl
              by_cases hc : x.code = .SHIFT
              · rw [if_pos hc] at hl
                have e : x.alt = v := by simp at hl; exact hl.1
                rw [← e]
                exact hlist x (by rw [hli]; simp)
              · rw [if_neg hc] at hl
                simp at hl; exact absurd hl.1.symm hv
          refine ⟨by omega, ?_, by omega, ?_⟩
          · by_contra hcon
            simp only [List.length_cons] at hcon
            have hi := hover (j + r.length + 1 - c.cbase) (by rw [hl]; simp only [List.length_cons]; omega)
            rw [show c.cbase + (j + r.length + 1 - c.cbase) = j + (altsOf (listing d pre s)).length by
              rw [hl]; simp only [List.length_cons]; omega, hlast] at hi
            rcases Nat.eq_zero_or_pos (j + r.length + 1 - c.cbase) with hz | hz
            · rw [hz, hl] at hi
              simp at hi
              omega
            · have := altsOf_tail hlist hz hi.symm
              omega
          · have e : cs.take b = c.conflicts.take K := by
              rw [hb, hKb, ← hcs, List.take_append_of_le_length I.K_le]
            rw [e]
            exact I.ends
    obtain ⟨f1, f2, f3, f4⟩ := hfacts
    have hlb : (cs.take b).length = b := by rw [List.length_take]; omega
    refine ⟨_, rfl, rfl, hlb.symm, by simpa using I.rowlen, hhalf j, ?_, f4, ?_, hun j, ?_⟩
    · exact I.init.trans (htake _ f1)
    · exact hent j b f1 (isPrefix_take_drop hjp (by simpa using f2))
    · simp only; rw [hlb]; omega

theorem weight_append_le (l m : List Action) : weight m ≤ weight (l ++ m) := by
  induction l with
  | nil => exact le_refl _
  | cons y l ih => exact le_trans ih (weight_cons_le y _)

theorem marked_snoc (pre : List Action) (p : Action) (s : Nat) :
    Marked (pre ++ [p]) s ↔ Marked pre s ∨ (p.symbol = s ∧ p.suppressed = 1) := by
  constructor
  · rintro ⟨x, hx, h⟩
    rcases List.mem_append.1 hx with hx | hx
    · exact .inl ⟨x, hx, h⟩
    · simp at hx; subst hx; exact .inr h
  · rintro (⟨x, hx, h⟩ | h)
    · exact ⟨x, by simp [hx], h⟩
    · exact ⟨p, by simp, h⟩

/-- storing an action -/
theorem add_spec {cap d K m : Nat} {l : List Action} {c : ConfAcc} {p : Action} (hcb : c.cbase ≤ c.conflicts.length)
    (hK_le : K ≤ c.conflicts.length) (hends : EndsNeg (c.conflicts.take K))
    (hdrop : c.conflicts.drop c.cbase = altsOf l)
    (hK : c.cbase = K ∨ (c.cbase + 1 = K ∧ (altsOf l).head? = some (-1)))
    (hlen : c.conflicts.length ≤ K + 1 + m) (hcap : K + m + 2 ≤ cap) :
    ∃ c', c.add cap d p = .ok c' ∧ c'.csym = c.csym ∧ c'.row = c.row ∧ c'.count = c.count ∧
      c'.conflicts.take K = c.conflicts.take K ∧ K ≤ c'.conflicts.length ∧ c'.cbase ≤ c'.conflicts.length ∧
      c'.conflicts.drop c'.cbase = altsOf (l ++ if p.code = .SHIFT ∨ p.number ≠ d then [p] else []) ∧
      (c'.cbase = K ∨ (c'.cbase + 1 = K ∧ (altsOf (l ++ if p.code = .SHIFT ∨ p.number ≠ d then [p] else [])).head? = some (-1))) ∧
      c'.conflicts.length ≤ K + 1 + (m + 1) := by
  have hlK : l = [] → c.cbase = c.conflicts.length ∧ K = c.conflicts.length := by
    rintro rfl
    have h1 : c.conflicts.length ≤ c.cbase := by
      have := congrArg List.length hdrop
      rw [List.length_drop] at this
      simp [altsOf] at this
      omega
    rcases hK with h | ⟨_, h⟩
    · omega
    · simp [altsOf] at h
  have hlK' : c.cbase = c.conflicts.length → l = [] := by
    intro h
    rw [h, List.drop_length] at hdrop
    exact altsOf_eq_nil.1 hdrop.symm
  have hne : l ≠ [] → c.conflicts ≠ [] := by
    intro h e
    rw [e, List.drop_nil] at hdrop
    exact h (altsOf_eq_nil.1 hdrop.symm)
  unfold ConfAcc.add
  by_cases hc : p.code = .SHIFT
  · rw [if_pos hc, if_pos (show p.code = .SHIFT ∨ p.number ≠ d from .inl hc)]
    unfold ConfAcc.put
    rw [if_pos (by omega)]
    have halt : p.alt = p.number := by unfold Action.alt; rw [if_pos hc]
    refine ⟨_, rfl, rfl, rfl, rfl, ?_, ?_, ?_, ?_, ?_, ?_⟩
    · simp only; rw [List.take_append_of_le_length hK_le]
    · simp only [List.length_append, List.length_cons, List.length_nil]; omega
    · simp only [List.length_append, List.length_cons, List.length_nil]; omega
    · simp only
      rw [List.drop_append_of_le_length hcb, hdrop]
      by_cases hl : l = []
      · subst hl
        rw [List.nil_append, altsOf_one, if_pos hc, halt]
        rfl
      · rw [altsOf_snoc hl, halt]
    · rcases hK with h | ⟨h, h'⟩
      · exact .inl h
      · right
        refine ⟨h, ?_⟩
        have hl : l ≠ [] := by rintro rfl; simp [altsOf] at h'
        rw [altsOf_snoc hl, List.head?_append, h']
        rfl
    · simp only [List.length_append, List.length_cons, List.length_nil]; omega
  · rw [if_neg hc]
    have halt : p.alt = (p.number : Int) - 2 := by unfold Action.alt; rw [if_neg hc]
    by_cases hd : p.number ≠ d
    · rw [if_pos hd, if_pos (show p.code = .SHIFT ∨ p.number ≠ d from .inr hd)]
      by_cases hb : c.cbase = c.conflicts.length
      · rw [if_pos hb]
        obtain rfl := hlK' hb
        obtain ⟨-, hKl⟩ := hlK rfl
        by_cases h0 : c.cbase ≠ 0
        · rw [if_pos h0]
          simp only [Out.bind, ConfAcc.put]
          rw [if_pos (by omega)]
          have hlast : c.conflicts.drop (c.cbase - 1) = [-1] := by
            rw [hKl, List.take_length] at hends
            rcases hends with h | h
            · rw [h] at hb; simp at hb; exact absurd hb h0
            · obtain ⟨r, hr⟩ := List.getLast?_eq_some_iff.1 h
              rw [hb, hr]
              simp
          refine ⟨_, rfl, rfl, rfl, rfl, ?_, ?_, ?_, ?_, ?_, ?_⟩
          · simp only; rw [List.take_append_of_le_length hK_le]
          · simp only [List.length_append, List.length_cons, List.length_nil]; omega
          · simp only [List.length_append, List.length_cons, List.length_nil]; omega
          · simp only
            rw [List.drop_append_of_le_length (by omega), hlast, List.nil_append, altsOf_one, if_neg hc, halt]
          · right
            refine ⟨by simp only; omega, ?_⟩
            rw [List.nil_append, altsOf_one, if_neg hc]
            rfl
          · simp only [List.length_append, List.length_cons, List.length_nil]; omega
        · rw [if_neg h0]
          simp only [ConfAcc.put]
          rw [if_pos (by omega)]
          simp only [Out.bind]
          have hz : c.conflicts = [] := by
            apply List.eq_nil_of_length_eq_zero
            omega
          rw [hz] at hKl hb hlen ⊢
          simp only [List.length_nil] at hKl hb hlen
          rw [if_pos (by simp only [List.length_append, List.length_cons, List.length_nil]; omega)]
          refine ⟨_, rfl, rfl, rfl, rfl, ?_, ?_, ?_, ?_, ?_, ?_⟩
          · rw [hKl]; rfl
          · omega
          · simp only; omega
          · simp only
            rw [hb]
            change _ = altsOf [p]
            rw [altsOf_one, if_neg hc, halt]
            rfl
          · left; simp only; omega
          · simp only [List.length_append, List.length_cons, List.length_nil]; omega
      · rw [if_neg hb]
        have hl : l ≠ [] := fun h => hb (hlK h).1
        simp only [Out.bind, ConfAcc.put]
        rw [if_pos (by omega)]
        refine ⟨_, rfl, rfl, rfl, rfl, ?_, ?_, ?_, ?_, ?_, ?_⟩
        · simp only; rw [List.take_append_of_le_length hK_le]
        · simp only [List.length_append, List.length_cons, List.length_nil]; omega
        · simp only [List.length_append, List.length_cons, List.length_nil]; omega
        · simp only
          rw [List.drop_append_of_le_length hcb, hdrop, altsOf_snoc hl, halt]
        · rcases hK with h | ⟨h, h'⟩
          · exact .inl h
          · right
            refine ⟨h, ?_⟩
            rw [altsOf_snoc hl, List.head?_append, h']
            rfl
        · simp only [List.length_append, List.length_cons, List.length_nil]; omega
    · rw [if_neg hd, if_neg (by rintro (h | h); exacts [hc h, hd h]), List.append_nil]
      exact ⟨c, rfl, rfl, rfl, rfl, rfl, hK_le, hcb, hdrop, hK, by omega⟩

/-- one action, no list being open -/
theorem Shut.step {nt d cap : Nat} {c0 : List Int} {pre : List Action} {c : ConfAcc} {p : Action}
    (I : Shut nt d c0 pre c) (hnt : p.symbol < nt)
    (hord : ∀ x ∈ pre, x.suppressed = 1 → x.symbol < p.symbol)
    (hcap : c0.length + weight (pre ++ [p]) ≤ cap) :
    ∃ c' K', (if p.suppressed = 1 then { c with csym := some p.symbol }.add cap d p else Out.ok c) = .ok c' ∧
      ConfInv nt d c0 (pre ++ [p]) c' K' := by
  have hempty : ∀ s, p.symbol = s → ∀ x ∈ pre, ¬ (x.symbol = s ∧ x.suppressed = 1) := by
    rintro s rfl x hx ⟨h1, h2⟩
    have := hord x hx h2
    omega
  have hl0 : listing d pre p.symbol = [] := by
    unfold listing
    rw [List.filter_eq_nil_iff]
    intro x hx h
    simp only [Bool.and_eq_true, beq_iff_eq] at h
    exact hempty _ rfl x hx h.1
  by_cases hs : p.suppressed = 1
  · rw [if_pos hs]
    have hw : weight (pre ++ [p]) = weight pre + 3 := by
      rw [weight_snoc]
      exact weight_cons_new p pre hs (fun y hy h1 h2 => hempty _ rfl y hy ⟨h2, h1⟩)
    have hlen := I.len
    obtain ⟨c', h1, h2, h3, h4, h5, h6, h7, h8, h9, h10⟩ := add_spec (cap := cap) (d := d) (p := p) (K := c.conflicts.length) (m := 0) (l := [])
      (c := { c with csym := some p.symbol }) (by simp only; rw [I.cbase]) (le_refl _)
      (by simp only [List.take_length]; exact I.ends) (by simp only; rw [I.cbase, List.drop_length]; rfl) (.inl I.cbase)
      (by simp only; omega) (by omega)
    simp only [List.take_length] at h2 h3 h4 h5
    have hlist : listing d (pre ++ [p]) p.symbol = [] ++ if p.code = .SHIFT ∨ p.number ≠ d then [p] else [] := by
      rw [listing_snoc, hl0]
      simp [hs]
    have hcnt : (pre ++ [p]).countP (fun x => x.symbol == p.symbol && x.suppressed == 1) = 1 := by
      rw [List.countP_append, List.countP_eq_zero.2]
      · simp [hs]
      · intro x hx h
        simp only [Bool.and_eq_true, beq_iff_eq] at h
        exact hempty _ rfl x hx h
    refine ⟨c', c.conflicts.length, h1, ?_⟩
    refine ⟨by rw [h3]; exact I.rowlen, by rw [h3, h4]; exact I.half, h6, by rw [h5]; exact I.init, by rw [h5]; exact I.ends,
      (fun h => by rw [h2] at h; cases h), ?_, ?_, ?_, ?_, ?_, (fun h => by rw [h2] at h; cases h), ?_⟩
    · intro s hs'
      rw [h2] at hs'; cases hs'
      rw [hlist]
      exact ⟨(marked_snoc _ _ _).2 (.inr ⟨rfl, hs⟩), h7, h8, h9⟩
    · intro s hm hne
      rw [h2] at hne
      have hne : p.symbol ≠ s := fun e => hne (by rw [e])
      obtain ⟨j, e1, e2⟩ := I.closed s (((marked_snoc _ _ _).1 hm).resolve_right (fun h => hne h.1))
      exact ⟨j, by rw [h3]; exact e1, by rw [h5, listing_snoc_ne hne]; exact e2⟩
    · intro s hm
      rw [h3]
      exact I.unmarked s (fun h => hm ((marked_snoc _ _ _).2 (.inl h)))
    · intro s hs'
      rw [h2] at hs'; cases hs'
      rw [h3]
      exact I.unmarked _ (fun ⟨x, hx, h⟩ => hempty _ rfl x hx h)
    · intro x hx h
      rcases List.mem_append.1 hx with hx | hx
      · exact .inr ⟨p, by simp, hord x hx h⟩
      · simp at hx; subst hx; exact .inl h2
    · intro s hs'
      rw [h2] at hs'; cases hs'
      rw [hcnt]
      omega
  · rw [if_neg hs]
    have hw : weight (pre ++ [p]) = weight pre := by rw [weight_snoc]; exact weight_cons_not p pre hs
    have hm : ∀ s, Marked (pre ++ [p]) s ↔ Marked pre s := by
      intro s
      rw [marked_snoc]
      constructor
      · rintro (h | h)
        · exact h
        · exact absurd h.2 hs
      · exact .inl
    have hlist : ∀ s, listing d (pre ++ [p]) s = listing d pre s := by
      intro s
      rw [listing_snoc, if_neg (fun h => hs h.2.1), List.append_nil]
    have hnone : ∀ s, c.csym ≠ some s := fun s => by rw [I.csym]; simp
    refine ⟨c, c.conflicts.length, rfl, ?_⟩
    refine ⟨I.rowlen, I.half, le_refl _, by rw [List.take_length]; exact I.init, by rw [List.take_length]; exact I.ends,
      fun _ => ⟨I.cbase, rfl⟩, fun s h => absurd h (hnone s), ?_, ?_, fun s h => absurd h (hnone s), ?_, ?_, fun s h => absurd h (hnone s)⟩
    · intro s h _
      obtain ⟨j, e1, e2⟩ := I.closed s ((hm s).1 h)
      exact ⟨j, e1, by rw [List.take_length, hlist]; exact e2⟩
    · intro s h
      exact I.unmarked s (fun h' => h ((hm s).2 h'))
    · intro x hx h
      rcases List.mem_append.1 hx with hx | hx
      · exact .inr ⟨p, by simp, hord x hx h⟩
      · simp at hx; subst hx; exact absurd h hs
    · intro _
      rw [hw]; exact I.len

/-- one action -/
theorem ConfInv.step {nt d cap : Nat} {c0 : List Int} {pre : List Action} {c : ConfAcc} {K : Nat} {p : Action}
    (I : ConfInv nt d c0 pre c K) (hnt : ∀ x ∈ pre ++ [p], x.symbol < nt) (halt : ∀ x ∈ pre ++ [p], 0 ≤ x.alt)
    (hord : ∀ x ∈ pre, x.symbol ≤ p.symbol)
    (hcap : c0.length + weight (pre ++ [p]) ≤ cap) :
    ∃ c' K', confStep cap d c p = .ok c' ∧ ConfInv nt d c0 (pre ++ [p]) c' K' := by
  have hwle : weight pre ≤ weight (pre ++ [p]) := by rw [weight_snoc]; exact weight_cons_le p pre
  unfold confStep ConfAcc.change
  cases hc : c.csym with
  | none =>
    simp only [Out.bind]
    refine (I.shut hc).step (hnt p (by simp)) ?_ hcap
    intro x hx h
    rcases I.order x hx h with h' | ⟨y, hy, h'⟩
    · rw [hc] at h'; cases h'
    · have := hord y hy
      omega
  | some s =>
    simp only
    by_cases hne : s ≠ p.symbol
    · rw [if_pos hne]
      obtain ⟨hm, -⟩ := I.some_ s hc
      have hs : s < nt := by
        obtain ⟨x, hx, rfl, -⟩ := hm
        exact hnt x (by simp [hx])
      obtain ⟨c', h1, h2⟩ := I.flush (cap := cap) hc hs (fun x hx => halt x (by simp [hx])) (by omega)
      rw [h1]
      simp only [Out.bind]
      refine h2.step (hnt p (by simp)) ?_ hcap
      intro x hx h
      rcases I.order x hx h with h' | ⟨y, hy, h'⟩
      · rw [hc] at h'; cases h'
        have := hord x hx
        omega
      · have := hord y hy
        omega
    · rw [if_neg hne]
      simp only [Out.bind]
      have he : s = p.symbol := by simpa using hne
      subst he
      obtain ⟨hmk, hcb, hdrop, hK⟩ := I.some_ _ hc
      obtain ⟨l1, l2⟩ := I.len_some _ hc
      by_cases hs : p.suppressed = 1
      · rw [if_pos hs]
        have hcc : { c with csym := some p.symbol } = c := by cases c; simp only at hc; subst hc; rfl
        rw [hcc]
        have hw : weight (pre ++ [p]) = weight pre + 1 := by
          rw [weight_snoc]
          obtain ⟨y, hy, y1, y2⟩ := hmk
          exact weight_cons_mark' p pre hs ⟨y, hy, y2, y1⟩
        obtain ⟨c', h1, h2, h3, h4, h5, h6, h7, h8, h9, h10⟩ := add_spec (cap := cap) (d := d) (p := p) hcb I.K_le I.ends hdrop hK l1 (by omega)
        have hlist : listing d (pre ++ [p]) p.symbol = listing d pre p.symbol ++ if p.code = .SHIFT ∨ p.number ≠ d then [p] else [] := by
          rw [listing_snoc]
          simp [hs]
        have hcnt : (pre ++ [p]).countP (fun x => x.symbol == p.symbol && x.suppressed == 1) =
            pre.countP (fun x => x.symbol == p.symbol && x.suppressed == 1) + 1 := by
          rw [List.countP_append]
          simp [hs]
        rw [hc] at h2
        refine ⟨c', K, h1, ?_⟩
        refine ⟨by rw [h3]; exact I.rowlen, by rw [h3, h4]; exact I.half, h6, by rw [h5]; exact I.init, by rw [h5]; exact I.ends,
          (fun h => by rw [h2] at h; cases h), ?_, ?_, ?_, ?_, ?_, (fun h => by rw [h2] at h; cases h), ?_⟩
        · intro s hs'
          rw [h2] at hs'; cases hs'
          rw [hlist]
          exact ⟨(marked_snoc _ _ _).2 (.inr ⟨rfl, hs⟩), h7, h8, h9⟩
        · intro s hm hne
          rw [h2] at hne
          have hne : p.symbol ≠ s := fun e => hne (by rw [e])
          obtain ⟨j, e1, e2⟩ := I.closed s (((marked_snoc _ _ _).1 hm).resolve_right (fun h => hne h.1))
            (by rw [hc]; exact fun e => hne (Option.some.inj e))
          exact ⟨j, by rw [h3]; exact e1, by rw [h5, listing_snoc_ne hne]; exact e2⟩
        · intro s hm
          rw [h3]
          exact I.unmarked s (fun h => hm ((marked_snoc _ _ _).2 (.inl h)))
        · intro s hs'
          rw [h2] at hs'; cases hs'
          rw [h3]
          exact I.opened _ hc
        · intro x hx h
          rcases List.mem_append.1 hx with hx | hx
          · rcases I.order x hx h with h' | ⟨y, hy, h'⟩
            · exact .inl (by rw [h2, ← hc]; exact h')
            · exact .inr ⟨y, by simp [hy], h'⟩
          · simp at hx; subst hx; exact .inl h2
        · intro s hs'
          rw [h2] at hs'; cases hs'
          rw [hcnt]
          omega
      · rw [if_neg hs]
        have hw : weight (pre ++ [p]) = weight pre := by rw [weight_snoc]; exact weight_cons_not p pre hs
        have hm : ∀ s, Marked (pre ++ [p]) s ↔ Marked pre s := by
          intro s
          rw [marked_snoc]
          constructor
          · rintro (h | h)
            · exact h
            · exact absurd h.2 hs
          · exact .inl
        have hlist : ∀ s, listing d (pre ++ [p]) s = listing d pre s := by
          intro s
          rw [listing_snoc, if_neg (fun h => hs h.2.1), List.append_nil]
        refine ⟨c, K, rfl, ?_⟩
        refine ⟨I.rowlen, I.half, I.K_le, I.init, I.ends, I.none_, ?_, ?_, ?_, I.opened, ?_, ?_, ?_⟩
        · intro s h
          rw [hm, hlist]
          exact I.some_ s h
        · intro s h hne
          obtain ⟨j, e1, e2⟩ := I.closed s ((hm s).1 h) hne
          exact ⟨j, e1, by rw [hlist]; exact e2⟩
        · intro s h
          exact I.unmarked s (fun h' => h ((hm s).2 h'))
        · intro x hx h
          rcases List.mem_append.1 hx with hx | hx
          · rcases I.order x hx h with h' | ⟨y, hy, h'⟩
            · exact .inl h'
            · exact .inr ⟨y, by simp [hy], h'⟩
          · simp at hx; subst hx; exact absurd h hs
        · rw [hw]; exact I.len_none
        · intro s h
          rw [hw, List.countP_append, List.countP_cons_of_neg (by simp [hs]), List.countP_nil, Nat.add_zero]
          exact I.len_some s h

/-- The list of one state. -/
theorem confRow_spec {nt d cap : Nat} {c0 : List Int} {acts : List Action} (hnt : ∀ x ∈ acts, x.symbol < nt)
    (halt : ∀ x ∈ acts, 0 ≤ x.alt) (hsort : acts.Pairwise (fun x y => x.symbol ≤ y.symbol)) (hends : EndsNeg c0)
    (hcap : c0.length + weight acts ≤ cap) :
    ∃ c, confRow cap nt d c0 acts = .ok c ∧ Shut nt d c0 acts c := by
  have hz : ∀ k, (List.replicate nt 0).getD k 0 = 0 := by
    intro k
    rw [List.getD_eq_getElem?_getD, List.getElem?_replicate]
    split <;> rfl
  have h0 : ConfInv nt d c0 [] ⟨c0, c0.length, none, List.replicate nt 0, 0⟩ c0.length := by
    refine ⟨by simp, ⟨?_, ?_⟩, le_refl _, by simp, by simpa using hends, fun _ => ⟨rfl, rfl⟩, by simp, ?_, ?_, by simp, by simp,
      fun _ => by simp [weight, markedOnes], by simp⟩
    · intro j hj v hv
      simp only [Nat.zero_add]
      exact ⟨fun h => ⟨hv, h⟩, fun h => h.2⟩
    · simp only [hz]; simp
    · rintro s ⟨x, hx, -⟩; simp at hx
    · intro s _; exact hz s
  have hloop : ∀ (rest pre : List Action) (c : ConfAcc) (K : Nat), pre ++ rest = acts → ConfInv nt d c0 pre c K →
      ∃ c' K', confLoop cap d c rest = .ok c' ∧ ConfInv nt d c0 acts c' K' := by
    intro rest
    induction rest with
    | nil =>
      intro pre c K he I
      rw [List.append_nil] at he
      subst he
      exact ⟨c, K, rfl, I⟩
    | cons p rest ih =>
      intro pre c K he I
      have he' : (pre ++ [p]) ++ rest = acts := by rw [← he]; simp
      have hsub : ∀ x ∈ pre ++ [p], x ∈ acts := fun x hx => by rw [← he']; exact List.mem_append_left _ hx
      have hwle : weight (pre ++ [p]) ≤ weight acts := by
        rw [← he', weight_perm (List.perm_append_comm (l₁ := pre ++ [p]))]
        exact weight_append_le _ _
      obtain ⟨c', K', h1, h2⟩ := I.step (cap := cap) (p := p) (fun x hx => hnt x (hsub x hx)) (fun x hx => halt x (hsub x hx))
        (by
          intro x hx
          rw [← he] at hsort
          exact (List.pairwise_append.1 hsort).2.2 x hx p (by simp)) (by omega)
      rw [confLoop.eq_def]
      simp only
      rw [h1]
      simp only [Out.bind]
      exact ih (pre ++ [p]) c' K' he' h2
  obtain ⟨c, K, h1, I⟩ := hloop acts [] _ _ (by simp) h0
  unfold confRow
  rw [h1]
  simp only [Out.bind]
  cases hc : c.csym with
  | none => exact ⟨c, rfl, I.shut hc⟩
  | some s =>
    simp only
    obtain ⟨x, hx, rfl, -⟩ := (I.some_ s hc).1
    exact I.flush hc (hnt x hx) halt hcap

end Verif.Byacc
