import Verif.Byacc.Reader
import Verif.Spec.Grammar
import Mathlib.Data.List.Basic
import Mathlib.Tactic.Linarith
namespace Verif.Byacc
open Spec

/-- A user rule with the buckets of its symbols. -/
structure SrcRule where
  lhs : Bucket
  rhs : List Bucket
  rprec : Int
  rassoc : Assoc

/-- One rule in `pitem`: its symbols, then NULL. -/
def SrcRule.enc (s : SrcRule) : List (Option Bucket) := s.rhs.map some ++ [none]

/-- Part of a rule kept in `plhs`, `rprec`, `rassoc`. -/
def SrcRule.p (s : SrcRule) : PRule := ⟨s.lhs, s.rprec, s.rassoc⟩

/-- `pitem` while rules `rs` have been read. -/
def encPitem (rs : List SrcRule) : List (Option Bucket) :=
  [none, none, none, none] ++ rs.flatMap SrcRule.enc

/-- index form of a rule -/
def SrcRule.rule (s : SrcRule) : Nat × List Nat := (s.lhs.index, s.rhs.map Bucket.index)

/-- The augmented grammar: `$accept → goal $end` followed by the user's rules. -/
def augCFG (ntokens : Nat) (rules : List (Nat × List Nat)) : CFG :=
  { ntok := ntokens, rules := (ntokens, [ntokens+1, 0]) :: rules }

/-- The item array from the first item of rule number `i` on. -/
def blocks (i : Nat) : List (Nat × List Nat) → List Int
  | [] => []
  | r :: rs => r.2.map (fun x : Nat => (x : Int)) ++ (-(i : Int)) :: blocks (i+1) rs

/-- `g` stores the grammar `G` (rule `r` of `G` has internal number `r+2`). -/
structure Packs (g : Gram) (G : CFG) : Prop where
  ntok : g.ntokens = G.ntok
  nrules : g.nrules = G.rules.length + 2
  lhs : ∀ (r A : Nat) (α : List Nat), G.rules[r]? = some (A, α) → g.lhs (r+2) = A
  sym : ∀ (r A : Nat) (α : List Nat) (d X : Nat), G.rules[r]? = some (A, α) → α[d]? = some X →
    g.item (g.rhs (r+2) + d) = (X : Int)
  term : ∀ (r A : Nat) (α : List Nat), G.rules[r]? = some (A, α) → g.item (g.rhs (r+2) + α.length) = -((r+2 : Nat) : Int)
  next : ∀ (r A : Nat) (α : List Nat), G.rules[r]? = some (A, α) → g.rhs (r+3) = g.rhs (r+2) + α.length + 1
  one : g.rhs 2 = 1
  zero : g.item 0 = -1
  nitems : g.nitems = g.rhs (G.rules.length + 2)
  low : g.lhs 0 = 0 ∧ g.lhs 1 = 0
  flat : g.ritem = -1 :: blocks 2 G.rules

theorem packRhs_enc (lp : Bool) (bs : List Bucket) (rest : List (Option Bucket)) (p : Int) (a : Assoc) :
    (packRhs lp (bs.map some ++ none :: rest) p a).items = bs.map (fun b => (b.index : Int)) ∧
    (packRhs lp (bs.map some ++ none :: rest) p a).rest = rest := by
  induction bs generalizing p a with
  | nil => simp [packRhs]
  | cons b bs ih =>
    simp only [List.map_cons, List.cons_append, packRhs]
    constructor
    · simp [(ih _ _).1]
    · exact (ih _ _).2

/-- start offsets -/
def offs (j : Nat) : List SrcRule → List Nat
  | [] => [j]
  | s :: rs => j :: offs (j + s.rhs.length + 1) rs

def flatItems (i : Nat) : List SrcRule → List Int
  | [] => []
  | s :: rs => s.rhs.map (fun b => (b.index : Int)) ++ (-(i : Int)) :: flatItems (i+1) rs

theorem packRules_enc (lp : Bool) (rs : List SrcRule) (i j : Nat) :
    (packRules lp i j (rs.map SrcRule.p) (rs.flatMap SrcRule.enc)).ritem = flatItems i rs ∧
    (packRules lp i j (rs.map SrcRule.p) (rs.flatMap SrcRule.enc)).rlhs = rs.map (fun s => s.lhs.index) ∧
    (packRules lp i j (rs.map SrcRule.p) (rs.flatMap SrcRule.enc)).rrhs = offs j rs := by
  induction rs generalizing i j with
  | nil => simp [packRules, flatItems, offs]
  | cons s rs ih =>
    have h := packRhs_enc lp s.rhs (rs.flatMap SrcRule.enc) 0 .TOKEN
    have e : (s :: rs).flatMap SrcRule.enc = s.rhs.map some ++ none :: rs.flatMap SrcRule.enc := by
      simp [SrcRule.enc]
    rw [e]
    simp only [List.map_cons, packRules, h.1, h.2, List.length_map, flatItems, offs]
    obtain ⟨h1, h2, h3⟩ := ih (i+1) (j + s.rhs.length + 1)
    simp [h1, h2, h3, SrcRule.p]

theorem offs_get (rs : List SrcRule) (j k : Nat) (hk : k < rs.length) :
    (offs j rs).getD (k+1) 0 = (offs j rs).getD k 0 + (rs[k]).rhs.length + 1 := by
  induction rs generalizing j k with
  | nil => simp at hk
  | cons s rs ih =>
    cases k with
    | zero => cases rs <;> simp [offs]
    | succ k =>
      simp only [List.length_cons] at hk
      have := ih (j + s.rhs.length + 1) k (by omega)
      simpa [offs] using this

theorem offs_zero (rs : List SrcRule) (j : Nat) : (offs j rs).getD 0 0 = j := by
  cases rs <;> simp [offs]

theorem offs_len (rs : List SrcRule) (j i : Nat) :
    (offs j rs).getD rs.length 0 = j + (flatItems i rs).length := by
  induction rs generalizing j i with
  | nil => simp [offs, flatItems]
  | cons s rs ih =>
    have := ih (j + s.rhs.length + 1) (i+1)
    simp only [offs, List.length_cons, List.getD_cons_succ, this, flatItems, List.length_append,
      List.length_map]
    omega

theorem offs_ge (rs : List SrcRule) (j k : Nat) (hk : k ≤ rs.length) : j ≤ (offs j rs).getD k 0 := by
  induction rs generalizing j k with
  | nil => simp at hk; subst hk; simp [offs]
  | cons s rs ih =>
    cases k with
    | zero => simp [offs]
    | succ k =>
      have := ih (j + s.rhs.length + 1) k (by simpa using hk)
      simp only [offs, List.getD_cons_succ]; omega

theorem flatItems_get (rs : List SrcRule) (i j k d : Nat) (hk : k < rs.length) (hd : d ≤ (rs[k]).rhs.length) :
    (flatItems i rs).getD ((offs j rs).getD k 0 + d - j) 0 =
      ((rs[k]).rhs.map (fun b => (b.index : Int)) ++ [-((i + k : Nat) : Int)]).getD d 0 := by
  induction rs generalizing i j k with
  | nil => simp at hk
  | cons s rs ih =>
    cases k with
    | zero =>
      simp only [offs, flatItems, List.getD_cons_zero, List.getElem_cons_zero, Nat.add_zero]
      simp only [List.getElem_cons_zero] at hd
      rw [show j + d - j = d by omega]
      simp only [List.getD_eq_getElem?_getD]
      rcases Nat.lt_or_ge d s.rhs.length with h | h
      · rw [List.getElem?_append_left (by simpa using h), List.getElem?_append_left (by simpa using h)]
      · have : d = s.rhs.length := by omega
        subst this
        simp
    | succ k =>
      simp only [List.length_cons] at hk
      simp only [List.getElem_cons_succ] at hd
      have h1 := ih (i+1) (j + s.rhs.length + 1) k (by omega) hd
      have h2 := offs_ge rs (j + s.rhs.length + 1) k (by omega)
      simp only [offs, flatItems, List.getD_cons_succ, List.getElem_cons_succ]
      rw [show i + 1 + k = i + (k+1) by omega] at h1
      rw [← h1]
      simp only [List.getD_eq_getElem?_getD]
      simp only [List.getD_eq_getElem?_getD] at h2
      rw [List.getElem?_append_right (by simp only [List.length_map]; omega)]
      simp only [List.length_map]
      rw [show (offs (j + s.rhs.length + 1) rs)[k]?.getD 0 + d - j - s.rhs.length =
        ((offs (j + s.rhs.length + 1) rs)[k]?.getD 0 + d - (j + s.rhs.length + 1)) + 1 by
          omega]
      simp

theorem blocks_eq (i : Nat) (rs : List SrcRule) : blocks i (rs.map SrcRule.rule) = flatItems i rs := by
  induction rs generalizing i with
  | nil => rfl
  | cons s rs ih =>
    simp only [List.map_cons, blocks, flatItems, ih, SrcRule.rule, List.map_map]
    rfl

theorem packs_packGrammar (lp : Bool) (ntokens nsyms : Nat) (rs : List SrcRule) :
    Packs (packGrammar lp ntokens nsyms (rs.map SrcRule.p) (encPitem rs))
      (augCFG ntokens (rs.map SrcRule.rule)) := by
  obtain ⟨h1, h2, h3⟩ := packRules_enc lp rs 3 4
  have hd : (encPitem rs).drop 4 = rs.flatMap SrcRule.enc := by simp [encPitem]
  have hri : (packGrammar lp ntokens nsyms (rs.map SrcRule.p) (encPitem rs)).ritem =
      [-1, ((ntokens + 1 : Nat) : Int), 0, -2] ++ flatItems 3 rs := by
    simp only [packGrammar, hd, h1]
  have hrl : (packGrammar lp ntokens nsyms (rs.map SrcRule.p) (encPitem rs)).rlhs =
      [0, 0, ntokens] ++ rs.map (fun s => s.lhs.index) := by
    simp only [packGrammar, hd, h2]
  have hrr : (packGrammar lp ntokens nsyms (rs.map SrcRule.p) (encPitem rs)).rrhs =
      [0, 0, 1] ++ offs 4 rs := by
    simp only [packGrammar, hd, h3]
  generalize hg : packGrammar lp ntokens nsyms (rs.map SrcRule.p) (encPitem rs) = g at *
  have hrhs : ∀ k, g.rhs (k+3) = (offs 4 rs).getD k 0 := by
    intro k; simp [Gram.rhs, hrr]
  have hrhs2 : g.rhs 2 = 1 := by simp [Gram.rhs, hrr]
  have hitem : ∀ k, g.item (k+4) = (flatItems 3 rs).getD k 0 := by
    intro k; simp [Gram.item, hri]
  have hnt : g.ntokens = ntokens := by rw [← hg]; rfl
  have huser : ∀ (k : Nat) (A : Nat) (α : List Nat), (rs.map SrcRule.rule)[k]? = some (A, α) →
      ∃ h : k < rs.length, (rs[k]).lhs.index = A ∧ (rs[k]).rhs.map Bucket.index = α := by
    intro k A α h
    rw [List.getElem?_map] at h
    rcases hk : rs[k]? with _ | s
    · simp [hk] at h
    · obtain ⟨hlt, hs⟩ := List.getElem?_eq_some_iff.mp hk
      refine ⟨hlt, ?_⟩
      rw [hk] at h
      simp [SrcRule.rule] at h
      rw [hs]; exact h
  have hgen : ∀ (k : Nat) (A : Nat) (α : List Nat) (d : Nat), (rs.map SrcRule.rule)[k]? = some (A, α) →
      d ≤ α.length →
      g.item (g.rhs (k+3) + d) = (α.map (fun x : Nat => (x : Int)) ++ [-((3 + k : Nat) : Int)]).getD d 0 := by
    intro k A α d h hdl
    obtain ⟨hk, hA, hα⟩ := huser k A α h
    subst hα
    have hge := offs_ge rs 4 k (by omega)
    rw [hrhs, show (offs 4 rs).getD k 0 + d = ((offs 4 rs).getD k 0 + d - 4) + 4 by omega, hitem,
      flatItems_get rs 3 4 k d hk (by simpa using hdl), List.map_map]
    rfl
  constructor
  · exact hnt
  · simp [Gram.nrules, hrl, augCFG]
  · intro r A α h
    cases r with
    | zero => simp [augCFG] at h; simp [Gram.lhs, hrl, h.1]
    | succ k =>
      simp only [augCFG, List.getElem?_cons_succ] at h
      obtain ⟨hk, hA, hα⟩ := huser k A α h
      simp [Gram.lhs, hrl, List.getElem?_eq_getElem hk, hA]
  · intro r A α d X h hX
    cases r with
    | zero =>
      simp [augCFG] at h
      obtain ⟨rfl, rfl⟩ := h
      rw [hrhs2]
      match d with
      | 0 => simp at hX; subst hX; simp [Gram.item, hri]
      | 1 => simp at hX; subst hX; simp [Gram.item, hri]
      | d+2 => simp at hX
    | succ k =>
      simp only [augCFG, List.getElem?_cons_succ] at h
      obtain ⟨hlt, hx⟩ := List.getElem?_eq_some_iff.mp hX
      have := hgen k A α d h (by omega)
      rw [show k + 1 + 2 = k + 3 by omega, this]
      simp only [List.getD_eq_getElem?_getD]
      rw [List.getElem?_append_left (by simpa using hlt)]
      simp [hX]
  · intro r A α h
    cases r with
    | zero =>
      simp [augCFG] at h
      obtain ⟨rfl, rfl⟩ := h
      rw [hrhs2]; simp [Gram.item, hri]
    | succ k =>
      simp only [augCFG, List.getElem?_cons_succ] at h
      have := hgen k A α α.length h le_rfl
      rw [show k + 1 + 2 = k + 3 by omega, this]
      simp only [List.getD_eq_getElem?_getD]
      rw [List.getElem?_append_right (by simp)]
      simp; omega
  · intro r A α h
    cases r with
    | zero =>
      simp [augCFG] at h
      obtain ⟨rfl, rfl⟩ := h
      rw [hrhs2, hrhs 0, offs_zero]; simp
    | succ k =>
      simp only [augCFG, List.getElem?_cons_succ] at h
      obtain ⟨hk, hA, hα⟩ := huser k A α h
      have := offs_get rs 4 k hk
      rw [show k + 1 + 3 = (k+1) + 3 by omega, show k + 1 + 2 = k + 3 by omega, hrhs, hrhs, this, ← hα]
      simp
  · exact hrhs2
  · simp [Gram.item, hri]
  · have := offs_len rs 4 3
    rw [show (augCFG ntokens (rs.map SrcRule.rule)).rules.length + 2 = rs.length + 3 by simp [augCFG], hrhs,
      this]
    simp [Gram.nitems, hri]; omega
  · simp [Gram.lhs, hrl]
  · rw [hri]; simp [augCFG, blocks, blocks_eq]

end Verif.Byacc
