import Verif.Proofs.LR0
import Verif.Props.C02
/-
C04 — the LR(0) automaton (byacc/lr0.c).
-/
set_option autoImplicit false
namespace Verif.Byacc
open Spec Relation

/-- Item `(r,d)` is in the kernel stored for state `s`. -/
def KernelItem (g : Gram) (G : CFG) (a : LR0) (s r d : Nat) : Prop :=
  ∃ c, a.states[s]? = some c ∧ IsItem G r d ∧ g.rhs (r+2) + d ∈ c.items

/-- `shifts[s]` has a transition on symbol `X` to state `t`: `t` is in the list and its
accessing symbol is `X`. -/
def ShiftsTo (a : LR0) (s X t : Nat) : Prop :=
  ∃ sh c, a.shifts[s]? = some sh ∧ t ∈ sh ∧ a.states[t]? = some c ∧ c.acc = X

/-- Rule `r` is listed in the reductions of state `s`. -/
def Reduces (a : LR0) (s r : Nat) : Prop := ∃ rd, a.reds[s]? = some rd ∧ r + 2 ∈ rd

/-- The result of the construction is the LR(0) automaton of `G` (rule 0 of `G` is
`$accept: goal $end`; `$end`, symbol 0, is never shifted). -/
structure IsLR0Automaton (g : Gram) (G : CFG) (a : LR0) : Prop where
  /-- every state has been processed -/
  sizes : 0 < a.states.length ∧ a.shifts.length = a.states.length ∧ a.reds.length = a.states.length
  /-- state 0 is the start state -/
  start : ∀ r d, KernelItem g G a 0 r d ↔ (r = 0 ∧ d = 0)
  /-- different states have different kernels -/
  distinct : ∀ s t, s < a.states.length → t < a.states.length →
    (∀ r d, KernelItem g G a s r d ↔ KernelItem g G a t r d) → s = t
  /-- a transition exists exactly when some item has its dot before the symbol -/
  transition : ∀ s X, s < a.states.length →
    ((∃ t, ShiftsTo a s X t) ↔ (X ≠ 0 ∧ ∃ r d, Closed G (KernelItem g G a s) r d ∧ DotBefore G r d X))
  /-- and leads to the state whose kernel is exactly those items with the dot advanced -/
  target : ∀ s X t, ShiftsTo a s X t → s < a.states.length ∧ t < a.states.length ∧ t ≠ 0 ∧
    ∀ r d, KernelItem g G a t r d ↔
      ∃ d', d = d' + 1 ∧ Closed G (KernelItem g G a s) r d' ∧ DotBefore G r d' X
  /-- shift lists contain only states -/
  valid : ∀ (s : Nat) (sh : List Nat) (t : Nat), a.shifts[s]? = some sh → t ∈ sh → t < a.states.length
  /-- transitions are listed by increasing symbol -/
  ordered : ∀ (s : Nat) (sh : List Nat), a.shifts[s]? = some sh →
    sh.Pairwise (fun t t' => ∃ X X', ShiftsTo a s X t ∧ ShiftsTo a s X' t' ∧ X < X')
  /-- every state can be reached, through states created earlier -/
  reachable : ∀ t, t < a.states.length → t ≠ 0 → ∃ s X, s < t ∧ ShiftsTo a s X t
  /-- reductions are exactly the complete items -/
  reductions : ∀ s r, s < a.states.length →
    (Reduces a s r ↔ ∃ d, Closed G (KernelItem g G a s) r d ∧ Complete G r d)
  /-- listed by increasing rule number -/
  redsSorted : ∀ (s : Nat) (rd : List Nat), a.reds[s]? = some rd → rd.Pairwise (· < ·) ∧ ∀ x ∈ rd, 2 ≤ x

theorem reductionsOf_spec {g : Gram} {G : CFG} (hp : Packs g G) {it : List Nat} (hs : it.Pairwise (· < ·))
    (hit : ItemPos g it) :
    (reductionsOf g it).Pairwise (· < ·) ∧
    ∀ x, x ∈ reductionsOf g it ↔ ∃ r d, x = r + 2 ∧ itemsAt g G it r d ∧ Complete G r d := by
  have hval : ∀ j ∈ it, ∀ b, (if g.item j < 0 then some (-(g.item j)).toNat else none) = some b →
      ∃ r A α, b = r + 2 ∧ G.rules[r]? = some (A, α) ∧ j = pos g r α.length := by
    intro j hj b hb
    split at hb
    · rename_i hneg
      simp only [Option.some.injEq] at hb
      obtain ⟨r, d, hi, rfl⟩ := exists_item hp (hit j hj).1 (hit j hj).2
      rcases item_cases hp hi with ⟨A, α, Y, hr, hY, e⟩ | ⟨A, α, hr, hd, e⟩
      · omega
      · rw [e] at hb
        exact ⟨r, A, α, by omega, hr, by rw [hd]⟩
    · simp at hb
  constructor
  · unfold reductionsOf
    rw [List.pairwise_filterMap]
    apply hs.imp_of_mem
    intro a b ha hb hab x hx y hy
    obtain ⟨r, A, α, rfl, hr, rfl⟩ := hval a ha x hx
    obtain ⟨r', A', α', rfl, hr', rfl⟩ := hval b hb y hy
    rcases Nat.lt_trichotomy r r' with h | h | h
    · omega
    · subst h; rw [hr] at hr'; simp only [Option.some.injEq, Prod.mk.injEq] at hr'
      obtain ⟨rfl, rfl⟩ := hr'; omega
    · have := rhs_mono hp h (Nat.le_of_lt (List.getElem?_eq_some_iff.mp hr).1) A' α' hr'
      unfold pos at hab; omega
  · intro x
    simp only [reductionsOf, List.mem_filterMap]
    constructor
    · rintro ⟨j, hj, hx⟩
      obtain ⟨r, A, α, rfl, hr, rfl⟩ := hval j hj x hx
      exact ⟨r, α.length, rfl, ⟨⟨A, α, hr, le_rfl⟩, hj⟩, ⟨A, α, hr, rfl⟩⟩
    · rintro ⟨r, d, rfl, ⟨hi, hm⟩, ⟨A, α, hr, rfl⟩⟩
      refine ⟨_, hm, ?_⟩
      rw [item_end hp hr, if_pos (by omega)]
      congr 1

theorem isLR0Automaton {g : Gram} {G : CFG} (hp : Packs g G) (hwf : WF G g.nsyms) :
    ∃ a, generateStates g = some a ∧ IsLR0Automaton g G a := by
  obtain ⟨a, ha, hok, hlen⟩ := generateStates_ok hp hwf
  refine ⟨a, ha, ?_⟩
  have hker : ∀ s c, a.states[s]? = some c → KernelItem g G a s = itemsAt g G c.items := by
    intro s c hc
    funext r d
    simp only [KernelItem, itemsAt, pos, eq_iff_iff]
    constructor
    · rintro ⟨c', hc', h⟩
      rw [hc] at hc'; simp only [Option.some.injEq] at hc'; subst hc'; exact h
    · intro h; exact ⟨c, hc, h⟩
  have hfull : ∀ s, s < a.states.length → ∃ c sh rd, a.states[s]? = some c ∧ a.shifts[s]? = some sh ∧
      a.reds[s]? = some rd := by
    intro s hs
    have h1 : s < a.shifts.length := by omega
    have h2 : s < a.reds.length := by have := hok.len; omega
    exact ⟨_, _, _, List.getElem?_eq_getElem hs, List.getElem?_eq_getElem h1, List.getElem?_eq_getElem h2⟩
  -- facts about one state
  have hst : ∀ s c sh, a.states[s]? = some c → a.shifts[s]? = some sh →
      let it := closure g (setFirstDerives g) c.items
      it.Pairwise (· < ·) ∧ ItemPos g it ∧
      (∀ r d, itemsAt g G it r d ↔ Closed G (KernelItem g G a s) r d) ∧
      (symsOf g it).Pairwise (· < ·) ∧
      (∀ X, X ∈ symsOf g it ↔ 0 < X ∧ ∃ j ∈ it, g.item j = (X : Int)) ∧
      List.Forall₂ (fun X t => a.states[t]? = some ⟨X, kernelOf g it X⟩ ∧ t ≠ 0) (symsOf g it) sh := by
    intro s c sh hc hsh it
    have hcm := List.mem_of_getElem? hc
    obtain ⟨h1, h2, h3⟩ := closure_items hp hwf c.items (hok.st.sorted c hcm) (hok.st.pos c hcm)
    have hit : ∀ j ∈ it, g.item j < (g.nsyms : Int) :=
      fun j hj => item_lt_nsyms hp hwf (h2 j hj).1 (h2 j hj).2
    obtain ⟨y1, y2⟩ := symsOf_spec g it hit
    have hs : s < a.states.length := (List.getElem?_eq_some_iff.mp hc).1
    obtain ⟨c', sh', rd, hc', hsh', hrd⟩ := hfull s hs
    rw [hc] at hc'; simp only [Option.some.injEq] at hc'; subst hc'
    rw [hsh] at hsh'; simp only [Option.some.injEq] at hsh'; subst hsh'
    refine ⟨h1, h2, ?_, y1, y2, (hok.done s c sh rd hc hsh hrd).1⟩
    rw [hker s c hc]; exact h3
  -- a shift is an element of the Forall₂ list
  have hshift : ∀ (s : Nat) (c : Core) (sh : List Nat) (X t : Nat), a.states[s]? = some c → a.shifts[s]? = some sh →
      ((t ∈ sh ∧ ∃ c', a.states[t]? = some c' ∧ c'.acc = X) ↔
       (X ∈ symsOf g (closure g (setFirstDerives g) c.items) ∧ t ∈ sh ∧
        a.states[t]? = some ⟨X, kernelOf g (closure g (setFirstDerives g) c.items) X⟩ ∧ t ≠ 0)) := by
    intro s c sh X t hc hsh
    obtain ⟨-, -, -, -, -, h6⟩ := hst s c sh hc hsh
    constructor
    · rintro ⟨ht, c', hc', rfl⟩
      obtain ⟨i, hi, rfl⟩ := List.getElem_of_mem ht
      have := (List.forall₂_iff_get.mp h6).2 i (by rw [h6.length_eq]; exact hi) hi
      simp only [List.get_eq_getElem] at this
      rw [hc'] at this
      simp only [Option.some.injEq] at this
      obtain ⟨e, e'⟩ := this
      subst e
      exact ⟨List.getElem_mem _, ht, hc', e'⟩
    · rintro ⟨_, ht, hc', _⟩
      exact ⟨ht, _, hc', rfl⟩
  have hexists : ∀ (s : Nat) (c : Core) (sh : List Nat) (X : Nat), a.states[s]? = some c → a.shifts[s]? = some sh →
      X ∈ symsOf g (closure g (setFirstDerives g) c.items) →
      ∃ t ∈ sh, a.states[t]? = some ⟨X, kernelOf g (closure g (setFirstDerives g) c.items) X⟩ := by
    intro s c sh X hc hsh hX
    obtain ⟨-, -, -, -, -, h6⟩ := hst s c sh hc hsh
    obtain ⟨i, hi, rfl⟩ := List.getElem_of_mem hX
    have hi' : i < sh.length := by rw [← h6.length_eq]; exact hi
    have := (List.forall₂_iff_get.mp h6).2 i hi hi'
    exact ⟨sh[i], List.getElem_mem _, this.1⟩
  have hsym : ∀ (s : Nat) (c : Core) (sh : List Nat) (X : Nat), a.states[s]? = some c → a.shifts[s]? = some sh →
      (X ∈ symsOf g (closure g (setFirstDerives g) c.items) ↔
      (X ≠ 0 ∧ ∃ r d, Closed G (KernelItem g G a s) r d ∧ DotBefore G r d X)) := by
    intro s c sh X hc hsh
    obtain ⟨h1, h2, h3, h4, h5, h6⟩ := hst s c sh hc hsh
    rw [h5 X]
    constructor
    · rintro ⟨h0, j, hj, e⟩
      obtain ⟨r, d, hi, rfl⟩ := exists_item hp (h2 j hj).1 (h2 j hj).2
      exact ⟨by omega, r, d, (h3 r d).mp ⟨hi, hj⟩, (dotBefore_iff hp hi).mpr e⟩
    · rintro ⟨h0, r, d, hcl, hdot⟩
      obtain ⟨hi, hm⟩ := (h3 r d).mpr hcl
      exact ⟨by omega, _, hm, (dotBefore_iff hp hi).mp hdot⟩
  refine ⟨⟨(List.getElem?_eq_some_iff.mp hok.st.zero).1, hlen, by rw [hok.len, hlen]⟩, ?_, ?_, ?_, ?_, ?_, ?_, ?_, ?_, ?_⟩
  · intro r d
    rw [hker 0 _ hok.st.zero]
    simp only [itemsAt, List.mem_singleton]
    constructor
    · rintro ⟨hi, e⟩
      exact pos_inj hp hi (isItem_zero hwf.acc) (by rw [e]; simp [pos, hp.one])
    · rintro ⟨rfl, rfl⟩
      exact ⟨isItem_zero hwf.acc, by simp [pos, hp.one]⟩
  · intro s t hs ht heq
    obtain ⟨c, -, -, hc, -, -⟩ := hfull s hs
    obtain ⟨c', -, -, hc', -, -⟩ := hfull t ht
    rw [hker s c hc, hker t c' hc'] at heq
    have hcm := List.mem_of_getElem? hc
    have hcm' := List.mem_of_getElem? hc'
    have hmem : ∀ k, k ∈ c.items ↔ k ∈ c'.items := by
      intro k
      constructor
      · intro hk
        have := hok.st.pos c hcm k hk
        obtain ⟨r, d, hi, rfl⟩ := exists_item hp this.1 this.2
        exact ((heq r d).mp ⟨hi, hk⟩).2
      · intro hk
        have := hok.st.pos c' hcm' k hk
        obtain ⟨r, d, hi, rfl⟩ := exists_item hp this.1 this.2
        exact ((heq r d).mpr ⟨hi, hk⟩).2
    have hs1 := hok.st.sorted c hcm
    have hs2 := hok.st.sorted c' hcm'
    have heq' : c.items = c'.items := by
      have hperm : c.items.Perm c'.items := by
        rw [List.perm_ext_iff_of_nodup (hs1.imp (fun h => by omega)) (hs2.imp (fun h => by omega))]
        exact hmem
      exact hperm.eq_of_pairwise (fun a b _ _ h1 h2 => by omega) hs1 hs2
    have hnd := hok.st.nodup
    have i1 : s < (a.states.map Core.items).length := by simpa using hs
    have i2 : t < (a.states.map Core.items).length := by simpa using ht
    apply (List.Nodup.getElem_inj_iff hnd (hi := i1) (hj := i2)).mp
    obtain ⟨_, e1⟩ := List.getElem?_eq_some_iff.mp hc
    obtain ⟨_, e2⟩ := List.getElem?_eq_some_iff.mp hc'
    simp only [List.getElem_map, e1, e2, heq']
  · intro s X hs
    obtain ⟨c, sh, rd, hc, hsh, hrd⟩ := hfull s hs
    rw [← hsym s c sh X hc hsh]
    constructor
    · rintro ⟨t, sh', c', hsh', ht, hc', hX⟩
      rw [hsh] at hsh'; simp only [Option.some.injEq] at hsh'; subst hsh'
      exact ((hshift s c sh X t hc hsh).mp ⟨ht, c', hc', hX⟩).1
    · intro hX
      obtain ⟨t, ht, hc'⟩ := hexists s c sh X hc hsh hX
      exact ⟨t, sh, _, hsh, ht, hc', rfl⟩
  · rintro s X t ⟨sh, c', hsh, ht, hc', hX⟩
    have hs : s < a.states.length := by
      have := (List.getElem?_eq_some_iff.mp hsh).1; omega
    obtain ⟨c, sh', rd, hc, hsh', hrd⟩ := hfull s hs
    rw [hsh] at hsh'; simp only [Option.some.injEq] at hsh'; subst hsh'
    obtain ⟨hXm, -, hc2, ht0⟩ := (hshift s c sh X t hc hsh).mp ⟨ht, c', hc', hX⟩
    refine ⟨hs, (List.getElem?_eq_some_iff.mp hc').1, ht0, ?_⟩
    intro r d
    rw [hker t _ hc2]
    obtain ⟨h1, h2, h3, h4, h5, h6⟩ := hst s c sh hc hsh
    simp only [itemsAt, kernelOf, List.mem_map, List.mem_filter, decide_eq_true_eq]
    constructor
    · rintro ⟨hi, j, ⟨hj, e⟩, e'⟩
      obtain ⟨r', d', hi', rfl⟩ := exists_item hp (h2 j hj).1 (h2 j hj).2
      have hdot := (dotBefore_iff hp hi').mpr e
      obtain ⟨rfl, rfl⟩ := pos_inj hp hi hdot.isItem_succ (by rw [← e']; unfold pos; omega)
      exact ⟨d', rfl, (h3 _ _).mp ⟨hi', hj⟩, hdot⟩
    · rintro ⟨d', rfl, hcl, hdot⟩
      obtain ⟨hi', hm⟩ := (h3 _ _).mpr hcl
      exact ⟨hdot.isItem_succ, _, ⟨hm, (dotBefore_iff hp hi').mp hdot⟩, by unfold pos; omega⟩
  · intro s sh t hsh ht
    have hs : s < a.states.length := by
      have := (List.getElem?_eq_some_iff.mp hsh).1; omega
    obtain ⟨c, sh', rd, hc, hsh', hrd⟩ := hfull s hs
    obtain ⟨-, -, -, -, -, h6⟩ := hst s c sh hc hsh
    obtain ⟨i, hi, rfl⟩ := List.getElem_of_mem ht
    have := ((List.forall₂_iff_get.mp h6).2 i (by rw [h6.length_eq]; exact hi) hi).1
    exact (List.getElem?_eq_some_iff.mp this).1
  · intro s sh hsh
    have hs : s < a.states.length := by
      have := (List.getElem?_eq_some_iff.mp hsh).1; omega
    obtain ⟨c, sh', rd, hc, hsh', hrd⟩ := hfull s hs
    obtain ⟨h1, h2, h3, h4, h5, h6⟩ := hst s c sh hc hsh
    rw [List.pairwise_iff_getElem]
    intro i j hi hj hij
    have hget := (List.forall₂_iff_get.mp h6).2
    have e1 := (hget i (by rw [h6.length_eq]; exact hi) hi).1
    have e2 := (hget j (by rw [h6.length_eq]; exact hj) hj).1
    simp only [List.get_eq_getElem] at e1 e2
    refine ⟨_, _, ⟨sh, _, hsh, List.getElem_mem hi, e1, rfl⟩, ⟨sh, _, hsh, List.getElem_mem hj, e2, rfl⟩, ?_⟩
    exact List.pairwise_iff_getElem.mp h4 i j _ _ hij
  · intro t ht ht0
    obtain ⟨s, sh, hst', hsh, hm⟩ := hok.reach t ht ht0
    obtain ⟨c, -, -, hc, -, -⟩ := hfull t ht
    exact ⟨s, c.acc, hst', sh, c, hsh, hm, hc, rfl⟩
  · intro s r hs
    obtain ⟨c, sh, rd, hc, hsh, hrd⟩ := hfull s hs
    obtain ⟨h1, h2, h3, h4, h5, h6⟩ := hst s c sh hc hsh
    have hred := (hok.done s c sh rd hc hsh hrd).2
    have hspec := (reductionsOf_spec hp h1 h2).2 (r+2)
    rw [← hred] at hspec
    constructor
    · rintro ⟨rd', hrd', hm⟩
      rw [hrd] at hrd'; simp only [Option.some.injEq] at hrd'; subst hrd'
      obtain ⟨r', d, e, h, hcomp⟩ := hspec.mp hm
      have : r = r' := by omega
      subst this
      exact ⟨d, (h3 _ _).mp h, hcomp⟩
    · rintro ⟨d, hcl, hcomp⟩
      exact ⟨rd, hrd, hspec.mpr ⟨r, d, rfl, (h3 _ _).mpr hcl, hcomp⟩⟩
  · intro s rd hrd
    have hs : s < a.states.length := by
      have := (List.getElem?_eq_some_iff.mp hrd).1
      have := hok.len
      omega
    obtain ⟨c, sh, rd', hc, hsh, hrd'⟩ := hfull s hs
    rw [hrd] at hrd'; simp only [Option.some.injEq] at hrd'; subst hrd'
    obtain ⟨h1, h2, h3, h4, h5, h6⟩ := hst s c sh hc hsh
    have hred := (hok.done s c sh rd hc hsh hrd).2
    obtain ⟨p1, p2⟩ := reductionsOf_spec hp h1 h2
    rw [hred]
    refine ⟨p1, fun x hx => ?_⟩
    obtain ⟨r, d, rfl, -⟩ := (p2 x).mp hx
    omega

/-- C04: for every grammar the construction terminates and yields the LR(0) automaton. -/
theorem C04_automaton (lp : Bool) (ntokens nsyms : Nat) (rs : List SrcRule)
    (h : UserRules ntokens nsyms (rs.map SrcRule.rule)) :
    ∃ a, generateStates (packGrammar lp ntokens nsyms (rs.map SrcRule.p) (encPitem rs)) = some a ∧
      IsLR0Automaton (packGrammar lp ntokens nsyms (rs.map SrcRule.p) (encPitem rs))
        (augCFG ntokens (rs.map SrcRule.rule)) a :=
  isLR0Automaton (packs_packGrammar lp ntokens nsyms rs) (wf_aug h)

/-- Example `s: '(' s ')' | 'x'` (tokens 2,3,4; s = 6): six states. -/
def c04B (i : Nat) : Bucket := ⟨i, decide (i < 5), 0, .TOKEN⟩
def c04Rules : List SrcRule :=
  [⟨c04B 6, [c04B 2, c04B 6, c04B 3], UNDEFINED, .TOKEN⟩, ⟨c04B 6, [c04B 4], UNDEFINED, .TOKEN⟩]
def c04G : Gram := packGrammar false 5 7 (c04Rules.map SrcRule.p) (encPitem c04Rules)

example : UserRules 5 7 (c04Rules.map SrcRule.rule) := by
  refine ⟨by decide, by decide, ?_⟩
  intro A α h
  simp [c04Rules, SrcRule.rule, c04B] at h
  rcases h with ⟨rfl, rfl⟩ | ⟨rfl, rfl⟩ <;> simp

example : (genLoop c04G (setFirstDerives c04G) 10 (initialLR0 c04G)).map (fun a => (a.states.map Core.acc, a.shifts, a.reds)) =
    some ([0, 2, 4, 6, 6, 3], [[1, 2, 3], [1, 2, 4], [], [], [5], []], [[], [], [4], [], [], [3]]) := by
  decide +kernel

end Verif.Byacc
