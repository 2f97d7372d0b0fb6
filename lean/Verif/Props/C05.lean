import Verif.Proofs.Goto
/-
C05 — lookup in the packed goto map (byacc/lalr.c).
-/
set_option autoImplicit false
namespace Verif.Byacc
open Spec

/-- `m` lists exactly the transitions of `a` on nonterminals, each once, goto 0 being the one
from the start state on the goal symbol. -/
structure ListsGotos (g : Gram) (a : LR0) (m : GotoMap) : Prop where
  sizes : m.to_.length = m.ngotos
  sound : ∀ i, i < m.ngotos → ∃ s X t, m.from_[i]? = some s ∧ m.to_[i]? = some t ∧ ShiftsTo a s X t ∧ g.ntokens ≤ X
  complete : ∀ s X t, ShiftsTo a s X t → g.ntokens ≤ X →
    ∃ i, i < m.ngotos ∧ m.from_[i]? = some s ∧ m.to_[i]? = some t
  once : ∀ i j, i < m.ngotos → m.from_[i]? = m.from_[j]? → m.to_[i]? = m.to_[j]? → i = j
  first : ∃ t, m.from_[0]? = some 0 ∧ m.to_[0]? = some t ∧ ShiftsTo a 0 (g.ntokens + 1) t

/-- C05: for every grammar, the goto map lists the nonterminal transitions, and the search for
a transition that exists ends and returns the index of that transition. -/
theorem C05_lookup (lp : Bool) (ntokens nsyms : Nat) (rs : List SrcRule)
    (h : UserRules ntokens nsyms (rs.map SrcRule.rule)) (g : Gram)
    (hg : g = packGrammar lp ntokens nsyms (rs.map SrcRule.p) (encPitem rs)) :
    ∃ a, generateStates g = some a ∧ ListsGotos g a (setGotoMap g a) ∧
      ∀ s A t, ShiftsTo a s A t → ntokens ≤ A →
        ∃ i, mapGoto g (setGotoMap g a) s A = .found i ∧
          (setGotoMap g a).from_[i]? = some s ∧ (setGotoMap g a).to_[i]? = some t := by
  subst hg
  obtain ⟨a, ha, H⟩ := C04_automaton lp ntokens nsyms rs h
  have hp := packs_packGrammar lp ntokens nsyms rs
  have ok := gotoOK H hp (wf_aug h)
  refine ⟨a, ha, ⟨ok.len, ?_, ?_, ok.inj, ?_⟩, ?_⟩
  · intro i hi
    obtain ⟨s, t, h1, h2, h3, h4⟩ := ok.trans i hi
    exact ⟨s, _, t, h1, h2, h3, h4⟩
  · intro s X t h1 h2
    obtain ⟨i, h3, -, h4, h5⟩ := ok.find s X t h1 h2
    exact ⟨i, h3, h4, h5⟩
  · obtain ⟨t, h1, h2, h3⟩ := ok.first
    refine ⟨t, h1, h2, ?_⟩
    have hn : 0 < (setGotoMap (packGrammar lp ntokens nsyms (rs.map SrcRule.p) (encPitem rs)) a).ngotos :=
      (List.getElem?_eq_some_iff.mp h1).1
    obtain ⟨s', t', h1', h2', h3', -⟩ := ok.trans 0 hn
    rw [h1] at h1'; rw [h2] at h2'
    simp only [Option.some.injEq] at h1' h2'
    subst h1' h2'
    rw [h3] at h3'
    exact h3'
  · intro s A t h1 h2
    have hnt : (packGrammar lp ntokens nsyms (rs.map SrcRule.p) (encPitem rs)).ntokens = ntokens := rfl
    obtain ⟨i, -, h3, h4, h5⟩ := ok.find s A t h1 (by rw [hnt]; exact h2)
    exact ⟨i, h3, h4, h5⟩

theorem genLoop_mono {g : Gram} {fd : List (List Word)} {a b : LR0} {m n : Nat} (h : m ≤ n)
    (hm : genLoop g fd m a = some b) : genLoop g fd n a = some b := by
  induction m generalizing n a with
  | zero => simp [genLoop] at hm
  | succ m ih =>
    obtain ⟨n, rfl⟩ : ∃ k, n = k + 1 := ⟨n - 1, by omega⟩
    unfold genLoop at hm ⊢
    split at hm
    · exact hm
    · exact ih (by omega) hm

/-- Example `s: '2' b;  b: '3'` (s = 5, b = 6). -/
def c05B (i : Nat) : Bucket := ⟨i, decide (i < 4), 0, .TOKEN⟩
def c05Rules : List SrcRule :=
  [⟨c05B 5, [c05B 2, c05B 6], UNDEFINED, .TOKEN⟩, ⟨c05B 6, [c05B 3], UNDEFINED, .TOKEN⟩]
def c05G : Gram := packGrammar false 4 7 (c05Rules.map SrcRule.p) (encPitem c05Rules)
def c05A : LR0 :=
  (genLoop c05G (setFirstDerives c05G) 20 (initialLR0 c05G)).getD ⟨[], [], []⟩

theorem c05User : UserRules 4 7 (c05Rules.map SrcRule.rule) := by
  refine ⟨by decide, by decide, ?_⟩
  intro A α h
  simp [c05Rules, SrcRule.rule, c05B] at h
  rcases h with ⟨rfl, rfl⟩ | ⟨rfl, rfl⟩ <;> simp

theorem c05A_eq : generateStates c05G = some c05A := by
  refine genLoop_mono (m := 20) ?_ (by decide +kernel)
  decide +kernel

/-- two gotos: from state 0 on `s` to state 2, from state 1 on `b` to state 4 -/
example : setGotoMap c05G c05A = ⟨[0, 0, 1, 2], [0, 1], [2, 4]⟩ ∧
    mapGoto c05G (setGotoMap c05G c05A) 1 6 = .found 1 := by decide +kernel

/-- The second half of C05 ("never returns an index when there is no such transition") is
violated: the upper bound of the search is one past the symbol's range, so the search for the
absent transition from state 1 on `s` returns the goto from state 1 on `b`, and for the absent
transition from state 4 on `b` it reads past the array. -/
theorem C05_absent_violated :
    generateStates c05G = some c05A ∧
    (¬ ∃ t, ShiftsTo c05A 1 5 t) ∧ mapGoto c05G (setGotoMap c05G c05A) 1 5 = .found 1 ∧
    (¬ ∃ t, ShiftsTo c05A 4 6 t) ∧ mapGoto c05G (setGotoMap c05G c05A) 4 6 = .outOfBounds := by
  have hs : c05A.shifts = [[1, 2], [3, 4], [], [], []] := by decide +kernel
  have hst : c05A.states.map Core.acc = [0, 2, 5, 3, 6] := by decide +kernel
  refine ⟨c05A_eq, ?_, by decide +kernel, ?_, by decide +kernel⟩
  · rintro ⟨t, sh, c, h1, h2, h3, h4⟩
    rw [hs] at h1
    simp only [List.getElem?_cons_succ, List.getElem?_cons_zero, Option.some.injEq] at h1
    subst h1
    have h5 : (c05A.states.map Core.acc)[t]? = some c.acc := by rw [List.getElem?_map, h3]; rfl
    rw [hst, h4] at h5
    simp only [List.mem_cons, List.not_mem_nil, or_false] at h2
    rcases h2 with rfl | rfl <;> simp at h5
  · rintro ⟨t, sh, c, h1, h2, h3, h4⟩
    rw [hs] at h1
    simp only [List.getElem?_cons_succ, List.getElem?_cons_zero, Option.some.injEq] at h1
    subst h1
    simp at h2

end Verif.Byacc
