import Verif.Proofs.LemonFollow
import Verif.Props.C30
import Verif.Props.C31
import Verif.Proofs.YaccForm
/-
C32: lemon's lookaheads are exactly LALR(1).
-/
set_option autoImplicit false
namespace Verif.Lemon
open Verif.Spec

theorem rules_le_nitems (g : Gram) : g.rules.length ≤ g.nitems := by
  unfold Gram.nitems
  induction g.rules with
  | nil => simp
  | cons r l ih => simp only [List.length_cons, List.map_cons, List.sum_cons]; omega

theorem pathOf_sameState {g : Gram} {m : Mach} (hsmall : g.nitems < 2 ^ 30) (h : MachOK g m) {γ : List Nat} {s r d t : Nat}
    (hγ : Path m.Trans 0 γ s) (hi : m.Item s r d) :
    (∃ γ', Path m.Trans 0 γ' s ∧ ∃ z, Ctx g.ext (lemonInit g) γ' r d z ∧ Fst g.cfg z t) ↔ LemonLA g γ r d t := by
  have auto := h.isAuto hsmall
  constructor
  · rintro ⟨γ', h1, z, h2, h3⟩
    exact ⟨γ', (auto.sameState hγ h1).mpr rfl, z, h2, first_iff.mpr h3⟩
  · rintro ⟨γ', h1, z, h2, h3⟩
    obtain ⟨s', h4, _⟩ := auto.path_of_valid h2 (fun _ _ => trivial)
    have := (auto.sameState hγ h4).mp h1
    subst this
    exact ⟨γ', h4, z, h2, first_iff.mp h3⟩

/-- C32.  For every grammar, lemon's analysis ends.  Its states are the LR(0) states: every state
is reached by some string of symbols; every string that is the prefix of some item leads to a
state; and the configurations of the state reached by a string are exactly the items valid for it.
The follow set of each configuration then consists of exactly the LALR(1) lookaheads. -/
theorem C32_lookaheads (g : Gram) (wf : g.WF) (hn : g.nitems < 2 ^ 30) :
    ∃ fs m F, findFirstSets g = some fs ∧ findStates g fs = some m ∧ followSets m = some F ∧
      (∀ s, s < m.sts.length → ∃ γ, Path m.Trans 0 γ s) ∧
      (∀ γ r d, ValidItem g.ext (lemonInit g) γ r d → ∃ s, Path m.Trans 0 γ s) ∧
      ∀ γ s, Path m.Trans 0 γ s → s < m.sts.length ∧
        (∀ s', Path m.Trans 0 γ s' → s' = s) ∧
        (∀ r d, m.Item s r d ↔ ValidItem g.ext (lemonInit g) γ r d) ∧
        (∀ γ' s', Path m.Trans 0 γ' s' → (s = s' ↔ SameState g.ext (lemonInit g) γ γ')) ∧
        ∀ r d, m.Item s r d → ∀ t, setFind (m.fws F s (r, d)) t = true ↔ LemonLA g γ r d t := by
  have hr : g.rules.length < 2 ^ 32 := by have := rules_le_nitems g; omega
  obtain ⟨fs, h1, ok⟩ := fsOK_of_firstWith wf hr (n := g.nsym * g.setSize + 1) (Nat.lt_succ_self _)
  obtain ⟨m, h2, hm⟩ := states_ok wf ok hn
  obtain ⟨F, h3, h4⟩ := follow_iff wf hn hm
  have auto := hm.isAuto hn
  refine ⟨fs, m, F, h1, h2, h3, auto.path_to, ?_, ?_⟩
  · rintro γ r d ⟨z, hz⟩
    obtain ⟨s, hs, _⟩ := auto.path_of_valid hz (fun _ _ => trivial)
    exact ⟨s, hs⟩
  · intro γ s hγ
    refine ⟨auto.path_lt auto.pos hγ, fun s' h => auto.path_det h hγ, auto.item_valid hγ,
      fun γ' s' h => (auto.sameState hγ h).symm, ?_⟩
    intro r d hi t
    rw [h4 s r d hi t]
    exact pathOf_sameState hn hm hγ hi

/-- Without multi-terminals the grammar and its lookaheads are the usual ones. -/
theorem C32_plain (g : Gram) (h : g.mts = []) (γ : List Nat) (r d t : Nat) :
    LemonLA g γ r d t ↔ LalrLA g.cfg (lemonInit g) γ r d t := by
  have : g.ext = g.cfg := by simp [Gram.ext, Gram.cfg, Gram.nlow, h]
  unfold LemonLA LalrLA ValidLA
  rw [this]

theorem lemonInit_eq (g : Gram) (h : g.mts = []) : lemonInit g = startInit g.cfg g.start := by
  have hx : g.ext = g.cfg := by simp [Gram.ext, Gram.cfg, Gram.nlow, h]
  unfold lemonInit startInit
  rw [← hx]
  congr 1
  funext r
  apply propext
  constructor
  · rintro ⟨h1, h2⟩; exact ⟨_, ext_rule.mpr ⟨h1, h2, rfl⟩⟩
  · rintro ⟨α, h1⟩
    obtain ⟨h2, h3, _⟩ := ext_rule.mp h1
    exact ⟨h2, h3⟩

/-- C32, both tools.  If the start symbol is on no right-hand side (lemon reports an error
otherwise), lemon's lookaheads are those of the yacc form of the grammar, which are the ones byacc
computes (`C08_lalr_lookaheads`). -/
theorem C32_same_as_yacc (g : Gram) (wf : g.WF) (h : g.mts = []) (hS : ∀ r ∈ g.rules, g.start ∉ r.rhs)
    {σ : Nat → Nat} {acc : Nat} {G' : CFG} (y : YaccForm σ g.cfg g.start acc G') (γ : List Nat) (r d t : Nat) :
    LemonLA g γ r d t ↔ LalrLA G' byaccInit (γ.map σ) (r + 1) d (σ t) := by
  rw [C32_plain g h, lemonInit_eq g h, y.lalr]
  · intro A α hr
    rcases mem_cfg.mp hr with ⟨rr, h1, h2, _⟩ | ⟨i, _, h1, _⟩
    · have := (wf.lhs rr h1).1
      unfold Gram.nlow at this
      show g.nterm ≤ A
      omega
    · rw [h] at h1; simp at h1
  · exact wf.nterm
  · intro A α hr
    rcases mem_cfg.mp hr with ⟨rr, h1, _, rfl⟩ | ⟨i, _, h1, _⟩
    · exact hS rr h1
    · rw [h] at h1; simp at h1

/-- The numbers of rounds allowed do not matter once they suffice. -/
theorem C32_fuel (g : Gram) (wf : g.WF) (hn : g.nitems < 2 ^ 30) {a b c : Nat} {fs : FirstSets} {m : Mach} {F : List TSet}
    (h1 : firstWith g a = some fs) (h2 : statesWith g fs b = some m) (h3 : propagateWith m.links m.initSets c = some F) :
    findFirstSets g = some fs ∧ findStates g fs = some m ∧ followSets m = some F := by
  have hr : g.rules.length < 2 ^ 32 := by have := rules_le_nitems g; omega
  have ok := fsOK_of_some wf hr h1
  obtain ⟨e2, hm⟩ := states_ok_of_some wf ok hn h2
  refine ⟨?_, e2, ?_⟩
  · obtain ⟨fs', k1, _⟩ := fsOK_of_firstWith wf hr (n := g.nsym * g.setSize + 1) (Nat.lt_succ_self _)
    have q1 := firstWith_mono (Nat.le_max_left a (g.nsym * g.setSize + 1)) h1
    have q2 := firstWith_mono (Nat.le_max_right a (g.nsym * g.setSize + 1)) k1
    rw [q1] at q2
    simp only [Option.some.injEq] at q2
    unfold findFirstSets
    rw [k1, q2]
  · obtain ⟨F', k1, _⟩ := followSets_spec hn hm
    unfold followSets propagate propagateWith at *
    obtain ⟨x, e1, e2⟩ := Option.map_eq_some_iff.mp h3
    obtain ⟨y, e3, e4⟩ := Option.map_eq_some_iff.mp k1
    have q1 := doWhile_mono (Nat.le_max_left c ((m.initSets.map List.length).sum + 1)) e1
    have q2 := doWhile_mono (Nat.le_max_right c ((m.initSets.map List.length).sum + 1)) e3
    rw [q1] at q2
    simp only [Option.some.injEq] at q2
    rw [e3, ← q2]
    simp [e2]

/-- the whole analysis with bounded numbers of rounds -/
def analyse (g : Gram) (n : Nat) : Option (Mach × List TSet) :=
  (firstWith g n).bind fun fs => (statesWith g fs n).bind fun m =>
    (propagateWith m.links m.initSets n).map fun F => (m, F)

/-- A grammar that is LALR(1) but not SLR(1): `s ::= l EQ r. s ::= r. l ::= STAR r. l ::= ID.
r ::= l.`  Terminals `$ EQ STAR ID` are 0…3, `s l r` are 4 5 6. -/
def exLalr : Gram where
  nterm := 4
  mts := []
  nsym := 7
  rules := [⟨4, [5, 1, 6], none, false⟩, ⟨4, [6], none, false⟩, ⟨5, [2, 6], none, true⟩, ⟨5, [3], none, true⟩,
    ⟨6, [5], none, true⟩]
  start := 4
  errsym := none
  wildcard := none
  prec := fun _ => -1
  assoc := fun _ => .UNK

example : exLalr.WF := ⟨by decide, by decide, by decide, by decide, by decide⟩

/-- In the state reached by `l` the rule `r ::= l` is reduced on `$` only, although `EQ` can follow
`r` elsewhere. -/
example : (analyse exLalr 20).map (fun x => (x.1.sts.length,
      x.1.shifts.filterMap fun e => if e.1 == 0 && e.2.1 == 5 then
        some ((x.1.sts.getD e.2.2 ⟨[], []⟩).basis, x.1.fws x.2 e.2.2 (4, 1)) else none)) =
    some (9, [([(0, 1), (4, 1)], [true, false, false, false, false, false])]) := by decide +kernel

/-- With multi-terminals: `exFirst` -/
example : (analyse exFirst 20).map (fun x => (x.1.sts.length, x.1.fws x.2 0 (1, 0))) =
    some (5, [false, true, true, false, false, false]) := by decide +kernel

/-- The yacc form of `exLalr`: `$end error EQ STAR ID` are 0…4, `$accept s l r` are 5…8. -/
def exLalrYacc : CFG := ⟨5, [(5, [6, 0]), (6, [7, 2, 8]), (6, [8]), (7, [3, 8]), (7, [4]), (8, [7])]⟩

def exSigma (X : Nat) : Nat := if X = 0 then 0 else if X < 4 then X + 1 else X + 2

example : YaccForm exSigma exLalr.cfg exLalr.start 5 exLalrYacc where
  inj := by intro X Y; unfold exSigma; repeat' split
            all_goals omega
  tok := by
    intro X
    show exSigma X < 5 ↔ X < 4
    unfold exSigma; split <;> (try split) <;> omega
  rules := by decide
  acc := by intro X; unfold exSigma; split <;> (try split) <;> omega

end Verif.Lemon
