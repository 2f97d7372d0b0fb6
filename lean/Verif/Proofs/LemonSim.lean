import Verif.Spec.LemonAccept
import Verif.Proofs.LemonLoop
import Verif.Proofs.LemonTypes
import Verif.Proofs.Parse
/-
The stack of the parser and paths in the automaton.
-/
set_option autoImplicit false
namespace Verif.Lemon
open Verif.Spec

variable {g : Gram} {fb : Nat → Option Nat} {compress : Bool} {m : Mach} {F : List TSet} {A : Acts} {cs : List CState} {T : Tables}

/-! ### rules -/

theorem iRule_eq (u : Usable g) {r : Nat} (hr : r < g.rules.length) :
    (sortedRules (g.rules.map Rule.code))[g.iRule r]? = some r := by
  have hn : (g.rules.map Rule.code).length < 2 ^ 32 := by rw [List.length_map]; exact u.rules_lt
  obtain ⟨h1, h2⟩ := C45_table_partial (g.rules.map Rule.code) hn
  have hm : r ∈ sortedRules (g.rules.map Rule.code) := by
    rw [h1.mem_iff]; simpa using hr
  obtain ⟨j, hj, e⟩ := List.getElem_of_mem hm
  have h3 := congrArg (fun l => l[j]?) h2
  simp only [List.getElem?_map, List.getElem?_eq_getElem hj, Option.map_some, e] at h3
  have hjl : j < (g.rules.map Rule.code).length := by have := h1.length_eq; simp only [List.length_range] at this; omega
  rw [List.getElem?_range hjl] at h3
  simp only [Option.map_some, Option.some.injEq] at h3
  have : g.iRule r = j := by unfold Gram.iRule; rw [h3]; rfl
  rw [this, List.getElem?_eq_getElem hj, e]

theorem iRule_lt (u : Usable g) {r : Nat} (hr : r < g.rules.length) : g.iRule r < g.rules.length := by
  have h := (List.getElem?_eq_some_iff.mp (iRule_eq u hr)).1
  have hn : (g.rules.map Rule.code).length < 2 ^ 32 := by rw [List.length_map]; exact u.rules_lt
  have := (C45_table_partial (g.rules.map Rule.code) hn).1.length_eq
  simp at this
  omega

theorem ruleList_at (u : Usable g) {r : Nat} (hr : r < g.rules.length) : g.ruleList[g.iRule r]? = some (g.rule r) := by
  unfold Gram.ruleList
  rw [List.getElem?_map, iRule_eq u hr]
  rfl

theorem iRule_inj (u : Usable g) {r r' : Nat} (hr : r < g.rules.length) (hr' : r' < g.rules.length) (h : g.iRule r = g.iRule r') : r = r' := by
  have h1 := iRule_eq u hr
  rw [h, iRule_eq u hr'] at h1
  exact (Option.some.inj h1).symm

theorem ext_at {r : Nat} (hr : r < g.rules.length) : g.ext.rules[r]? = some ((g.rule r).lhs, (g.rule r).rhs) :=
  ext_rule.mpr ⟨hr, rfl, rfl⟩

/-! ### items and transitions -/

theorem start_ctx (u : Usable g) {γ z : List Nat} {r d : Nat} (h : Ctx g.ext (lemonInit g) γ r d z) (hl : (g.rule r).lhs = g.start) (hd : d = 0) :
    γ = [] ∧ z = [0] := by
  cases h with
  | init hr => exact ⟨rfl, rfl⟩
  | @clos _ r0 d0 _ _ _ _ _ _ h hr hB hr' =>
    obtain ⟨h1, h2, _⟩ := ext_rule.mp hr'
    obtain ⟨h3, _, h4⟩ := ext_rule.mp hr
    have : g.start ∈ (g.rule r0).rhs := by
      rw [h4, ← hl, h2]
      exact List.mem_of_getElem? hB
    exact absurd this (u.noRhs _ (rule_mem h3))
  | shift => omega


/-- the automaton -/
theorem Prepared.isAuto (u : Usable g) (h : Prepared g compress m F A cs) :
    IsAuto g.ext (lemonInit g) (fun _ => True) m.sts.length m.Item m.Trans :=
  (h.analysed.ok u.wf u.items).isAuto u.items

theorem item_lt (u : Usable g) (h : Prepared g compress m F A cs) {s r d : Nat} (hi : m.Item s r d) : s < m.sts.length ∧ r < g.rules.length := by
  have hs : s < m.sts.length := by
    obtain ⟨st, h1, _⟩ := hi
    exact (List.getElem?_eq_some_iff.mp h1).1
  refine ⟨hs, ?_⟩
  obtain ⟨γ, hγ⟩ := (h.isAuto u).path_to s hs
  obtain ⟨z, hz⟩ := ((h.isAuto u).item_valid hγ r d).mp hi
  cases hz with
  | init hr => exact hr.1
  | clos _ _ _ hr' => exact (ext_rule.mp hr').1
  | shift _ hr => exact (ext_rule.mp hr).1

/-- transitions on the left-hand side of a rule that can begin -/
theorem goto_ex (u : Usable g) (h : Prepared g compress m F A cs) {s r : Nat} (hi : m.Item s r 0) :
    ((g.rule r).lhs = g.start ∧ s = 0) ∨ ((g.rule r).lhs ≠ g.start ∧ ∃ q, m.Trans s (g.rule r).lhs q) := by
  obtain ⟨hs, hr⟩ := item_lt u h hi
  have auto := h.isAuto u
  obtain ⟨γ, hγ⟩ := auto.path_to s hs
  obtain ⟨z, hz⟩ := (auto.item_valid hγ r 0).mp hi
  by_cases hl : (g.rule r).lhs = g.start
  · left
    refine ⟨hl, ?_⟩
    obtain ⟨rfl, _⟩ := start_ctx u hz hl rfl
    exact hγ.nil_inv.symm
  · right
    refine ⟨hl, ?_⟩
    rcases hz.parent (ext_at hr) with hI | ⟨r', d', z', A', α', h1, h2, h3, _⟩
    · exact absurd hI.2 hl
    · exact (auto.ex s _ hs).mpr ⟨trivial, r', d', (auto.item_valid hγ r' d').mpr ⟨z', h1⟩, A', α', h2, h3⟩

/-- the string before a complete item -/
theorem item_back (u : Usable g) (h : Prepared g compress m F A cs) {γ : List Nat} {s r : Nat} (hγ : Path m.Trans 0 γ s)
    (hi : m.Item s r (g.rule r).rhs.length) :
    ∃ δ q, γ = δ ++ (g.rule r).rhs ∧ Path m.Trans 0 δ q ∧ Path m.Trans q (g.rule r).rhs s ∧ m.Item q r 0 := by
  obtain ⟨_, hr⟩ := item_lt u h hi
  have auto := h.isAuto u
  obtain ⟨z, hz⟩ := (auto.item_valid hγ r _).mp hi
  obtain ⟨δ, e, h1⟩ := hz.back (ext_at hr)
  rw [List.take_length] at e
  subst e
  obtain ⟨q, h2, h3⟩ := hγ.append_inv
  exact ⟨δ, q, rfl, h2, h3, (auto.item_valid h2 r 0).mpr ⟨z, h1⟩⟩

/-- reductions of the start symbol are made at the end of input only -/
theorem start_end (u : Usable g) (h : Prepared g compress m F A cs) {s r t : Nat} (hi : m.Item s r (g.rule r).rhs.length)
    (hl : (g.rule r).lhs = g.start) (hf : setFind (m.fws F s (r, (g.rule r).rhs.length)) t = true) : t = 0 := by
  obtain ⟨F', h1, h2⟩ := follow_iff u.wf u.items (h.analysed.ok u.wf u.items)
  have : F' = F := by
    obtain ⟨_, _, _, this⟩ := h.analysed
    rw [h1] at this
    exact Option.some.inj this
  subst this
  obtain ⟨γ, _, z, h3, h4⟩ := (h2 s r _ hi t).mp hf
  obtain ⟨_, hr⟩ := item_lt u h hi
  obtain ⟨δ, _, h5⟩ := h3.back (ext_at hr)
  obtain ⟨_, rfl⟩ := start_ctx u h5 hl rfl
  cases h4 with
  | tok => rfl
  | rule hr' => 
    rcases mem_cfg.mp hr' with ⟨rr, k1, k2, _⟩ | ⟨i, _, k1, _⟩
    · have := (u.wf.lhs rr k1).1
      have := u.wf.nterm
      unfold Gram.nlow at *
      omega
    · have := u.wf.nterm; omega
  | skip _ h => cases h

/-! ### actions -/

/-- the rule by which a state always reduces -/
abbrev autoAt (cs : List CState) (q : Nat) : Option Nat := (cs.getD q ⟨[], none⟩).auto

/-- the number of a state in the generated parser -/
abbrev numOf (g : Gram) (cs : List CState) (q : Nat) : Nat := (resortStates g cs).idxOf q

theorem auto_compress (h : Prepared g compress m F A cs) {q r : Nat} (ha : autoAt cs q = some r) : compress = true := by
  cases hc : compress with
  | true => rfl
  | false =>
    have hcs := h.uncompressed hc
    unfold autoAt at ha
    rw [hcs] at ha
    unfold Lemon.uncompressed at ha
    rw [List.getD_eq_getElem?_getD, List.getElem?_map] at ha
    cases hq : A.acts[q]? <;> rw [hq] at ha <;> cases ha

theorem auto_item (u : Usable g) (h : Prepared g compress m F A cs) {q r : Nat} (hq : q < m.sts.length) (ha : autoAt cs q = some r) :
    m.Item q r (g.rule r).rhs.length ∧ (g.rule r).lhs ≠ g.start ∧ (g.rule r).rhs ≠ [] := by
  have k := (h.states u).2 q hq
  obtain ⟨h1, h2⟩ := (k.comp.auto r).mp ha
  obtain ⟨⟨t, ht⟩, hl⟩ := k.dflt r h1
  have hi : m.Item q r (g.rule r).rhs.length := by
    rcases on_sound u.wf u.start u.items h.analysed h.small h.actions hq ht with ⟨q, Y, e, _⟩ | ⟨r', e, h3, _⟩ | ⟨e, _⟩
    · rcases e with e | e <;> cases e
    · cases e; exact h3
    · cases e
  refine ⟨hi, hl, ?_⟩
  intro he
  rw [he] at hi
  rcases goto_ex u h hi with ⟨h3, _⟩ | ⟨_, q', h3⟩
  · exact hl h3
  · have hb := u.wf.lhs _ (rule_mem (item_lt u h hi).2)
    have h4 := ((on_nt u.wf u.start u.items h.analysed h.small h.actions hq hb.1 hb.2).1 q').mp h3
    have := (h2 (g.rule r).lhs (.SHIFT, q') (by rw [h4]; exact List.mem_singleton_self _)).1
    exact this rfl

/-- the action on a token -/
inductive TokAct (g : Gram) (m : Mach) (F : List TSet) (cs : List CState) (s t : Nat) : AType × Nat → Prop
  | shift {q Y : Nat} : m.Trans s Y q → t ∈ g.shiftSyms Y → autoAt cs q = none → TokAct g m F cs s t (.SHIFT, q)
  | shred {q Y r : Nat} : m.Trans s Y q → t ∈ g.shiftSyms Y → autoAt cs q = some r → TokAct g m F cs s t (.SHIFTREDUCE, r)
  | reduce {r : Nat} : m.Item s r (g.rule r).rhs.length → setFind (m.fws F s (r, (g.rule r).rhs.length)) t = true →
      TokAct g m F cs s t (.REDUCE, r)
  | error {q : Nat} : TokAct g m F cs s t (.ERROR, q)

theorem tok_act (u : Usable g) (h : Prepared g compress m F A cs) {s t : Nat} (hs : s < m.sts.length) (ht : t < g.nterm) {e : AType × Nat}
    (he : e ∈ (cs.getD s ⟨[], none⟩).on t) : TokAct g m F cs s t e := by
  have k := (h.states u).2 s hs
  obtain ⟨hr, hon⟩ := resolved_of_findActions u.wf u.start u.items (h.analysed.ok u.wf u.items) h.small h.actions hs
  have hsound := fun e => on_sound u.wf u.start u.items h.analysed h.small h.actions hs (X := t) (e := e)
  have h1 := hr.one t
  rw [hon] at h1
  have hsh : ∀ q, (.SHIFT, q) ∈ A.on s t → ∃ Y, m.Trans s Y q ∧ t ∈ g.shiftSyms Y := by
    intro q hq
    rcases hsound _ hq with ⟨q, Y, e, h2⟩ | ⟨r', e, _⟩ | ⟨e, _⟩
    · rcases e with e | e <;> cases e
      exact ⟨Y, h2⟩
    · cases e
    · cases e
  have hred : ∀ r, (.REDUCE, r) ∈ A.on s t → TokAct g m F cs s t (.REDUCE, r) := by
    intro r hq
    rcases hsound _ hq with ⟨q, Y, e, h2⟩ | ⟨r', e, h2, h3, h4⟩ | ⟨e, _⟩
    · rcases e with e | e <;> cases e
    · cases e; exact .reduce h2 h4
    · cases e
  rcases h1 with h1 | ⟨q, h1⟩ | ⟨r, h1⟩ | h1 | ⟨q, r, h1⟩
  · rw [k.comp.none t (by have := u.wf.nsym; unfold Gram.nlow at this; omega) h1] at he
    cases he
  · obtain ⟨Y, k1, k2⟩ := hsh q (by rw [h1]; exact List.mem_singleton_self _)
    rw [k.comp.shift t q ht h1] at he
    split at he
    · rename_i r hr
      rw [List.mem_singleton.mp he]
      exact .shred k1 k2 hr
    · rename_i hr
      rw [List.mem_singleton.mp he]
      exact .shift k1 k2 (by
        cases ha : autoAt cs q with
        | none => rfl
        | some r => exact absurd ha (hr r))
  · have h2 := hred r (by rw [h1]; exact List.mem_singleton_self _)
    rcases k.comp.reduce t r h1 with ⟨_, e⟩ | ⟨_, e⟩
    · rw [e] at he; cases he
    · rw [e] at he; rw [List.mem_singleton.mp he]; exact h2
  · rcases hsound (.ACCEPT, 0) (by rw [h1]; exact List.mem_singleton_self _) with ⟨q, Y, e, _⟩ | ⟨r, e, _⟩ | ⟨_, _, e⟩
    · rcases e with e | e <;> cases e
    · cases e
    · have := u.start.1; unfold Gram.nlow at this; omega
  · have h2 := hred r (by rw [h1]; simp)
    rcases k.comp.tie t q r h1 with ⟨_, e⟩ | ⟨_, e⟩ | ⟨r', _, _, e⟩
    · rw [e] at he; rw [List.mem_singleton.mp he]; exact .error
    · rw [e] at he
      rcases List.mem_pair.mp he with rfl | rfl
      · exact .error
      · exact h2
    · rw [e] at he
      rcases List.mem_pair.mp he with rfl | rfl
      · exact h2
      · exact .error

/-- the default of a state -/
theorem dflt_item (u : Usable g) (h : Prepared g compress m F A cs) {s r : Nat} (hs : s < m.sts.length)
    (hd : dfltReduce g (cs.getD s ⟨[], none⟩) = some r) : m.Item s r (g.rule r).rhs.length ∧ (g.rule r).lhs ≠ g.start := by
  have k := (h.states u).2 s hs
  obtain ⟨⟨t, ht⟩, hl⟩ := k.dflt r hd
  refine ⟨?_, hl⟩
  rcases on_sound u.wf u.start u.items h.analysed h.small h.actions hs ht with ⟨q, Y, e, _⟩ | ⟨r', e, h3, _⟩ | ⟨e, _⟩
  · rcases e with e | e <;> cases e
  · cases e; exact h3
  · cases e

/-! ### after a reduction -/

/-- `Chain g compress X us X'`: reductions by the rules `us`, one after the other, make `X'` of `X`; they have one
symbol on the right-hand side and no code. -/
inductive Chain (g : Gram) (compress : Bool) : Nat → List Nat → Nat → Prop
  | nil (X : Nat) : Chain g compress X [] X
  | cons {X X' r : Nat} {us : List Nat} (hc : compress = true) (hr : r < g.rules.length) (hu : g.unitRule r) (hX : (g.rule r).rhs = [X])
      (h : Chain g compress (g.rule r).lhs us X') : Chain g compress X (r :: us) X'

theorem Chain.builds {X X' : Nat} {us : List Nat} (hc : Chain g compress X us X') : ∀ {V : Type} {f : Nat → List V → V} {ps γ : List Nat} {w : List (Nat × V)}
    {vs : List V}, Builds g.ext f ps (γ ++ [X]) w vs → ∃ vs', Builds g.ext f (ps ++ us) (γ ++ [X']) w vs' := by
  induction hc with
  | nil X => intro V f ps γ w vs hb; exact ⟨vs, by simpa using hb⟩
  | @cons X X' r us _ hr hu hX _ ih =>
    intro V f ps γ w vs hb
    rw [← hX] at hb
    obtain ⟨vs', h1⟩ := ih (hb.reduce (ext_at hr))
    exact ⟨vs', by simpa using h1⟩

theorem Chain.skips {X X' : Nat} {us : List Nat} (hc : Chain g compress X us X') : ∀ {ps es : List Nat}, Skips g compress ps es → Skips g compress (ps ++ us) es := by
  induction hc with
  | nil X => intro ps es h; simpa using h
  | cons hc hr hu hX _ ih => intro ps es h; simpa using ih (.skip hc hu h)

/-- where the parser lands after a reduction -/
inductive Landed (g : Gram) (m : Mach) (cs : List CState) (s : Nat) : Nat → AType × Nat → Prop
  | accept : s = 0 → Landed g m cs s g.start (.ACCEPT, 0)
  | shift {X q : Nat} : m.Trans s X q → autoAt cs q = none → Landed g m cs s X (.SHIFT, q)
  | reduce {X q r : Nat} : m.Trans s X q → autoAt cs q = some r → Landed g m cs s X (.SHIFTREDUCE, r)

theorem lands_sound (u : Usable g) (h : Prepared g compress m F A cs) {s : Nat} (hs : s < m.sts.length) {X : Nat} {e : AType × Nat}
    (hl : Lands g (A.on s) (autoAt cs) X e) : g.nlow ≤ X → X < g.nsym → ∃ us X', Chain g compress X us X' ∧ Landed g m cs s X' e ∧
      (X' = g.start → X = g.start) := by
  induction hl with
  | accept h1 =>
    intro hX hX'
    obtain ⟨rfl, rfl⟩ := (on_nt u.wf u.start u.items h.analysed h.small h.actions hs hX hX').2.mpr h1
    exact ⟨[], _, .nil _, .accept rfl, fun _ => rfl⟩
  | shift h1 h2 =>
    intro hX hX'
    have := ((on_nt u.wf u.start u.items h.analysed h.small h.actions hs hX hX').1 _).mpr h1
    exact ⟨[], _, .nil _, .shift this h2, id⟩
  | reduce h1 h2 h3 =>
    intro hX hX'
    have := ((on_nt u.wf u.start u.items h.analysed h.small h.actions hs hX hX').1 _).mpr h1
    exact ⟨[], _, .nil _, .reduce this h2, id⟩
  | @unit X q r e h1 h2 h3 _ ih =>
    intro hX hX'
    have ht := ((on_nt u.wf u.start u.items h.analysed h.small h.actions hs hX hX').1 _).mpr h1
    have auto := h.isAuto u
    have hq := (auto.lt _ _ _ ht).2
    obtain ⟨hi, hst, _⟩ := auto_item u h hq h2
    have hr := (item_lt u h hi).2
    have hb := u.wf.lhs _ (rule_mem hr)
    obtain ⟨us, X', k1, k2, k3⟩ := ih hb.1 hb.2
    refine ⟨r :: us, X', .cons (auto_compress h h2) hr h3 ?_ k1, k2, fun h0 => absurd (k3 h0) hst⟩
    rw [h3.1] at hi
    have hc := (auto.tgt _ _ _ ht r 1).mp hi
    generalize hd : (1 : Nat) = d at hc
    cases hc with
    | kern hk =>
      obtain ⟨d', e, _, B, α, hα, hα'⟩ := hk
      have : d' = 0 := by omega
      subst this
      obtain ⟨_, _, e2⟩ := ext_rule.mp hα
      have h31 := h3.1
      rw [e2] at h31 ⊢
      match α, h31, hα' with
      | [a], _, hα' => simp at hα'; rw [hα']
    | step => cases hd

/-! ### the stack -/

/-- The stack is a path in the automaton: `Sim … st s γ`: the entries are the states on the path that spells
`γ`, which ends in `s`. -/
inductive Sim (g : Gram) (m : Mach) (cs : List CState) (nx : Nat) : List (Nat × Nat) → Nat → List Nat → Prop
  | bottom (X : Nat) : Sim g m cs nx [(0, X)] 0 []
  | push (X : Nat) {st : List (Nat × Nat)} {s Y q : Nat} {γ : List Nat} (h : Sim g m cs nx st s γ) (ht : m.Trans s Y q)
      (hn : numOf g cs q < nx) : Sim g m cs nx ((numOf g cs q, X) :: st) q (γ ++ [Y])

variable {nx : Nat}

theorem Sim.path {st : List (Nat × Nat)} {s : Nat} {γ : List Nat} (h : Sim g m cs nx st s γ) : Path m.Trans 0 γ s := by
  induction h with
  | bottom => exact .nil 0
  | push X _ ht _ ih => exact .snoc ih ht

theorem Sim.length {st : List (Nat × Nat)} {s : Nat} {γ : List Nat} (h : Sim g m cs nx st s γ) : st.length = γ.length + 1 := by
  induction h with
  | bottom => rfl
  | push X _ ht _ ih => simp [ih]

theorem Sim.split {st : List (Nat × Nat)} {s : Nat} {γ : List Nat} (h : Sim g m cs nx st s γ) : ∀ δ α, γ = δ ++ α →
    ∃ s', Sim g m cs nx (st.drop α.length) s' δ := by
  induction h with
  | bottom X =>
    intro δ α e
    simp only [List.nil_eq, List.append_eq_nil_iff] at e
    obtain ⟨rfl, rfl⟩ := e
    exact ⟨0, .bottom X⟩
  | @push X st s Y q γ h ht hn ih =>
    intro δ α e
    rcases List.eq_nil_or_concat α with rfl | ⟨α', Z, rfl⟩
    · rw [List.append_nil] at e
      subst e
      exact ⟨q, .push X h ht hn⟩
    · rw [List.concat_eq_append, ← List.append_assoc] at e
      obtain ⟨e1, _⟩ := List.append_inj' e rfl
      obtain ⟨s', h1⟩ := ih δ α' e1
      exact ⟨s', by simpa using h1⟩

theorem Sim.head (u : Usable g) (h : Prepared g compress m F A cs) {st : List (Nat × Nat)} {s : Nat} {γ : List Nat}
    (hs : Sim g m cs (nxstate cs (resortStates g cs)) st s γ) :
    (∃ X, st.head? = some (numOf g cs s, X)) ∧ s < m.sts.length ∧ numOf g cs s < nxstate cs (resortStates g cs) := by
  have hpos : 0 < m.sts.length := (h.isAuto u).pos
  have hlen := (h.states u).1
  refine ⟨?_, (h.isAuto u).path_lt hpos hs.path, ?_⟩
  · cases hs with
    | bottom X =>
      obtain ⟨l, hl⟩ := order_head g (cs := cs) (by omega)
      exact ⟨X, by simp [numOf, hl]⟩
    | push X => exact ⟨X, rfl⟩
  · cases hs with
    | bottom X =>
      obtain ⟨l, hl⟩ := order_head g (cs := cs) (by omega)
      simp [numOf, hl, nxstate]
    | push X _ _ hn => exact hn

/-- a complete item at the top of the stack -/
theorem Sim.back (u : Usable g) (h : Prepared g compress m F A cs) {st : List (Nat × Nat)} {s r : Nat} {γ : List Nat}
    (hs : Sim g m cs nx st s γ) (hi : m.Item s r (g.rule r).rhs.length) :
    ∃ δ q, γ = δ ++ (g.rule r).rhs ∧ Sim g m cs nx (st.drop (g.rule r).rhs.length) q δ ∧ m.Item q r 0 := by
  obtain ⟨δ, q, e, h1, h2, h3⟩ := item_back u h hs.path hi
  obtain ⟨q', h4⟩ := hs.split δ _ e
  have := (h.isAuto u).path_det h1 h4.path
  subst this
  exact ⟨δ, q, e, h4, h3⟩

theorem stateAt_num (u : Usable g) (h : Prepared g compress m F A cs) {s : Nat} (hs : s < m.sts.length) :
    stateAt cs (resortStates g cs) (numOf g cs s) = cs.getD s ⟨[], none⟩ := by
  unfold stateAt
  rw [(order_idx (by rw [(h.states u).1]; exact hs)).1]

/-- what `yy_find_reduce_action` finds after a reduction by `r` -/
theorem reduce_finds (u : Usable g) (h : Generated g fb compress m F A cs T) {st : List (Nat × Nat)} {s r : Nat} {γ : List Nat}
    (hs : Sim g m cs (nxstate cs (resortStates g cs)) st s γ) (hi : m.Item s r 0) :
    ∃ e, Lands g (A.on s) (autoAt cs) (g.rule r).lhs e ∧
      T.findReduce (numOf g cs s) (g.index (g.rule r).lhs) = some (actNum g cs.length (resortStates g cs) (g.rule r).lhs e) := by
  have hp := h.toPrepared
  obtain ⟨_, h2, h3⟩ := hs.head u hp
  have hr := (item_lt u hp hi).2
  have hb := u.wf.lhs _ (rule_mem hr)
  have hnt := on_nt u.wf u.start u.items h.analysed h.small h.actions h2 hb.1 hb.2
  have hne : A.on s (g.rule r).lhs ≠ [] := by
    rcases goto_ex u hp hi with ⟨k1, k2⟩ | ⟨_, q, k⟩
    · rw [hnt.2.mp ⟨k2, k1⟩]; simp
    · rw [(hnt.1 q).mp k]; simp
  obtain ⟨e, h4, h5⟩ := ((hp.states u).2 s h2).comp.goto _ hb.1 hb.2 hne
  refine ⟨e, h5, ?_⟩
  refine findReduce_eq (h.reported u) h3 hb.1 hb.2 ?_
  rw [stateAt_num u hp h2]
  unfold lastNum
  rw [h4]
  rfl

end Verif.Lemon
