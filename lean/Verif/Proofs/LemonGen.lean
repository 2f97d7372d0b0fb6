import Verif.Spec.LemonGen
import Verif.Proofs.LemonTables
import Verif.Props.C35
/-
From the states of a generated parser to its tables.
-/
set_option autoImplicit false
namespace Verif.Lemon
open Verif.Spec

variable {g : Gram} {fb : Nat → Option Nat} {compress : Bool} {m : Mach} {F : List TSet} {A : Acts} {cs : List CState} {T : Tables}

/-! ### new order of the states -/

theorem resort_le_trans (g : Gram) (cs : List CState) : ∀ a b c : Nat, (a == b || resortLt g cs a b) = true →
    (b == c || resortLt g cs b c) = true → (a == c || resortLt g cs a c) = true := by
  intro a b c h1 h2
  by_cases e1 : a = b
  · subst e1; exact h2
  by_cases e2 : b = c
  · subst e2; exact h1
  unfold resortLt at *
  simp only [Bool.or_eq_true, beq_iff_eq, Bool.and_eq_true, decide_eq_true_eq] at h1 h2 ⊢
  omega

theorem order_perm (g : Gram) (cs : List CState) : (resortStates g cs).Perm (List.range cs.length) := by
  unfold resortStates
  cases h : List.range cs.length with
  | nil => exact .refl _
  | cons s l => exact (qsort_perm _ l).cons s

theorem order_head (g : Gram) {cs : List CState} (h : 0 < cs.length) : ∃ l, resortStates g cs = 0 :: l := by
  unfold resortStates
  obtain ⟨n, hn⟩ := Nat.exists_eq_succ_of_ne_zero (Nat.ne_of_gt h)
  rw [hn, List.range_succ_eq_map]
  exact ⟨_, rfl⟩

theorem order_nodup (g : Gram) (cs : List CState) : (resortStates g cs).Nodup :=
  (order_perm g cs).nodup_iff.mpr List.nodup_range

theorem order_length (g : Gram) (cs : List CState) : (resortStates g cs).length = cs.length := by
  simpa using (order_perm g cs).length_eq

theorem nxstate_le (cs : List CState) (order : List Nat) : nxstate cs order ≤ order.length := by
  unfold nxstate
  cases order with
  | nil => simp
  | cons s l =>
    simp only [List.length_cons]
    have := (List.dropWhile_sublist (fun s => (cs.getD s ⟨[], none⟩).auto.isSome) (l := l.reverse)).length_le
    rw [List.length_reverse] at this
    omega

/-- states that do more than reduce have numbers below `nxstate` -/
theorem nx_of_auto {cs : List CState} {order : List Nat} {s : Nat} (hs : s ∈ order) (ha : (cs.getD s ⟨[], none⟩).auto = none) :
    order.idxOf s < nxstate cs order := by
  unfold nxstate
  cases order with
  | nil => cases hs
  | cons s0 l =>
    simp only
    by_cases h0 : s0 = s
    · rw [h0, List.idxOf_cons_self]; omega
    · rw [List.idxOf_cons_ne _ h0]
      have hsl : s ∈ l := by
        rcases List.mem_cons.mp hs with h | h
        · exact absurd h.symm h0
        · exact h
      suffices h : l.idxOf s < (l.reverse.dropWhile fun s => (cs.getD s ⟨[], none⟩).auto.isSome).length by omega
      generalize hq : (fun s => (cs.getD s ⟨[], none⟩).auto.isSome) = q
      have hqs : q s = false := by rw [← hq]; simp only [ha]; rfl
      clear hq hs h0
      induction l using List.reverseRecOn with
      | nil => cases hsl
      | append_singleton l x ih =>
        rw [List.reverse_append, List.reverse_singleton, List.singleton_append, List.dropWhile_cons]
        split_ifs with hx
        · have hne : x ≠ s := by rintro rfl; rw [hqs] at hx; cases hx
          have hsl' : s ∈ l := by simpa [Ne.symm hne] using hsl
          rw [List.idxOf_append_of_mem hsl']
          exact ih hsl'
        · have := List.idxOf_lt_length_of_mem hsl
          simp only [List.length_append, List.length_cons, List.length_nil, List.length_reverse] at this ⊢
          exact this

theorem order_get {cs : List CState} {i : Nat} (hi : i < cs.length) :
    ∃ s, (resortStates g cs)[i]? = some s ∧ (resortStates g cs).getD i 0 = s ∧ s < cs.length ∧ (resortStates g cs).idxOf s = i := by
  have hl : i < (resortStates g cs).length := by rw [order_length]; exact hi
  refine ⟨(resortStates g cs)[i], List.getElem?_eq_getElem hl, by rw [List.getD_eq_getElem?_getD, List.getElem?_eq_getElem hl]; rfl, ?_, ?_⟩
  · exact List.mem_range.mp ((order_perm g cs).mem_iff.mp (List.getElem_mem hl))
  · exact (order_nodup g cs).idxOf_getElem i hl

theorem order_idx {cs : List CState} {s : Nat} (hs : s < cs.length) :
    (resortStates g cs).getD ((resortStates g cs).idxOf s) 0 = s ∧ (resortStates g cs).idxOf s < cs.length := by
  have hm : s ∈ resortStates g cs := (order_perm g cs).mem_iff.mpr (List.mem_range.mpr hs)
  have hl := List.idxOf_lt_length_of_mem hm
  refine ⟨?_, by rw [order_length] at hl; exact hl⟩
  rw [List.getD_eq_getElem?_getD, List.getElem?_eq_getElem hl, List.getElem_idxOf]
  rfl

/-! ### the states -/

/-- what is known of the state `s` after compression (or without it) -/
structure StateOK (g : Gram) (A : Acts) (cs : List CState) (s : Nat) : Prop where
  comp : Compressed g (A.on s) (fun q => (cs.getD q ⟨[], none⟩).auto) (cs.getD s ⟨[], none⟩)
  dflt : ∀ r, dfltReduce g (cs.getD s ⟨[], none⟩) = some r → (∃ t, (.REDUCE, r) ∈ A.on s t) ∧ (g.rule r).lhs ≠ g.start
  sp : ∀ a ∈ (cs.getD s ⟨[], none⟩).acts, (g.plain a.sp ∧ g.index a.sp < g.nsymbol) ∨ a.sp = g.nsym

theorem Prepared.states (u : Usable g) (h : Prepared g compress m F A cs) :
    cs.length = m.sts.length ∧ ∀ s < m.sts.length, StateOK g A cs s := by
  have hok := h.analysed.ok u.wf u.items
  have hspec := findActions_spec u.wf u.start u.items (precsyms g) (F := F) hok h.small
  rw [h.actions] at hspec
  have hAl : A.acts.length = m.sts.length := hspec.1
  cases hc : compress with
  | true =>
    obtain ⟨fuel, hf⟩ := h.compressed hc
    obtain ⟨e1, e2⟩ := C35_compress g u.wf u.start u.items (precsyms g) m F h.analysed h.small A h.actions fuel cs hf
    refine ⟨e1, ?_⟩
    intro s hs
    obtain ⟨d1, d2⟩ := e2 s hs
    refine ⟨d2, fun r hr => ⟨d1.used r hr, d1.start r hr⟩, ?_⟩
    obtain ⟨hr, _⟩ := resolved_of_findActions u.wf u.start u.items hok h.small h.actions hs
    obtain ⟨_, k1, _⟩ := compressTables_get hf (s := s) (by rw [hAl]; exact hs)
    obtain ⟨j1, _⟩ := elideAll_spec u.wf k1
    intro a ha
    have hmem : ∃ b ∈ (compressState g (A.acts.getD s [])).acts, a.sp = b.sp := by
      have : ∀ l1 l : List Act, List.Forall₂ (Elided g ((compressState g (A.acts.getD s [])).acts.map (shiftReduce (A.acts.map (compressState g))))) l1 l →
          ∀ a ∈ l, ∃ b ∈ l1, a.sp = b.sp := by
        intro l1 l hh
        induction hh with
        | nil => intro a ha; cases ha
        | cons h1 _ ih =>
          intro a ha
          rcases List.mem_cons.mp ha with rfl | ha
          · exact ⟨_, List.mem_cons_self, h1.1⟩
          · obtain ⟨b, hb, he⟩ := ih a ha
            exact ⟨b, List.mem_cons_of_mem _ hb, he⟩
      obtain ⟨b, hb, he⟩ := this _ _ j1 a ha
      obtain ⟨b', hb', rfl⟩ := List.mem_map.mp hb
      exact ⟨b', hb', by rw [he, shiftReduce_sp]⟩
    obtain ⟨b, hb, he⟩ := hmem
    rw [he]
    rcases compressState_spec u.wf hr with ⟨_, e, _⟩ | ⟨r, _, _, _, _, _, _, _, _, e, _, _⟩
    · rw [e] at hb; exact .inl (hr.sp b hb)
    · rcases e b hb with ⟨e, _⟩ | ⟨b', hb', e⟩
      · exact .inr e
      · rw [e]; exact .inl (hr.sp b' hb')
  | false =>
    have hcs := h.uncompressed hc
    have hlen : cs.length = m.sts.length := by rw [hcs]; unfold Lemon.uncompressed; simpa using hAl
    refine ⟨hlen, ?_⟩
    intro s hs
    obtain ⟨hr, hon⟩ := resolved_of_findActions u.wf u.start u.items hok h.small h.actions hs
    have hget : cs.getD s ⟨[], none⟩ = ⟨A.acts.getD s [], none⟩ := by
      rw [hcs]
      unfold Lemon.uncompressed
      rw [List.getD_eq_getElem?_getD, List.getElem?_map, List.getD_eq_getElem?_getD, List.getElem?_eq_getElem (by omega)]
      rfl
    have hauto : ∀ q, (cs.getD q ⟨[], none⟩).auto = none := by
      intro q
      rw [hcs]
      unfold Lemon.uncompressed
      rw [List.getD_eq_getElem?_getD, List.getElem?_map]
      cases A.acts[q]? <;> rfl
    have hdf : dfltReduce g (cs.getD s ⟨[], none⟩) = none := by
      rw [hget]
      unfold dfltReduce
      rw [List.filter_eq_nil_iff.mpr]
      · rfl
      · intro a ha hc
        simp only [Bool.and_eq_true, decide_eq_true_eq] at hc
        have := (hr.sp a ha).2
        omega
    have hcon : ∀ X, (cs.getD s ⟨[], none⟩).on X = A.on s X := by
      intro X
      rw [hget]
      exact hon X
    refine ⟨⟨?_, ?_, ?_, ?_, ?_, ?_⟩, ?_, ?_⟩
    · intro X _ h0; rw [hcon]; exact h0
    · intro t q _ h0; rw [hcon, hauto]; exact h0
    · intro t r h0; right; rw [hcon, hdf]; exact ⟨by simp, h0⟩
    · intro t q r h0; right; left; rw [hcon]; exact ⟨hdf, h0⟩
    · intro X hX hX' h0
      obtain ⟨k1, k2⟩ := on_nt u.wf u.start u.items h.analysed h.small h.actions hs hX hX'
      obtain ⟨e, he⟩ := List.exists_mem_of_ne_nil _ h0
      rcases on_sound u.wf u.start u.items h.analysed h.small h.actions hs he with ⟨q, Y, _, ht, hY⟩ | ⟨r, _, _, h3, _⟩ | ⟨_, h3⟩
      · have hXY := (shiftSyms_nt u.wf hX).mp hY
        subst hXY
        have := (k1 q).mp ht
        rw [hcon, this]
        exact ⟨_, rfl, .shift this (hauto q)⟩
      · unfold Gram.nlow at hX; omega
      · have := k2.mp h3
        rw [hcon, this]
        exact ⟨_, rfl, .accept this⟩
    · intro r
      rw [hauto, hdf]
      simp
    · intro r h0; rw [hdf] at h0; cases h0
    · rw [hget]
      intro a ha
      exact .inl (hr.sp a ha)

/-- shape of the actions on a symbol -/
theorem StateOK.shape (u : Usable g) (h : Prepared g compress m F A cs) {s : Nat} (hs : s < m.sts.length) (k : StateOK g A cs s)
    {X : Nat} (hX : X < g.nsym) : (cs.getD s ⟨[], none⟩).on X = [] ∨ (∃ e, (cs.getD s ⟨[], none⟩).on X = [e]) ∨
      ∃ q r, (cs.getD s ⟨[], none⟩).on X = [(.ERROR, q), (.REDUCE, r)] ∨ (cs.getD s ⟨[], none⟩).on X = [(.REDUCE, r), (.ERROR, q)] := by
  have hok := h.analysed.ok u.wf u.items
  obtain ⟨hr, hon⟩ := resolved_of_findActions u.wf u.start u.items hok h.small h.actions hs
  by_cases h0 : A.on s X = []
  · exact .inl (k.comp.none X hX h0)
  obtain ⟨hp, hi⟩ := on_sym u.wf u.start u.items h.analysed h.small h.actions hs h0
  by_cases hl : g.nlow ≤ X
  · obtain ⟨e, he, _⟩ := k.comp.goto X hl hX h0
    exact .inr (.inl ⟨e, he⟩)
  have hlt : X < g.nterm := by
    unfold Gram.plain at hp
    omega
  have h1 := hr.one X
  rw [hon] at h1
  rcases h1 with h1 | ⟨q, h1⟩ | ⟨r, h1⟩ | h1 | ⟨q, r, h1⟩
  · exact absurd h1 h0
  · rw [k.comp.shift X q hlt h1]
    split
    · exact .inr (.inl ⟨_, rfl⟩)
    · exact .inr (.inl ⟨_, rfl⟩)
  · rcases k.comp.reduce X r h1 with ⟨_, e⟩ | ⟨_, e⟩
    · exact .inl e
    · exact .inr (.inl ⟨_, e⟩)
  · have := on_sound u.wf u.start u.items h.analysed h.small h.actions hs (e := (.ACCEPT, 0)) (X := X) (by rw [h1]; exact List.mem_singleton_self _)
    rcases this with ⟨q, Y, e, _⟩ | ⟨r, e, _⟩ | ⟨_, _, e⟩
    · rcases e with e | e <;> cases e
    · cases e
    · have := u.start.1; omega
  · rcases k.comp.tie X q r h1 with ⟨_, e⟩ | ⟨_, e⟩ | ⟨r', _, _, e⟩
    · exact .inr (.inl ⟨_, e⟩)
    · exact .inr (.inr ⟨q, r, .inl e⟩)
    · exact .inr (.inr ⟨q, r, .inr e⟩)

theorem Prepared.actsOK (u : Usable g) (h : Prepared g compress m F A cs) {s : Nat} (hs : s < m.sts.length) :
    ActsOK g cs.length (resortStates g cs) (cs.getD s ⟨[], none⟩).acts := by
  have k := (h.states u).2 s hs
  refine ⟨k.sp, ?_⟩
  intro X hX
  have := k.shape u h hs hX
  unfold CState.on at this
  rcases this with e | ⟨_, e⟩ | ⟨q, r, e | e⟩
  · rw [e]; simp
  · rw [e]; simp
  · rw [e]; simp [actNum]; omega
  · rw [e]; simp [actNum]; omega

/-- number of states with rows in the tables -/
theorem Prepared.nx_le (u : Usable g) (h : Prepared g compress m F A cs) : nxstate cs (resortStates g cs) ≤ m.sts.length := by
  have := nxstate_le cs (resortStates g cs)
  rw [order_length, (h.states u).1] at this
  exact this

theorem Prepared.rowsOK (u : Usable g) (h : Prepared g compress m F A cs) : ∀ i, i < nxstate cs (resortStates g cs) →
    ActsOK g cs.length (resortStates g cs) (stateAt cs (resortStates g cs) i).acts := by
  intro i hi
  obtain ⟨s, _, h2, h3, _⟩ := order_get (g := g) (cs := cs) (i := i) (by rw [(h.states u).1]; exact Nat.lt_of_lt_of_le hi (h.nx_le u))
  unfold stateAt
  rw [h2]
  exact h.actsOK u (by rw [← (h.states u).1]; exact h3)

theorem Generated.reported (u : Usable g) (h : Generated g fb compress m F A cs T) :
    Reported g fb cs (resortStates g cs) (nxstate cs (resortStates g cs)) T :=
  report_spec u.wf u.err (h.toPrepared.rowsOK u) h.tables

/-! ### concrete grammars -/

/-- the states of a grammar, computed with bounded numbers of rounds -/
def prepare (compress : Bool) (g : Gram) (n : Nat) : Option (List CState) :=
  (analyse g n).bind fun x =>
    if (rawActs g x.1 x.2).length < 2 ^ 30 then
      (findActions g (precsyms g) x.1 x.2).bind fun A =>
        if compress then compressTables g n A.acts else some (uncompressed A.acts)
    else none

/-- the tables for a grammar, computed with bounded numbers of rounds -/
def makeTables (compress : Bool) (g : Gram) (fb : Nat → Option Nat) (n : Nat) : Option Tables :=
  (prepare compress g n).bind fun cs => report g fb cs (resortStates g cs) (nxstate cs (resortStates g cs))

theorem prepared_of (u : Usable g) {n : Nat} (h : prepare compress g n = some cs) : ∃ m F A, Prepared g compress m F A cs := by
  unfold prepare at h
  obtain ⟨⟨m, F⟩, h1, h2⟩ := Option.bind_eq_some_iff.mp h
  split_ifs at h2 with h3 hc hc
  · obtain ⟨A, h4, h5⟩ := Option.bind_eq_some_iff.mp h2
    exact ⟨m, F, A, analysed_of_analyse u.wf u.items h1, h3, h4, fun _ => ⟨n, h5⟩, fun hc' => absurd hc (by rw [hc']; simp)⟩
  · obtain ⟨A, h4, h5⟩ := Option.bind_eq_some_iff.mp h2
    exact ⟨m, F, A, analysed_of_analyse u.wf u.items h1, h3, h4, fun hc' => absurd hc' hc, fun _ => (Option.some.inj h5).symm⟩

theorem generates_of (u : Usable g) {n : Nat} (h : makeTables compress g fb n = some T) : Generates g fb compress T := by
  unfold makeTables at h
  obtain ⟨cs, h1, h2⟩ := Option.bind_eq_some_iff.mp h
  obtain ⟨m, F, A, h3⟩ := prepared_of u h1
  exact ⟨m, F, A, cs, h3, h2⟩

/-- `Usable` as a computation -/
def usableB (g : Gram) : Bool :=
  0 < g.nterm && g.nlow ≤ g.nsym && g.rules.all (fun r => g.nlow ≤ r.lhs && r.lhs < g.nsym && r.rhs.all (fun X => X < g.nsym && X != g.start)) &&
    g.mts.all (fun l => l.all (fun t => t < g.nterm)) && g.nlow ≤ g.start && g.start < g.nsym &&
    (match g.errsym with
      | none => true
      | some E => g.nlow ≤ E && E < g.nsym) &&
    (match g.wildcard with
      | none => true
      | some W => 0 < W && W < g.nterm) && g.nitems < 2 ^ 30

theorem usable_of (h : usableB g = true) : Usable g := by
  unfold usableB at h
  simp only [Bool.and_eq_true, decide_eq_true_eq, List.all_eq_true, bne_iff_ne] at h
  obtain ⟨⟨⟨⟨⟨⟨⟨⟨h1, h2⟩, h3⟩, h4⟩, h5⟩, h6⟩, h7⟩, h8⟩, h9⟩ := h
  refine ⟨⟨h1, h2, fun r hr => (h3 r hr).1, fun r hr X hX => ((h3 r hr).2 X hX).1, h4⟩, ⟨h5, h6⟩, ?_, ?_, ?_, h9⟩
  · intro E hE
    rw [hE] at h7
    simpa using h7
  · intro W hW
    rw [hW] at h8
    simpa using h8
  · intro r hr hc
    exact ((h3 r hr).2 _ hc).2 rfl

end Verif.Lemon
