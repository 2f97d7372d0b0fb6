import Verif.Proofs.LemonStates
/-
The recursion of `getstate` and `buildshifts`.
-/
set_option autoImplicit false
namespace Verif.Lemon
open Verif.Spec

variable {g : Gram} {fs : FirstSets}

/-- moving the dot -/
def adv (it : Item) : Item := (it.1, it.2 + 1)

def St.items (st : St) : List Item := st.cfgs.map Config.item

/-- basis of the successor of a state -/
def succBasis (g : Gram) (st : St) (X : Nat) : List Item :=
  (st.items.filter fun c => g.next c == some X).map adv

/-- what is true of a state; `first`: it is the first state -/
structure StOK (g : Gram) (first : Prop) (st : St) : Prop where
  basis : Sorted st.basis
  valid : ∀ it ∈ st.basis, IsItem g.ext it.1 it.2
  dots : (first → ∀ it, it ∈ st.basis ↔ it.2 = 0 ∧ it.1 ∈ g.rulesOf g.start) ∧
    (¬ first → st.basis ≠ [] ∧ ∀ it ∈ st.basis, 1 ≤ it.2)
  sorted : Sorted st.items
  mem : ∀ r d, (r, d) ∈ st.items ↔ Closed g.ext (fun r d => (r, d) ∈ st.basis) r d
  len : ∀ c ∈ st.cfgs, c.fws.length = g.setSize
  fws : ∀ c ∈ st.cfgs, ∀ t, setFind c.fws t = true ↔ (first ∧ c.item ∈ st.basis ∧ t = 0) ∨
    ∃ p r, p ∈ st.items ∧ Edge g p r ∧ c.item = (r, 0) ∧ Fst g.cfg (g.rest p) t
  fplp : ∀ c ∈ st.cfgs, ∀ it, it ∈ c.fplp ↔ ∃ r, Edge g c.item r ∧ it = (r, 0) ∧ ∀ X ∈ g.rest c.item, Null g.cfg X

/-- an entry of `shifts` is right -/
def ShiftOK (g : Gram) (m : Mach) (e : Nat × Nat × Nat) : Prop :=
  ∃ st st', m.sts[e.1]? = some st ∧ m.sts[e.2.2]? = some st' ∧ (∃ it ∈ st.items, g.next it = some e.2.1) ∧
    st'.basis = msort configcmp (succBasis g st e.2.1)

/-- `l` is a backward link made for the shift `e` -/
def BackOf (g : Gram) (m : Mach) (e : Nat × Nat × Nat) (l : Ref × Ref) : Prop :=
  ∃ st, m.sts[e.1]? = some st ∧ ∃ it ∈ st.items, g.next it = some e.2.1 ∧ l = ((e.2.2, adv it), (e.1, it))

structure Good (g : Gram) (m : Mach) : Prop where
  st : ∀ s st, m.sts[s]? = some st → StOK g (s = 0) st
  nodup : (m.sts.map St.basis).Nodup

theorem Good.bound {m : Mach} (h : Good g m) : m.sts.length ≤ 2 ^ g.nitems := by
  have := bases_bound (g := g) h.nodup ?_ ?_
  · simpa using this
  · intro l hl
    obtain ⟨st, hst, rfl⟩ := List.mem_map.mp hl
    obtain ⟨s, hs⟩ := List.getElem?_of_mem hst
    exact (h.st s st hs).basis
  · intro l hl
    obtain ⟨st, hst, rfl⟩ := List.mem_map.mp hl
    obtain ⟨s, hs⟩ := List.getElem?_of_mem hst
    exact (h.st s st hs).valid

/-- from `m` to `m'`, with new shifts `ns` and new links `nb` -/
structure Grown (g : Gram) (m m' : Mach) (ns : List (Nat × Nat × Nat)) (nb : List (Ref × Ref)) : Prop where
  sts : m.sts <+: m'.sts
  good : Good g m'
  shifts : m'.shifts = ns ++ m.shifts
  back : m'.back = nb ++ m.back
  ok : ∀ e ∈ ns, ShiftOK g m' e
  full : ∀ s st, m.sts.length ≤ s → m'.sts[s]? = some st →
    ((ns.filter fun e => e.1 == s).reverse.map fun e => e.2.1) = (shiftGroups g st.cfgs).map Prod.fst

theorem prefix_get {α : Type} {l l' : List α} (h : l <+: l') {i : Nat} {x : α} (hx : l[i]? = some x) : l'[i]? = some x := by
  obtain ⟨tl, rfl⟩ := h
  rw [List.getElem?_append_left (List.getElem?_eq_some_iff.mp hx).1]; exact hx

theorem ShiftOK.mono {m m' : Mach} (h : m.sts <+: m'.sts) {e : Nat × Nat × Nat} (he : ShiftOK g m e) : ShiftOK g m' e := by
  obtain ⟨st, st', h1, h2, h3, h4⟩ := he
  exact ⟨st, st', prefix_get h h1, prefix_get h h2, h3, h4⟩

theorem BackOf.mono {m m' : Mach} (h : m.sts <+: m'.sts) {e : Nat × Nat × Nat} {l : Ref × Ref}
    (he : BackOf g m e l) : BackOf g m' e l := by
  obtain ⟨st, h1, h2⟩ := he
  exact ⟨st, prefix_get h h1, h2⟩

theorem BackOf.anti {m m' : Mach} (h : m.sts <+: m'.sts) {e : Nat × Nat × Nat} {l : Ref × Ref}
    (hlt : e.1 < m.sts.length) (he : BackOf g m' e l) : BackOf g m e l := by
  obtain ⟨st, h1, h2⟩ := he
  refine ⟨st, ?_, h2⟩
  have := prefix_get h (List.getElem?_eq_getElem hlt)
  rw [this] at h1
  rw [List.getElem?_eq_getElem hlt]; exact h1

/-- what `getstate` needs of the configuration list -/
structure Pre (g : Gram) (m : Mach) (b : List Config) : Prop where
  nodup : (b.map Config.item).Nodup
  valid : ∀ c ∈ b, IsItem g.ext c.item.1 c.item.2
  len : ∀ c ∈ b, c.fws.length = g.setSize
  fplp : ∀ c ∈ b, c.fplp = []
  fws : ∀ c ∈ b, ∀ t, setFind c.fws t = true ↔ m.sts.length = 0 ∧ t = 0
  dots : (m.sts.length = 0 → ∀ it, it ∈ b.map Config.item ↔ it.2 = 0 ∧ it.1 ∈ g.rulesOf g.start) ∧
    (m.sts.length ≠ 0 → b ≠ [] ∧ ∀ c ∈ b, 1 ≤ c.item.2)

/-- the new state is right -/
theorem newState_ok (wf : g.WF) (ok : FsOK g fs) (hsmall : g.nitems < 2 ^ 30) {m : Mach} {b : List Config}
    (pre : Pre g m b) : ∃ cs, closure g fs b = some cs ∧
      StOK g (m.sts.length = 0) ⟨msort configcmp (b.map Config.item), msort (fun c c' => configcmp c.item c'.item) cs⟩ := by
  obtain ⟨cs, h1, h2, _⟩ := closure_spec wf ok pre.nodup pre.len pre.fplp
  refine ⟨cs, h1, ?_⟩
  have hvalid : ∀ it ∈ b.map Config.item, IsItem g.ext it.1 it.2 := by
    intro it hit
    obtain ⟨c, hc, rfl⟩ := List.mem_map.mp hit
    exact pre.valid c hc
  have hblen : (b.map Config.item).length < 2 ^ 30 :=
    Nat.lt_of_le_of_lt (items_bound pre.nodup hvalid) hsmall
  have hcsv : ∀ it ∈ cs.map Config.item, IsItem g.ext it.1 it.2 := by
    intro it hit
    have := (h2.mem it.1 it.2).mp hit
    exact closed_isItem (fun r d hk => hvalid (r, d) hk) this
  have hcslen : cs.length < 2 ^ 30 := by
    have := items_bound h2.nodup hcsv
    simp only [List.length_map] at this; omega
  obtain ⟨p1, p2⟩ := msort_items hblen pre.nodup
  obtain ⟨q1, q2⟩ := msort_configs hcslen h2.nodup
  have q3 := q1.map Config.item
  have hmb : ∀ it, it ∈ msort configcmp (b.map Config.item) ↔ it ∈ b.map Config.item := fun it => p1.mem_iff
  refine ⟨p2, fun it hit => hvalid it ((hmb it).mp hit), ⟨?_, ?_⟩, q2, ?_, ?_, ?_, ?_⟩
  · intro h0 it
    rw [hmb]; exact pre.dots.1 h0 it
  · intro h0
    refine ⟨?_, ?_⟩
    · intro he
      have := p1.length_eq
      simp only at he
      rw [he] at this
      simp only [List.length_nil, List.length_map] at this
      exact (pre.dots.2 h0).1 (List.length_eq_zero_iff.mp this.symm)
    · intro it hit
      obtain ⟨c, hc, rfl⟩ := List.mem_map.mp ((hmb it).mp hit)
      exact (pre.dots.2 h0).2 c hc
  · intro r d
    simp only [St.items]
    rw [q3.mem_iff, h2.mem]
    apply closed_congr
    intro r d; exact (hmb _).symm
  · intro c hc
    exact h2.len c (q1.mem_iff.mp hc)
  · intro c hc t
    rw [h2.fws c (q1.mem_iff.mp hc) t]
    simp only [St.items, q3.mem_iff, hmb]
    refine or_congr ?_ Iff.rfl
    constructor
    · rintro ⟨c0, hc0, he, hf⟩
      obtain ⟨k1, k2⟩ := (pre.fws c0 hc0 t).mp hf
      exact ⟨k1, List.mem_map.mpr ⟨c0, hc0, he⟩, k2⟩
    · rintro ⟨k1, k2, k3⟩
      obtain ⟨c0, hc0, he⟩ := List.mem_map.mp k2
      exact ⟨c0, hc0, he, (pre.fws c0 hc0 t).mpr ⟨k1, k3⟩⟩
  · intro c hc it
    exact h2.fplp c (q1.mem_iff.mp hc) it

/-- what `getstate` does -/
structure Post (g : Gram) (m : Mach) (b : List Config) (bl : List (Item × Ref)) (m' : Mach) (t : Nat)
    (ns : List (Nat × Nat × Nat)) (nb : List (Ref × Ref)) : Prop where
  grown : Grown g m m' ns nb
  src : ∀ e ∈ ns, m.sts.length ≤ e.1
  tgt : ∃ st, m'.sts[t]? = some st ∧ st.basis = msort configcmp (b.map Config.item)
  back : ∀ l, l ∈ nb ↔ (∃ p ∈ bl, l = ((t, p.1), p.2)) ∨ ∃ e ∈ ns, BackOf g m' e l
  reach : ∀ u, m.sts.length ≤ u → u < m'.sts.length → u = t ∨ ∃ s X, s < u ∧ (s, X, u) ∈ ns

/-- invariant of the loop over the successors of state `s0`; `m1` is the machine before the loop -/
structure Mid (g : Gram) (s0 : Nat) (m1 : Mach) (done : List Nat) (m : Mach)
    (ns : List (Nat × Nat × Nat)) (nb : List (Ref × Ref)) : Prop where
  grown : Grown g m1 m ns nb
  src : ∀ e ∈ ns, s0 ≤ e.1
  own : ((ns.filter fun e => e.1 == s0).reverse.map fun e => e.2.1) = done
  back : ∀ l, l ∈ nb ↔ ∃ e ∈ ns, BackOf g m e l
  reach : ∀ u, m1.sts.length ≤ u → u < m.sts.length → ∃ s X, s < u ∧ (s, X, u) ∈ ns

theorem mid_step {s0 : Nat} {st0 : St} {m1 m m' : Mach} {done : List Nat}
    {ns ns' : List (Nat × Nat × Nat)} {nb nb' : List (Ref × Ref)} (h1 : m1.sts[s0]? = some st0)
    (hs0 : m1.sts.length = s0 + 1)
    (mid : Mid g s0 m1 done m ns nb) {X t : Nat} {srcs : List Item}
    (hX : ∃ it ∈ st0.items, g.next it = some X)
    (hsrcs : srcs = st0.items.filter fun c => g.next c == some X)
    (post : Post g m (srcs.map fun it => newConfig g (it.1, it.2 + 1)) (srcs.map fun it => ((it.1, it.2 + 1), (s0, it)))
      m' t ns' nb') :
    Mid g s0 m1 (done ++ [X]) { m' with shifts := (s0, X, t) :: m'.shifts } ((s0, X, t) :: (ns' ++ ns)) (nb' ++ nb) := by
  have hlen : m1.sts.length ≤ m.sts.length := mid.grown.sts.length_le
  have hlen' : m.sts.length ≤ m'.sts.length := post.grown.sts.length_le
  have hm' : m1.sts <+: m'.sts := mid.grown.sts.trans post.grown.sts
  have hst0 : m'.sts[s0]? = some st0 := prefix_get hm' h1
  have hitems : (srcs.map fun it => newConfig g (it.1, it.2 + 1)).map Config.item = succBasis g st0 X := by
    rw [hsrcs]; simp [succBasis, newConfig, adv, Function.comp_def]
  obtain ⟨stt, ht1, ht2⟩ := post.tgt
  rw [hitems] at ht2
  have hnslt : ∀ e ∈ ns, e.1 < m.sts.length := by
    intro e he
    obtain ⟨st, _, h, _⟩ := mid.grown.ok e he
    exact (List.getElem?_eq_some_iff.mp h).1
  have hshift : ShiftOK g m' (s0, X, t) := ⟨st0, stt, hst0, ht1, hX, ht2⟩
  refine ⟨⟨hm', ⟨post.grown.good.st, post.grown.good.nodup⟩, ?_, ?_, ?_, ?_⟩, ?_, ?_, ?_, ?_⟩
  · simp [post.grown.shifts, mid.grown.shifts]
  · simp [post.grown.back, mid.grown.back]
  · intro e he
    have key : ShiftOK g m' e := by
      rcases List.mem_cons.mp he with rfl | he
      · exact hshift
      · rcases List.mem_append.mp he with he | he
        · exact post.grown.ok e he
        · exact (mid.grown.ok e he).mono post.grown.sts
    exact key
  · intro s st hs hst
    have hne : ¬ s0 = s := by omega
    simp only [List.filter_cons, beq_iff_eq, hne, if_false, List.filter_append]
    have hst' : m'.sts[s]? = some st := hst
    rcases Nat.lt_or_ge s m.sts.length with hlt | hge
    · have e1 : (ns'.filter fun e => e.1 == s) = [] := by
        rw [List.filter_eq_nil_iff]
        intro e he
        have := post.src e he
        simp; omega
      rw [e1, List.nil_append]
      refine mid.grown.full s st hs ?_
      obtain ⟨tl, htl⟩ := post.grown.sts
      rw [← htl, List.getElem?_append_left hlt] at hst'
      exact hst'
    · have e1 : (ns.filter fun e => e.1 == s) = [] := by
        rw [List.filter_eq_nil_iff]
        intro e he
        have := hnslt e he
        simp; omega
      rw [e1, List.append_nil]
      exact post.grown.full s st hge hst'
  · intro e he
    rcases List.mem_cons.mp he with rfl | he
    · exact Nat.le_refl _
    · rcases List.mem_append.mp he with he | he
      · have := post.src e he; omega
      · exact mid.src e he
  · simp only [List.filter_cons, beq_self_eq_true, if_true, List.filter_append]
    have e1 : (ns'.filter fun e => e.1 == s0) = [] := by
      rw [List.filter_eq_nil_iff]
      intro e he
      have := post.src e he
      simp; omega
    rw [e1, List.nil_append, List.reverse_cons, List.map_append, mid.own]
    simp
  · intro l
    simp only [List.mem_append, post.back, mid.back, List.mem_cons]
    constructor
    · rintro ((⟨p, hp, rfl⟩ | ⟨e, he, hb⟩) | ⟨e, he, hb⟩)
      · obtain ⟨it, hit, rfl⟩ := List.mem_map.mp hp
        rw [hsrcs] at hit
        obtain ⟨hit1, hit2⟩ := List.mem_filter.mp hit
        exact ⟨(s0, X, t), Or.inl rfl, st0, hst0, it, hit1, by simpa using hit2, rfl⟩
      · exact ⟨e, Or.inr (Or.inl he), hb⟩
      · exact ⟨e, Or.inr (Or.inr he), hb.mono post.grown.sts⟩
    · rintro ⟨e, rfl | he | he, hb⟩
      · obtain ⟨st, hst, it, hit, hnx, rfl⟩ := hb
        have hst' : m'.sts[s0]? = some st := hst
        rw [hst0] at hst'
        simp only [Option.some.injEq] at hst'
        subst hst'
        refine Or.inl (Or.inl ⟨((it.1, it.2 + 1), (s0, it)), List.mem_map.mpr ⟨it, ?_, rfl⟩, rfl⟩)
        rw [hsrcs, List.mem_filter]
        exact ⟨hit, by simpa using hnx⟩
      · exact Or.inl (Or.inr ⟨e, he, hb⟩)
      · exact Or.inr ⟨e, he, BackOf.anti post.grown.sts (hnslt e he) hb⟩
  · intro u hu1 hu2
    have hu2' : u < m'.sts.length := hu2
    rcases Nat.lt_or_ge u m.sts.length with hlt | hge
    · obtain ⟨s, Y, h1, h2⟩ := mid.reach u hu1 hlt
      exact ⟨s, Y, h1, by simp [h2]⟩
    · rcases post.reach u hge hu2' with rfl | ⟨s, Y, h1, h2⟩
      · exact ⟨s0, X, by omega, by simp⟩
      · exact ⟨s, Y, h1, by simp [h2]⟩

theorem foldlM_mid {α σ : Type} {f : σ → α → Option σ} (P : List α → σ → Prop) (l : List α) (s : σ) (h0 : P [] s)
    (hs : ∀ pre a post t, l = pre ++ a :: post → P pre t → ∃ t', f t a = some t' ∧ P (pre ++ [a]) t') :
    ∃ s', l.foldlM f s = some s' ∧ P l s' := by
  have gen : ∀ (post pre : List α) (t : σ), l = pre ++ post → P pre t → ∃ s', post.foldlM f t = some s' ∧ P l s' := by
    intro post
    induction post with
    | nil => intro pre t h hP; simp at h; subst h; exact ⟨t, rfl, hP⟩
    | cons a post ih =>
      intro pre t h hP
      obtain ⟨t', h1, h2⟩ := hs pre a post t h hP
      obtain ⟨s', h3, h4⟩ := ih (pre ++ [a]) t' (by simp [h]) h2
      refine ⟨s', ?_, h4⟩
      rw [List.foldlM_cons, h1]; exact h3
  exact gen l [] s (by simp) h0

theorem getState_spec (wf : g.WF) (ok : FsOK g fs) (hsmall : g.nitems < 2 ^ 30) : ∀ (fuel : Nat) (m : Mach)
    (b : List Config) (bl : List (Item × Ref)), Good g m → Pre g m b → 2 ^ g.nitems < fuel + m.sts.length →
    ∃ m' t ns nb, getState g fs fuel m b bl = some (m', t) ∧ Post g m b bl m' t ns nb := by
  intro fuel
  induction fuel with
  | zero =>
    intro m b bl hg _ hf
    have := hg.bound; omega
  | succ n ih =>
    intro m b bl hg pre hf
    unfold getState
    simp only
    cases hfind : m.sts.findIdx? (fun st => st.basis == msort configcmp (b.map Config.item)) with
    | some t =>
      refine ⟨_, t, [], _, rfl, ⟨⟨List.prefix_rfl, ⟨hg.st, hg.nodup⟩, by simp, rfl, by simp, ?_⟩, by simp, ?_, ?_, ?_⟩⟩
      · intro s st hs hst
        have := (List.getElem?_eq_some_iff.mp hst).1
        simp only at this; omega
      · obtain ⟨h1, h2, _⟩ := List.findIdx?_eq_some_iff_getElem.mp hfind
        exact ⟨m.sts[t], List.getElem?_eq_getElem h1, by simpa using h2⟩
      · intro l
        simp [eq_comm]
      · intro u h1 h2; simp only at h2; omega
    | none =>
      obtain ⟨cs, hcs, hst⟩ := newState_ok wf ok hsmall pre
      simp only [hcs, Option.bind_some]
      generalize hst0 : (⟨msort configcmp (b.map Config.item), msort (fun c c' => configcmp c.item c'.item) cs⟩ : St) = st0 at hst
      have hcf : msort (fun c c' => configcmp c.item c'.item) cs = st0.cfgs := by rw [← hst0]
      have hbs : msort configcmp (b.map Config.item) = st0.basis := by rw [← hst0]
      rw [hcf]
      generalize hs0 : m.sts.length = s0 at *
      generalize hm1 : (⟨m.sts ++ [st0], (bl.map fun l => ((s0, l.1), l.2)).reverse ++ m.back, m.shifts⟩ : Mach) = m1
      have hsts1 : m1.sts = m.sts ++ [st0] := by rw [← hm1]
      have hlen1 : m1.sts.length = s0 + 1 := by rw [hsts1]; simp [hs0]
      have hget1 : m1.sts[s0]? = some st0 := by rw [hsts1, ← hs0]; simp
      have hg1 : Good g m1 := by
        constructor
        · intro s st hs
          rw [hsts1] at hs
          rcases Nat.lt_trichotomy s m.sts.length with h | h | h
          · rw [List.getElem?_append_left h] at hs; exact hg.st s st hs
          · subst h
            rw [← hs0] at hst
            rw [List.getElem?_append_right (Nat.le_refl _)] at hs
            simp at hs; subst hs; exact hst
          · rw [List.getElem?_eq_none (by simp; omega)] at hs; cases hs
        · rw [hsts1, List.map_append]
          refine List.nodup_append.mpr ⟨hg.nodup, by simp, ?_⟩
          intro x hx y hy
          simp only [List.map_cons, List.map_nil, List.mem_singleton] at hy
          subst hy
          rintro rfl
          obtain ⟨st, hst', he⟩ := List.mem_map.mp hx
          have := List.findIdx?_eq_none_iff.mp hfind st hst'
          rw [hbs] at this
          simp [he] at this
      have hgr := shiftGroups_spec (g := g) st0.cfgs
      have hitems : ∀ it ∈ st0.items, IsItem g.ext it.1 it.2 := fun it hit =>
        closed_isItem (fun r d hk => hst.valid (r, d) hk) ((hst.mem it.1 it.2).mp hit)
      have hgl : g.nitems = g.nitems := rfl
      obtain ⟨m2, hfold, ns, nb, mid⟩ := foldlM_mid
        (f := fun (mk : Mach) (grp : Nat × List Item) =>
          (getState g fs n mk (grp.2.map fun it => newConfig g (it.1, it.2 + 1))
            (grp.2.map fun it => ((it.1, it.2 + 1), (s0, it)))).map fun r =>
              ({ sts := r.1.sts, back := r.1.back, shifts := (s0, grp.1, r.2) :: r.1.shifts } : Mach))
        (P := fun done mk => ∃ ns nb, Mid g s0 m1 (done.map Prod.fst) mk ns nb)
        (shiftGroups g st0.cfgs) m1
        (by
          refine ⟨[], [], ⟨⟨List.prefix_rfl, hg1, by simp, by simp, by simp, ?_⟩, by simp, by simp, by simp, ?_⟩⟩
          · intro s st h1 h2
            have := (List.getElem?_eq_some_iff.mp h2).1; omega
          · intro u h1 h2; omega)
        (by
          rintro pre' ⟨X, srcs⟩ post' mk hspl ⟨ns, nb, mid⟩
          have hmem : (X, srcs) ∈ shiftGroups g st0.cfgs := by rw [hspl]; simp
          have hX := (hgr.2.1 X).mp (List.mem_map.mpr ⟨_, hmem, rfl⟩)
          have hsrcs := hgr.2.2 X srcs hmem
          have hlen := mid.grown.sts.length_le
          have hpre : Pre g mk (srcs.map fun it => newConfig g (it.1, it.2 + 1)) := by
            have hin : ∀ it ∈ srcs, it ∈ st0.items ∧ g.next it = some X := by
              intro it hit
              rw [hsrcs] at hit
              obtain ⟨h1, h2⟩ := List.mem_filter.mp hit
              exact ⟨h1, by simpa using h2⟩
            refine ⟨?_, ?_, ?_, ?_, ?_, ?_, ?_⟩
            · rw [List.map_map]
              have hnd : srcs.Nodup := by
                rw [hsrcs]; exact (hst.sorted.nodup).filter _
              refine hnd.map ?_
              rintro ⟨a, b⟩ ⟨c, d⟩ h
              simp only [Function.comp, newConfig, Prod.mk.injEq] at h ⊢
              omega
            · intro c hc
              obtain ⟨it, hit, rfl⟩ := List.mem_map.mp hc
              obtain ⟨h1, h2⟩ := hin it hit
              have hlt := rule_lt (g := g) (r := it.1) (d := it.2) h2
              refine ⟨_, _, ext_rule.mpr ⟨hlt, rfl, rfl⟩, ?_⟩
              exact (List.getElem?_eq_some_iff.mp h2).1
            · intro c hc
              obtain ⟨it, hit, rfl⟩ := List.mem_map.mp hc
              simp [newConfig, setNew]
            · intro c hc
              obtain ⟨it, hit, rfl⟩ := List.mem_map.mp hc
              rfl
            · intro c hc t
              obtain ⟨it, hit, rfl⟩ := List.mem_map.mp hc
              simp only [newConfig, setFind_setNew, Bool.false_eq_true, false_iff]
              omega
            · intro h0; omega
            · intro _
              refine ⟨?_, ?_⟩
              · intro he
                obtain ⟨it, h1, h2⟩ := hX
                have : it ∈ srcs := by rw [hsrcs]; exact List.mem_filter.mpr ⟨h1, by simpa using h2⟩
                have := List.map_eq_nil_iff.mp he
                simp_all
              · intro c hc
                obtain ⟨it, hit, rfl⟩ := List.mem_map.mp hc
                simp [newConfig]
          obtain ⟨m', t, ns', nb', e1, e2⟩ := ih mk (srcs.map fun it => newConfig g (it.1, it.2 + 1))
            (srcs.map fun it => ((it.1, it.2 + 1), (s0, it))) mid.grown.good hpre (by omega)
          refine ⟨_, by simp only [e1]; rfl, (s0, X, t) :: (ns' ++ ns), nb' ++ nb, ?_⟩
          have := mid_step hget1 hlen1 mid hX hsrcs e2
          simpa using this)
      rw [hfold]
      refine ⟨m2, s0, ns, nb ++ (bl.map fun l => ((s0, l.1), l.2)).reverse, rfl, ?_⟩
      have hp1 : m.sts <+: m1.sts := by rw [hsts1]; exact List.prefix_append _ _
      refine ⟨⟨hp1.trans mid.grown.sts, mid.grown.good, ?_, ?_, mid.grown.ok, ?_⟩, ?_, ?_, ?_, ?_⟩
      · rw [mid.grown.shifts, ← hm1]
      · rw [mid.grown.back, ← hm1]; simp
      · intro s st h1 h2
        rcases Nat.lt_or_ge s0 s with h | h
        · exact mid.grown.full s st (by omega) h2
        · have : s = s0 := by omega
          subst this
          rw [prefix_get mid.grown.sts hget1] at h2
          simp only [Option.some.injEq] at h2
          subst h2
          exact mid.own
      · intro e he; rw [hs0]; exact mid.src e he
      · exact ⟨st0, prefix_get mid.grown.sts hget1, hbs.symm⟩
      · intro l
        simp only [List.mem_append, mid.back, List.mem_reverse, List.mem_map]
        constructor
        · rintro (h | ⟨p, hp, rfl⟩)
          · exact Or.inr h
          · exact Or.inl ⟨p, hp, rfl⟩
        · rintro (⟨p, hp, rfl⟩ | h)
          · exact Or.inr ⟨p, hp, rfl⟩
          · exact Or.inl h
      · intro u h1 h2
        rcases Nat.lt_or_ge s0 u with h | h
        · exact Or.inr (mid.reach u (by omega) h2)
        · exact Or.inl (by omega)

end Verif.Lemon
