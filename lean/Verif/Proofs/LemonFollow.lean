import Verif.Proofs.LemonAuto
import Verif.Proofs.LemonFlow
/-
The links of `FindLinks` and the follow sets of `FindFollowSets`.
-/
set_option autoImplicit false
namespace Verif.Lemon
open Verif.Spec Relation

variable {g : Gram} {m : Mach}

/-- all configurations with their states -/
def Mach.all (m : Mach) : List (Nat × Config) :=
  (List.range m.sts.length).flatMap fun s => (m.sts.getD s ⟨[], []⟩).cfgs.map fun c => (s, c)

def cellOf (x : Nat × Config) : Ref := (x.1, x.2.item)

theorem cells_eq : m.cells = m.all.map cellOf := by
  unfold Mach.cells Mach.all
  rw [List.map_flatMap]
  congr 1
  funext s
  rw [List.map_map]; rfl

theorem localLinks_eq : m.localLinks = m.all.map fun x => x.2.fplp.map fun it => (x.1, it) := by
  unfold Mach.localLinks Mach.all
  rw [List.map_flatMap]
  congr 1
  funext s
  rw [List.map_map]; rfl

theorem flatMap_range_getD {α β : Type} (d : α) (f : α → List β) : ∀ l : List α,
    l.flatMap f = (List.range l.length).flatMap fun s => f (l.getD s d) := by
  intro l
  induction l with
  | nil => rfl
  | cons a l ih =>
    rw [List.length_cons, List.range_succ_eq_map, List.flatMap_cons, List.flatMap_cons, ih, List.flatMap_map]
    rfl

theorem initSets_eq : m.initSets = m.all.map fun x => x.2.fws := by
  unfold Mach.initSets Mach.all
  rw [flatMap_range_getD ⟨[], []⟩, List.map_flatMap]
  congr 1
  funext s
  rw [List.map_map]; rfl

theorem links_eq : m.links = m.all.map fun x =>
    ((m.newLinks (cellOf x)) ++ x.2.fplp.map fun it => (x.1, it)).map fun y => m.cells.idxOf y := by
  unfold Mach.links
  conv_lhs => rw [localLinks_eq]
  rw [show m.cells.zip (m.all.map fun x => x.2.fplp.map fun it => (x.1, it)) =
    m.all.map fun x => (cellOf x, x.2.fplp.map fun it => (x.1, it)) from ?_]
  · rw [List.map_map]; rfl
  · conv_lhs => rw [cells_eq]
    rw [List.zip_map']

theorem mem_all {s : Nat} {c : Config} : (s, c) ∈ m.all ↔ ∃ st, m.sts[s]? = some st ∧ c ∈ st.cfgs := by
  unfold Mach.all
  simp only [List.mem_flatMap, List.mem_range, List.mem_map, Prod.mk.injEq]
  constructor
  · rintro ⟨s', h1, c', h2, rfl, rfl⟩
    refine ⟨m.sts[s'], List.getElem?_eq_getElem h1, ?_⟩
    rw [List.getD_eq_getElem?_getD, List.getElem?_eq_getElem h1] at h2
    exact h2
  · rintro ⟨st, h1, h2⟩
    refine ⟨s, (List.getElem?_eq_some_iff.mp h1).1, c, ?_, rfl, rfl⟩
    rw [List.getD_eq_getElem?_getD, h1]; exact h2

theorem mem_cells {a : Ref} : a ∈ m.cells ↔ ∃ st, m.sts[a.1]? = some st ∧ a.2 ∈ st.items := by
  rw [cells_eq]
  simp only [List.mem_map, cellOf]
  constructor
  · rintro ⟨⟨s, c⟩, h1, rfl⟩
    obtain ⟨st, h2, h3⟩ := mem_all.mp h1
    exact ⟨st, h2, List.mem_map.mpr ⟨c, h3, rfl⟩⟩
  · rintro ⟨st, h1, h2⟩
    obtain ⟨c, h3, h4⟩ := List.mem_map.mp h2
    exact ⟨(a.1, c), mem_all.mpr ⟨st, h1, h3⟩, by rw [h4]⟩

theorem cells_nodup (h : MachOK g m) : m.cells.Nodup := by
  unfold Mach.cells
  rw [List.nodup_flatMap]
  constructor
  · intro s hs
    have hs' := List.mem_range.mp hs
    have hget : m.sts[s]? = some m.sts[s] := List.getElem?_eq_getElem hs'
    rw [List.getD_eq_getElem?_getD, hget, Option.getD_some]
    have hn := (h.st s _ hget).sorted.nodup
    unfold St.items at hn
    have : (m.sts[s].cfgs.map fun c => (s, c.item)) = (m.sts[s].cfgs.map Config.item).map fun it => (s, it) := by
      rw [List.map_map]; rfl
    rw [this]
    refine hn.map ?_
    intro a b hab
    simpa using hab
  · refine List.nodup_range.imp ?_
    intro a b hab
    simp only [Function.onFun, List.disjoint_left, List.mem_map]
    rintro x ⟨c, _, rfl⟩ ⟨c', _, h2⟩
    simp only [Prod.mk.injEq] at h2
    exact hab h2.1.symm

/-- the links between configurations: to the rules of the symbol after the dot if the rest of the
rule can be empty, and to the configuration with the dot moved -/
def Fwd (g : Gram) (m : Mach) (a b : Ref) : Prop :=
  (a.1 = b.1 ∧ ∃ r, Edge g a.2 r ∧ b.2 = (r, 0) ∧ ∀ X ∈ g.rest a.2, Null g.cfg X) ∨
  ∃ X, (a.1, X, b.1) ∈ m.shifts ∧ g.next a.2 = some X ∧ b.2 = adv a.2

theorem mem_newLinks (hsmall : g.nitems < 2 ^ 30) (h : MachOK g m) {a : Ref} (ha : a ∈ m.cells) {b : Ref} :
    b ∈ m.newLinks a ↔ ∃ X, (a.1, X, b.1) ∈ m.shifts ∧ g.next a.2 = some X ∧ b.2 = adv a.2 := by
  unfold Mach.newLinks
  simp only [List.mem_reverse, List.mem_flatMap, List.mem_map, List.mem_filter, Bool.and_eq_true, beq_iff_eq]
  constructor
  · rintro ⟨c, hc, l, ⟨h1, h2, h3⟩, rfl⟩
    obtain ⟨⟨s, X, t⟩, he, st, hst, it, hit, hnx, rfl⟩ := (h.back l).mp h1
    simp only at h3
    subst h3
    exact ⟨X, he, hnx, rfl⟩
  · rintro ⟨X, he, hnx, hb⟩
    obtain ⟨st, hst, hit⟩ := mem_cells.mp ha
    have hback : (b, a) ∈ m.back := by
      rw [h.back]
      refine ⟨_, he, st, hst, a.2, hit, hnx, ?_⟩
      simp only [Prod.mk.injEq, and_true]
      obtain ⟨b1, b2⟩ := b
      simp only at hb ⊢
      rw [hb]
    have hbc : b ∈ m.cells := by
      have := (h.isAuto hsmall).adv (r := a.2.1) (d := a.2.2) he ⟨st, hst, hit⟩ (dotBefore_iff.mpr hnx)
      obtain ⟨st', k1, k2⟩ := this
      refine mem_cells.mpr ⟨st', k1, ?_⟩
      rw [hb]; exact k2
    exact ⟨b, hbc, (b, a), ⟨hback, rfl, rfl⟩, rfl⟩

theorem fwd_cells (hsmall : g.nitems < 2 ^ 30) (h : MachOK g m) {a b : Ref} (ha : a ∈ m.cells) (hab : Fwd g m a b) :
    b ∈ m.cells := by
  obtain ⟨st, hst, hit⟩ := mem_cells.mp ha
  rcases hab with ⟨h1, r, h2, h3, _⟩ | ⟨X, he, hnx, hb⟩
  · refine mem_cells.mpr ⟨st, by rw [← h1]; exact hst, ?_⟩
    rw [h3]
    have hm := (h.st _ _ hst).mem
    rw [hm]
    have hc := (hm a.2.1 a.2.2).mp hit
    exact .step hc (dotBefore_iff.mpr h2.2) (ext_rule.mpr ⟨h2.1, rfl, rfl⟩)
  · obtain ⟨st', k1, k2⟩ := (h.isAuto hsmall).adv (r := a.2.1) (d := a.2.2) he ⟨st, hst, hit⟩ (dotBefore_iff.mpr hnx)
    refine mem_cells.mpr ⟨st', k1, ?_⟩
    rw [hb]; exact k2

theorem idxOf_cell {l : List Ref} (hn : l.Nodup) {i : Nat} {a : Ref} (h : l[i]? = some a) : l.idxOf a = i := by
  obtain ⟨hi, rfl⟩ := List.getElem?_eq_some_iff.mp h
  exact List.Nodup.idxOf_getElem hn i hi

theorem cell_get {a : Ref} (ha : a ∈ m.cells) : m.cells[m.cells.idxOf a]? = some a := by
  rw [List.getElem?_eq_getElem (List.idxOf_lt_length_iff.mpr ha)]
  rw [List.getElem_idxOf]

theorem linked_iff (hsmall : g.nitems < 2 ^ 30) (h : MachOK g m) {i j : Nat} :
    Linked m.links i j ↔ ∃ a b, a ∈ m.cells ∧ b ∈ m.cells ∧ i = m.cells.idxOf a ∧ j = m.cells.idxOf b ∧ Fwd g m a b := by
  have hfw : ∀ x ∈ m.all, ∀ b, b ∈ ((m.newLinks (cellOf x)) ++ x.2.fplp.map fun it => (x.1, it)) ↔ Fwd g m (cellOf x) b := by
    rintro ⟨s, c⟩ hx b
    obtain ⟨st, hst, hc⟩ := mem_all.mp hx
    have hcell : cellOf (s, c) ∈ m.cells := mem_cells.mpr ⟨st, hst, List.mem_map.mpr ⟨c, hc, rfl⟩⟩
    rw [List.mem_append, mem_newLinks hsmall h hcell]
    unfold Fwd
    rw [or_comm]
    refine or_congr ?_ Iff.rfl
    simp only [List.mem_map, cellOf]
    constructor
    · rintro ⟨it, h1, rfl⟩
      obtain ⟨r, h2, h3, h4⟩ := ((h.st s st hst).fplp c hc it).mp h1
      exact ⟨rfl, r, h2, h3, h4⟩
    · rintro ⟨h1, r, h2, h3, h4⟩
      refine ⟨(r, 0), ((h.st s st hst).fplp c hc _).mpr ⟨r, h2, rfl, h4⟩, ?_⟩
      obtain ⟨b1, b2⟩ := b
      simp only at h1 h3 ⊢
      rw [h1, h3]
  have hlen : m.cells.length = m.all.length := by rw [cells_eq]; simp
  unfold Linked
  rw [List.getD_eq_getElem?_getD, links_eq, List.getElem?_map]
  constructor
  · intro hj
    rcases hx : m.all[i]? with _ | x
    · rw [hx] at hj; simp at hj
    · rw [hx] at hj
      simp only [Option.map_some, Option.getD_some] at hj
      obtain ⟨b, hb, rfl⟩ := List.mem_map.mp hj
      have hxm := List.mem_of_getElem? hx
      have hf := (hfw x hxm b).mp hb
      have hci : m.cells[i]? = some (cellOf x) := by rw [cells_eq, List.getElem?_map, hx]; rfl
      have hcm := List.mem_of_getElem? hci
      exact ⟨cellOf x, b, hcm, fwd_cells hsmall h hcm hf, (idxOf_cell (cells_nodup h) hci).symm, rfl, hf⟩
  · rintro ⟨a, b, ha, hb, rfl, rfl, hf⟩
    have hi := cell_get ha
    have : ∃ x, m.all[m.cells.idxOf a]? = some x ∧ cellOf x = a := by
      have h1 := hi
      conv at h1 => lhs; lhs; rw [cells_eq]
      rw [List.getElem?_map] at h1
      exact Option.map_eq_some_iff.mp h1
    obtain ⟨x, hx, rfl⟩ := this
    rw [hx]
    simp only [Option.map_some, Option.getD_some]
    exact List.mem_map.mpr ⟨b, (hfw x (List.mem_of_getElem? hx) b).mpr hf, rfl⟩

theorem fws_init {a : Ref} (h : MachOK g m) (ha : a ∈ m.cells) (t : Nat) :
    setFind (m.initSets.getD (m.cells.idxOf a) []) t = true ↔
      ∃ c, (a.1, c) ∈ m.all ∧ c.item = a.2 ∧ setFind c.fws t = true := by
  have hi := cell_get ha
  have hi' := hi
  conv at hi' => lhs; lhs; rw [cells_eq]
  rw [List.getElem?_map] at hi'
  obtain ⟨⟨s, c⟩, hx, hxa⟩ := Option.map_eq_some_iff.mp hi'
  subst hxa
  rw [initSets_eq, List.getD_eq_getElem?_getD, List.getElem?_map, hx]
  simp only [Option.map_some, Option.getD_some]
  constructor
  · intro hf
    exact ⟨c, List.mem_of_getElem? hx, rfl, hf⟩
  · rintro ⟨c', h1, h2, h3⟩
    obtain ⟨st, k1, k2⟩ := mem_all.mp h1
    obtain ⟨st', k3, k4⟩ := mem_all.mp (List.mem_of_getElem? hx)
    simp only [cellOf] at k1 h2
    rw [k1] at k3
    simp only [Option.some.injEq] at k3
    subst k3
    have hn := (h.st _ _ k1).sorted.nodup
    unfold St.items at hn
    have := List.inj_on_of_nodup_map hn k2 k4 h2
    subst this
    exact h3

/-- the follow sets: initial sets carried along the links -/
theorem followSets_spec (hsmall : g.nitems < 2 ^ 30) (h : MachOK g m) :
    ∃ F, followSets m = some F ∧ ∀ a ∈ m.cells, ∀ t, setFind (m.fws F a.1 a.2) t = true ↔
      ∃ s0 c0, (s0, c0) ∈ m.all ∧ ReflTransGen (Fwd g m) (s0, c0.item) a ∧ setFind c0.fws t = true := by
  have hlen : m.cells.length = m.all.length := by rw [cells_eq]; simp
  have hfam : Fam m.cells.length g.setSize m.initSets := by
    refine ⟨by rw [initSets_eq]; simp [hlen], ?_⟩
    intro s hs
    rw [initSets_eq] at hs
    obtain ⟨⟨q, c⟩, hx, rfl⟩ := List.mem_map.mp hs
    obtain ⟨st, h1, h2⟩ := mem_all.mp hx
    exact (h.st q st h1).len c h2
  obtain ⟨F, h1, _, h3⟩ := propagate_spec (links := m.links) hfam (by
    intro i j hij
    obtain ⟨a, b, ha, hb, rfl, rfl, _⟩ := (linked_iff hsmall h).mp hij
    exact ⟨List.idxOf_lt_length_iff.mpr ha, List.idxOf_lt_length_iff.mpr hb⟩)
  refine ⟨F, h1, ?_⟩
  rintro a ha t
  have hreach : ∀ i j, ReflTransGen (Linked m.links) i j → ∀ b ∈ m.cells, j = m.cells.idxOf b →
      ∃ a ∈ m.cells, i = m.cells.idxOf a ∧ ReflTransGen (Fwd g m) a b := by
    intro i j hij
    induction hij with
    | refl => intro b hb e; exact ⟨b, hb, e, .refl⟩
    | tail _ hl ih =>
      intro b hb e
      obtain ⟨a', b', ha', hb', e1, e2, hf⟩ := (linked_iff hsmall h).mp hl
      obtain ⟨a0, h0, h00, hr⟩ := ih a' ha' e1
      have : b = b' := by
        have k1 := cell_get hb
        have k2 := cell_get hb'
        rw [← e2, e, k1] at k2
        simpa using k2
      subst this
      exact ⟨a0, h0, h00, hr.tail hf⟩
  have hreach' : ∀ a b, a ∈ m.cells → ReflTransGen (Fwd g m) a b →
      b ∈ m.cells ∧ ReflTransGen (Linked m.links) (m.cells.idxOf a) (m.cells.idxOf b) := by
    intro a b ha hab
    induction hab with
    | refl => exact ⟨ha, .refl⟩
    | tail _ hf ih =>
      obtain ⟨i1, i2⟩ := ih
      have hb := fwd_cells hsmall h i1 hf
      exact ⟨hb, i2.tail ((linked_iff hsmall h).mpr ⟨_, _, i1, hb, rfl, rfl, hf⟩)⟩
  unfold Mach.fws
  rw [show (a.1, a.2) = a from rfl, h3]
  constructor
  · rintro ⟨i, hr, ht⟩
    obtain ⟨a0, h0, rfl, hr'⟩ := hreach i _ hr a ha rfl
    obtain ⟨c, k1, k2, k3⟩ := (fws_init h h0 t).mp ht
    refine ⟨a0.1, c, k1, ?_, k3⟩
    rw [k2]; exact hr'
  · rintro ⟨s0, c0, k1, hr, k3⟩
    obtain ⟨st, k4, k5⟩ := mem_all.mp k1
    have h0 : (s0, c0.item) ∈ m.cells := mem_cells.mpr ⟨st, k4, List.mem_map.mpr ⟨c0, k5, rfl⟩⟩
    exact ⟨_, (hreach' _ _ h0 hr).2, (fws_init h h0 t).mpr ⟨c0, k1, rfl, k3⟩⟩

/-- the follow set of a configuration: what can come after it for some prefix leading to its state -/
theorem follow_iff (wf : g.WF) (hsmall : g.nitems < 2 ^ 30) (h : MachOK g m) :
    ∃ F, followSets m = some F ∧ ∀ s r d, m.Item s r d → ∀ t, (setFind (m.fws F s (r, d)) t = true ↔
      ∃ γ, Path m.Trans 0 γ s ∧ ∃ z, Ctx g.ext (lemonInit g) γ r d z ∧ Fst g.cfg z t) := by
  obtain ⟨F, h1, h2⟩ := followSets_spec hsmall h
  have auto := h.isAuto hsmall
  refine ⟨F, h1, ?_⟩
  intro s r d hitem t
  have hcell : (s, (r, d)) ∈ m.cells := by
    obtain ⟨st, k1, k2⟩ := hitem
    exact mem_cells.mpr ⟨st, k1, k2⟩
  rw [h2 (s, (r, d)) hcell t]
  constructor
  · rintro ⟨s0, c0, hc0, hr, ht⟩
    have key : ∀ b, ReflTransGen (Fwd g m) (s0, c0.item) b →
        ∃ γ, Path m.Trans 0 γ b.1 ∧ ∃ z, Ctx g.ext (lemonInit g) γ b.2.1 b.2.2 z ∧ Fst g.cfg z t := by
      intro b hb
      induction hb with
      | refl =>
        obtain ⟨st, k1, k2⟩ := mem_all.mp hc0
        have hst := h.st s0 st k1
        rcases (hst.fws c0 k2 t).mp ht with ⟨e1, e2, e3⟩ | ⟨p, r', p1, p2, p3, p4⟩
        · subst e1; subst e3
          obtain ⟨q1, q2⟩ := (hst.dots.1 rfl _).mp e2
          have q3 := mem_rulesOf.mp q2
          refine ⟨[], .nil 0, [0], ?_, .tok wf.nterm⟩
          simp only
          rw [q1]
          exact Ctx.init (I := lemonInit g) q3
        · have hs0 : s0 < m.sts.length := (List.getElem?_eq_some_iff.mp k1).1
          obtain ⟨γ, hγ⟩ := auto.path_to s0 hs0
          obtain ⟨z, hz⟩ := (auto.item_valid hγ p.1 p.2).mp ⟨st, k1, p1⟩
          refine ⟨γ, hγ, g.rest p ++ z, ?_, p4.append_left z⟩
          simp only
          rw [p3]
          have hlt : p.1 < g.rules.length := rule_lt (g := g) (d := p.2) p2.2
          exact Ctx.clos hz (ext_rule.mpr ⟨hlt, rfl, rfl⟩) p2.2 (ext_rule.mpr ⟨p2.1, rfl, rfl⟩)
      | @tail b c _ hf ih =>
        obtain ⟨γ, hγ, z, hz, hzt⟩ := ih
        rcases hf with ⟨e1, r', e2, e3, e4⟩ | ⟨X, e1, e2, e3⟩
        · refine ⟨γ, by rw [← e1]; exact hγ, g.rest b.2 ++ z, ?_, Fst_append.mpr (Or.inr ⟨e4, hzt⟩)⟩
          rw [e3]
          have hlt : b.2.1 < g.rules.length := rule_lt (g := g) (d := b.2.2) e2.2
          exact Ctx.clos hz (ext_rule.mpr ⟨hlt, rfl, rfl⟩) e2.2 (ext_rule.mpr ⟨e2.1, rfl, rfl⟩)
        · refine ⟨γ ++ [X], .snoc hγ e1, z, ?_, hzt⟩
          rw [e3]
          have hlt : b.2.1 < g.rules.length := rule_lt (g := g) (d := b.2.2) e2
          exact Ctx.shift hz (ext_rule.mpr ⟨hlt, rfl, rfl⟩) e2
    exact key (s, (r, d)) hr
  · rintro ⟨γ, hγ, z, hz, hzt⟩
    have hs := auto.path_lt auto.pos hγ
    clear hcell
    induction hz generalizing s with
    | @init r hr =>
      have := hγ.nil_inv
      subst this
      obtain ⟨st, k1, k2⟩ := hitem
      obtain ⟨c, k3, k4⟩ := List.mem_map.mp k2
      have ht0 : t = 0 := by
        simp only [lemonInit] at hzt
        cases hzt with
        | tok _ => rfl
        | skip _ h => cases h
        | rule hr' _ =>
          rw [mem_cfg (g := g)] at hr'
          rcases hr' with ⟨rr, h1, h2, _⟩ | ⟨i, _, _, _, hc, _⟩
          · have h3 := (wf.lhs rr h1).1
            have := wf.nterm
            unfold Gram.nlow at h3; omega
          · have := wf.nterm; omega
      subst ht0
      refine ⟨0, c, mem_all.mpr ⟨st, k1, k3⟩, by rw [k4], ?_⟩
      rw [(h.st 0 st k1).fws c k3]
      left
      refine ⟨rfl, ?_, rfl⟩
      rw [k4, (h.st 0 st k1).dots.1 rfl]
      exact ⟨rfl, mem_rulesOf.mpr hr⟩
    | @clos γ r d z A α B r' η hz hr hB hr' ih =>
      obtain ⟨a1, a2, a3⟩ := ext_rule.mp hr
      obtain ⟨b1, b2, b3⟩ := ext_rule.mp hr'
      have hedge : Edge g (r, d) r' := ⟨b1, by unfold Gram.next; rw [b2, a3]; exact hB⟩
      have hp : m.Item s r d := (auto.item_valid hγ r d).mpr ⟨z, hz⟩
      have hrest : α.drop (d + 1) = g.rest (r, d) := by unfold Gram.rest; rw [a3]
      rw [hrest] at hzt
      rcases Fst_append.mp hzt with hzt | ⟨hn, hzt⟩
      · obtain ⟨st, k1, k2⟩ := hitem
        obtain ⟨c, k3, k4⟩ := List.mem_map.mp k2
        refine ⟨s, c, mem_all.mpr ⟨st, k1, k3⟩, by rw [k4], ?_⟩
        rw [(h.st s st k1).fws c k3]
        right
        obtain ⟨st', k5, k6⟩ := hp
        rw [k1] at k5
        simp only [Option.some.injEq] at k5
        subst k5
        exact ⟨(r, d), r', k6, hedge, k4, hzt⟩
      · obtain ⟨s0, c0, q1, q2, q3⟩ := ih s hp hγ hzt hs
        exact ⟨s0, c0, q1, q2.tail (Or.inl ⟨rfl, r', hedge, rfl, hn⟩), q3⟩
    | @shift γ r d z A α X hz hr hX ih =>
      obtain ⟨a1, a2, a3⟩ := ext_rule.mp hr
      obtain ⟨s', hs', htr⟩ := hγ.snoc_inv
      have hp : m.Item s' r d := (auto.item_valid hs' r d).mpr ⟨z, hz⟩
      obtain ⟨s0, c0, q1, q2, q3⟩ := ih s' hp hs' hzt (auto.path_lt auto.pos hs')
      refine ⟨s0, c0, q1, q2.tail (Or.inr ⟨X, htr, ?_, rfl⟩), q3⟩
      unfold Gram.next; rw [a3]; exact hX

end Verif.Lemon
