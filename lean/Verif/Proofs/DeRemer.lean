import Verif.Proofs.Auto
import Verif.Proofs.Nullable
set_option autoImplicit false
/-
The DeRemer–Pennello characterisation of LALR(1) lookaheads, over an abstract LR(0)
automaton for an augmented grammar (rule 0 = `$accept: goal $end`, `$end` = 0 not shifted).
-/
namespace Verif
open Spec Relation Byacc

/-- byacc's initial item: rule 0, nothing after it. -/
def byaccInit : Init := ⟨fun r => r = 0, []⟩

variable {G : CFG} {n nsyms : Nat} {Item : Nat → Nat → Nat → Prop} {Trans : Nat → Nat → Nat → Prop}

/-- node of the goto graph: a transition on a nonterminal -/
def IsGoto (G : CFG) (Trans : Nat → Nat → Nat → Prop) (x : Nat × Nat) : Prop :=
  G.ntok ≤ x.2 ∧ ∃ q, Trans x.1 x.2 q

/-- directly read tokens -/
def DR (G : CFG) (Trans : Nat → Nat → Nat → Prop) (x : Nat × Nat) (t : Nat) : Prop :=
  (∃ q u, Trans x.1 x.2 q ∧ Trans q t u ∧ t < G.ntok) ∨ (x = (0, G.ntok + 1) ∧ t = 0)

/-- `reads` -/
def ReadsR (G : CFG) (Trans : Nat → Nat → Nat → Prop) (x y : Nat × Nat) : Prop :=
  Trans x.1 x.2 y.1 ∧ (∃ u, Trans y.1 y.2 u) ∧ Null G y.2

/-- `includes`: `(p,A) includes (p',B)` -/
def IncludesR (G : CFG) (Trans : Nat → Nat → Nat → Prop) (x y : Nat × Nat) : Prop :=
  ∃ (r k : Nat) (α : List Nat), G.rules[r]? = some (y.2, α) ∧ α[k]? = some x.2 ∧ G.ntok ≤ x.2 ∧
    (∀ X ∈ α.drop (k+1), Null G X) ∧ Path Trans y.1 (α.take k) x.1

/-- `lookback` -/
def LookbackR (G : CFG) (Trans : Nat → Nat → Nat → Prop) (q r : Nat) (x : Nat × Nat) : Prop :=
  IsGoto G Trans x ∧ ∃ α, G.rules[r]? = some (x.2, α) ∧ Path Trans x.1 α q

def ReadSet (G : CFG) (Trans : Nat → Nat → Nat → Prop) (x : Nat × Nat) (t : Nat) : Prop :=
  ∃ y, ReflTransGen (ReadsR G Trans) x y ∧ DR G Trans y t

def FollowSet (G : CFG) (Trans : Nat → Nat → Nat → Prop) (x : Nat × Nat) (t : Nat) : Prop :=
  ∃ y, ReflTransGen (fun a b => IsGoto G Trans b ∧ IncludesR G Trans a b) x y ∧ ReadSet G Trans y t

def LASet (G : CFG) (Trans : Nat → Nat → Nat → Prop) (q r t : Nat) : Prop :=
  ∃ x, LookbackR G Trans q r x ∧ FollowSet G Trans x t

theorem getElem_drop {α : List Nat} {d X : Nat} (h : α[d]? = some X) : α.drop d = X :: α.drop (d+1) := by
  obtain ⟨hl, rfl⟩ := List.getElem?_eq_some_iff.mp h
  exact List.drop_eq_getElem_cons hl

section
variable (hA : IsAuto G byaccInit (fun X => X ≠ 0) n Item Trans) (hwf : WF G nsyms)
include hA hwf

/-- item `(0,1)` occurs only after `(0, goal)` -/
theorem accept_item {s X t : Nat} (ht : Trans s X t) (hi : Item t 0 1) : s = 0 ∧ X = G.ntok + 1 := by
  rw [hA.tgt _ _ _ ht] at hi
  have h0 : Item s 0 0 ∧ DotBefore G 0 0 X := by
    generalize e0 : 0 = r0 at hi
    generalize e1 : 1 = d1 at hi
    cases hi with
    | kern hk =>
      obtain ⟨d', e, hi', hX⟩ := hk
      have : d' = 0 := by omega
      subst this; subst e0; exact ⟨hi', hX⟩
    | step _ _ _ => omega
  obtain ⟨h1, h2⟩ := h0
  constructor
  · -- item (0,0) only in state 0
    have hs := (hA.lt _ _ _ ht).1
    obtain ⟨γ, hγ⟩ := hA.path_to s hs
    obtain ⟨z, hz⟩ := (hA.item_valid hγ 0 0).mp h1
    have : ∀ γ r d z, Ctx G byaccInit γ r d z → r = 0 → d = 0 → γ = [] := by
      intro γ r d z h
      induction h with
      | init _ => intros; rfl
      | @clos γ r d z A α B r' η _ hr hB hr' _ =>
        rintro rfl -
        exfalso
        rw [hwf.acc] at hr'
        simp only [Option.some.injEq, Prod.mk.injEq] at hr'
        obtain ⟨rfl, -⟩ := hr'
        have hm := List.mem_of_getElem? hB
        rcases Nat.eq_zero_or_pos r with rfl | h0
        · rw [hwf.acc] at hr
          simp only [Option.some.injEq, Prod.mk.injEq] at hr
          obtain ⟨-, rfl⟩ := hr
          have := hwf.ntok
          simp at hm; omega
        · exact ((hwf.user r A α h0 hr).2.2 _ hm).2.2 rfl
      | shift _ _ _ _ => intro _ h; omega
    have := this γ 0 0 z hz rfl rfl
    subst this
    exact hγ.nil_inv.symm
  · obtain ⟨A, α, hr, hX⟩ := h2
    rw [hwf.acc] at hr
    simp only [Option.some.injEq, Prod.mk.injEq] at hr
    obtain ⟨-, rfl⟩ := hr
    simpa using hX.symm

/-- symbol 0 occurs only in rule 0 -/
theorem zero_only {r d A : Nat} {α : List Nat} (hr : G.rules[r]? = some (A, α)) (h0 : α[d]? = some 0) :
    r = 0 ∧ d = 1 := by
  rcases Nat.eq_zero_or_pos r with rfl | h
  · rw [hwf.acc] at hr
    simp only [Option.some.injEq, Prod.mk.injEq] at hr
    obtain ⟨-, rfl⟩ := hr
    refine ⟨rfl, ?_⟩
    match d, h0 with
    | 0, h0 => simp at h0
    | 1, _ => rfl
    | d+2, h0 => simp at h0
  · have := ((hwf.user r A α h hr).2.2 0 (List.mem_of_getElem? h0)).1
    omega

/-- items entered by a transition: the first set comes from a kernel item -/
theorem kernel_first {s X q : Nat} (ht : Trans s X q) {r d A t : Nat} {α : List Nat} (hi : Item q r d)
    (hr : G.rules[r]? = some (A, α)) (hf : Fst G (α.drop d) t) :
    ∃ (r' d' A' : Nat) (α' : List Nat), Item s r' d' ∧ G.rules[r']? = some (A', α') ∧ α'[d']? = some X ∧
      Fst G (α'.drop (d'+1)) t := by
  rw [hA.tgt _ _ _ ht] at hi
  induction hi generalizing A α with
  | kern hk =>
    obtain ⟨d', rfl, hi', ⟨A1, α1, hr1, hX⟩⟩ := hk
    rw [hr] at hr1
    simp only [Option.some.injEq, Prod.mk.injEq] at hr1
    obtain ⟨rfl, rfl⟩ := hr1
    exact ⟨_, d', A, α, hi', hr, hX, hf⟩
  | @step r d r' B η _ hB hr' ih =>
    obtain ⟨A1, α1, hr1, hB⟩ := hB
    rw [hr] at hr'
    simp only [Option.some.injEq, Prod.mk.injEq] at hr'
    obtain ⟨rfl, rfl⟩ := hr'
    refine ih hr1 ?_
    rw [getElem_drop hB]
    exact .rule (List.mem_of_getElem? hr) (by simpa using hf)

/-- everything read from `(p,A)` can follow `A` in an item of `p` -/
theorem read_sound {x : Nat × Nat} {t : Nat} (hx : IsGoto G Trans x) (h : ReadSet G Trans x t) :
    ∃ (r d A : Nat) (α : List Nat), Item x.1 r d ∧ G.rules[r]? = some (A, α) ∧ α[d]? = some x.2 ∧
      Fst G (α.drop (d+1)) t := by
  obtain ⟨y, hxy, hy⟩ := h
  induction hxy using ReflTransGen.head_induction_on with
  | refl =>
    rcases hy with ⟨q, u, h1, h2, h3⟩ | ⟨rfl, rfl⟩
    · have hq := (hA.lt _ _ _ h1).2
      obtain ⟨-, r, d, hi, A, α, hr, hd⟩ := (hA.ex q t hq).mp ⟨u, h2⟩
      exact kernel_first hA hwf h1 hi hr (by rw [getElem_drop hd]; exact .tok h3)
    · refine ⟨0, 0, _, _, ?_, hwf.acc, by simp, ?_⟩
      · rw [hA.item0]; exact .kern ⟨rfl, rfl⟩
      · exact .tok (by have := hwf.ntok; omega)
  | @head a c h' _ ih =>
    obtain ⟨h1, ⟨u, h2⟩, h3⟩ := h'
    obtain ⟨r, d, A, α, hi, hr, hd, hf⟩ := ih ⟨by have := Byacc.Null.var hwf h3; exact this.1, u, h2⟩
    exact kernel_first hA hwf h1 hi hr (by rw [getElem_drop hd]; exact .skip h3 hf)

/-- whatever can follow the dot in an item of `q` is read after entering `q` -/
theorem read_complete_aux {β : List Nat} {t : Nat} (hf : Fst G β t) : ∀ (x : Nat × Nat) (q r d A : Nat)
    (α : List Nat), IsGoto G Trans x → Trans x.1 x.2 q → Item q r d → G.rules[r]? = some (A, α) →
    α.drop d = β → ReadSet G Trans x t := by
  induction hf with
  | @tok t β h =>
    intro x q r d A α hx hq hi hr hβ
    have hd : α[d]? = some t := by
      have := List.getElem?_drop (xs := α) (i := d) (j := 0)
      rw [hβ] at this
      simpa using this.symm
    by_cases ht : t = 0
    · subst ht
      obtain ⟨rfl, rfl⟩ := zero_only hA hwf hr hd
      obtain ⟨e1, e2⟩ := accept_item hA hwf hq hi
      exact ⟨x, .refl, Or.inr ⟨Prod.ext e1 e2, rfl⟩⟩
    · obtain ⟨u, hu⟩ := (hA.ex q t (hA.lt _ _ _ hq).2).mpr ⟨ht, r, d, hi, A, α, hr, hd⟩
      exact ⟨x, .refl, Or.inl ⟨q, u, hq, hu, h⟩⟩
  | @skip X t β hX _ ih =>
    intro x q r d A α hx hq hi hr hβ
    have hd : α[d]? = some X := by
      have := List.getElem?_drop (xs := α) (i := d) (j := 0)
      rw [hβ] at this
      simpa using this.symm
    have hXv := Byacc.Null.var hwf hX
    have hX0 : X ≠ 0 := by have := hwf.ntok; omega
    obtain ⟨u, hu⟩ := (hA.ex q X (hA.lt _ _ _ hq).2).mpr ⟨hX0, r, d, hi, A, α, hr, hd⟩
    obtain ⟨y, h1, h2⟩ := ih (q, X) u r (d+1) A α ⟨hXv.1, u, hu⟩ hu (hA.adv hu hi ⟨A, α, hr, hd⟩) hr
      (by have := getElem_drop hd; rw [hβ] at this; simpa using this.symm)
    exact ⟨y, .head ⟨hq, ⟨u, hu⟩, hX⟩ h1, h2⟩
  | @rule B t η β hB _ ih =>
    intro x q r d A α hx hq hi hr hβ
    have hd : α[d]? = some B := by
      have := List.getElem?_drop (xs := α) (i := d) (j := 0)
      rw [hβ] at this
      simpa using this.symm
    obtain ⟨r', hr'⟩ := List.mem_iff_getElem?.mp hB
    exact ih x q r' 0 B η hx hq (hA.step (hA.lt _ _ _ hq).2 hi ⟨A, α, hr, hd⟩ hr') hr' (by simp)

theorem read_complete {x : Nat × Nat} {t r d A : Nat} {α : List Nat} (hx : IsGoto G Trans x)
    (hi : Item x.1 r d) (hr : G.rules[r]? = some (A, α)) (hd : α[d]? = some x.2)
    (hf : Fst G (α.drop (d+1)) t) : ReadSet G Trans x t := by
  obtain ⟨hv, q, hq⟩ := hx
  exact read_complete_aux hA hwf hf x q r (d+1) A α ⟨hv, q, hq⟩ hq (hA.adv hq hi ⟨A, α, hr, hd⟩) hr rfl

/-- every token that can follow the context of an item is in the follow set of its origin -/
theorem follow_complete {γ z : List Nat} {r d : Nat} (h : Ctx G byaccInit γ r d z) :
    ∀ {s t A : Nat} {α : List Nat}, Path Trans 0 γ s → G.rules[r]? = some (A, α) → Fst G z t →
    ∃ (γ0 : List Nat) (p0 : Nat), Path Trans 0 γ0 p0 ∧ Path Trans p0 (α.take d) s ∧
      IsGoto G Trans (p0, A) ∧ FollowSet G Trans (p0, A) t := by
  induction h with
  | init => intro s t A α _ _ hf; exact absurd hf (by intro h; cases h)
  | @clos γ r d z A1 α1 B r' η hc hr1 hB hr' ih =>
    intro s t A α hs hr hf
    rw [hr] at hr'
    simp only [Option.some.injEq, Prod.mk.injEq] at hr'
    obtain ⟨rfl, rfl⟩ := hr'
    have hAv := (hwf.lhs hr).1
    have hA0 : A ≠ 0 := by have := hwf.ntok; omega
    have hsn := hA.path_lt hA.pos hs
    have hi : Item s r d := (hA.item_valid hs r d).mpr ⟨z, hc⟩
    obtain ⟨u, hu⟩ := (hA.ex s A hsn).mpr ⟨hA0, r, d, hi, A1, α1, hr1, hB⟩
    have hgo : IsGoto G Trans (s, A) := ⟨hAv, u, hu⟩
    refine ⟨γ, s, hs, by simpa using .nil s, hgo, ?_⟩
    rcases Fst_append.mp hf with hf | ⟨hn, hf⟩
    · exact ⟨(s, A), .refl, read_complete hA hwf hgo hi hr1 hB hf⟩
    · obtain ⟨γ0, p0, h1, h2, h3, y, h4, h5⟩ := ih hs hr1 hf
      exact ⟨y, .head ⟨h3, r, d, α1, hr1, hB, hAv, hn, h2⟩ h4, h5⟩
  | @shift γ r d z A1 α1 X hc hr1 hX ih =>
    intro s t A α hs hr hf
    rw [hr] at hr1
    simp only [Option.some.injEq, Prod.mk.injEq] at hr1
    obtain ⟨rfl, rfl⟩ := hr1
    obtain ⟨s', hs', htr⟩ := hs.snoc_inv
    obtain ⟨γ0, p0, h1, h2, h3, h4⟩ := ih hs' hr hf
    refine ⟨γ0, p0, h1, ?_, h3, h4⟩
    obtain ⟨hl, rfl⟩ := List.getElem?_eq_some_iff.mp hX
    rw [List.take_succ_eq_append_getElem hl]
    exact .snoc h2 htr

/-- every token of the follow set really follows in some context -/
theorem follow_sound {x : Nat × Nat} {t : Nat} (hx : IsGoto G Trans x) (h : FollowSet G Trans x t) :
    ∃ (γ z : List Nat), Path Trans 0 γ x.1 ∧ Fst G z t ∧
      ∀ (r : Nat) (α : List Nat), G.rules[r]? = some (x.2, α) → Ctx G byaccInit γ r 0 z := by
  obtain ⟨y, hxy, hy⟩ := h
  induction hxy using ReflTransGen.head_induction_on with
  | refl =>
    obtain ⟨r, d, A, α, hi, hr, hd, hf⟩ := read_sound hA hwf hx hy
    have hlt : y.1 < n := by obtain ⟨-, q, hq⟩ := hx; exact (hA.lt _ _ _ hq).1
    obtain ⟨γ, hγ⟩ := hA.path_to _ hlt
    obtain ⟨z, hz⟩ := (hA.item_valid hγ r d).mp hi
    exact ⟨γ, α.drop (d+1) ++ z, hγ, hf.append_left z, fun r' α' hr' => .clos hz hr hd hr'⟩
  | @head a c h' _ ih =>
    obtain ⟨hc, r, k, α, hr, hk, hv, hn, hp⟩ := h'
    obtain ⟨γ, z, h1, h2, h3⟩ := ih hc
    have hl := (List.getElem?_eq_some_iff.mp hk).1
    have hctx := Ctx.shifts hr (h3 r α hr) k (Nat.le_of_lt hl)
    exact ⟨γ ++ α.take k, α.drop (k+1) ++ z, h1.append hp, Fst.append_null hn h2,
      fun r' α' hr' => .clos hctx hr hk hr'⟩

/-- the lookahead set computed by the DeRemer–Pennello relations is the LALR(1) set -/
theorem laSet_iff {q r t A : Nat} {α : List Nat} (hr : G.rules[r]? = some (A, α)) :
    LASet G Trans q r t ↔ ∃ γ, Path Trans 0 γ q ∧ ∃ z, Ctx G byaccInit γ r α.length z ∧ Fst G z t := by
  constructor
  · rintro ⟨x, ⟨hx, α', hr', hp⟩, hf⟩
    rw [hr] at hr'
    simp only [Option.some.injEq, Prod.mk.injEq] at hr'
    obtain ⟨rfl, rfl⟩ := hr'
    obtain ⟨γ, z, h1, h2, h3⟩ := follow_sound hA hwf hx hf
    have := Ctx.shifts hr (h3 r α hr) α.length le_rfl
    rw [List.take_length] at this
    exact ⟨γ ++ α, h1.append hp, z, this, h2⟩
  · rintro ⟨γ, hp, z, hz, hf⟩
    obtain ⟨γ0, p0, h1, h2, h3, h4⟩ := follow_complete hA hwf hz hp hr hf
    rw [List.take_length] at h2
    exact ⟨(p0, A), ⟨h3, α, hr, h2⟩, h4⟩

/-- ... and the same in terms of `LalrLA` -/
theorem laSet_lalr {q r t A : Nat} {α γ : List Nat} (hr : G.rules[r]? = some (A, α))
    (hp : Path Trans 0 γ q) (hi : Item q r α.length) :
    LASet G Trans q r t ↔ LalrLA G byaccInit γ r α.length t := by
  rw [laSet_iff hA hwf hr]
  constructor
  · rintro ⟨γ', hp', z, hz, hf⟩
    exact ⟨γ', (hA.sameState hp hp').mpr rfl, z, hz, first_iff.mpr hf⟩
  · rintro ⟨γ', hs, z, hz, hf⟩
    -- the prefix γ' does not contain `$end`
    have hno : ∀ γ' r d z, Ctx G byaccInit γ' r d z → 0 ∈ γ' → r = 0 ∧ d = 2 := by
      intro γ' r d z h
      induction h with
      | init => simp
      | @clos γ r d z A α B r' η hc hr hB hr' ih =>
        intro h0
        exfalso
        obtain ⟨rfl, rfl⟩ := ih h0
        rw [hwf.acc] at hr
        simp only [Option.some.injEq, Prod.mk.injEq] at hr
        obtain ⟨-, rfl⟩ := hr
        simp at hB
      | @shift γ r d z A α X hc hr hX ih =>
        intro h0
        rcases List.mem_append.mp h0 with h0 | h0
        · exfalso
          obtain ⟨rfl, rfl⟩ := ih h0
          rw [hwf.acc] at hr
          simp only [Option.some.injEq, Prod.mk.injEq] at hr
          obtain ⟨-, rfl⟩ := hr
          simp at hX
        · simp only [List.mem_singleton] at h0
          subst h0
          obtain ⟨rfl, rfl⟩ := zero_only hA hwf hr hX
          exact ⟨rfl, rfl⟩
    by_cases h0 : 0 ∈ γ'
    · exfalso
      obtain ⟨rfl, e⟩ := hno _ _ _ _ hz h0
      rw [e] at hi
      -- item (0,2) is in no state
      obtain ⟨z', hz'⟩ := (hA.item_valid hp 0 2).mp hi
      have hlast : ∀ γ r d z, Ctx G byaccInit γ r d z → r = 0 → d = 2 → 0 ∈ γ := by
        intro γ r d z h
        cases h with
        | init => intro _ h; omega
        | clos _ _ _ _ => intro _ h; omega
        | @shift γ r d z A α X hc hr hX =>
          rintro rfl h
          rw [hwf.acc] at hr
          simp only [Option.some.injEq, Prod.mk.injEq] at hr
          obtain ⟨-, rfl⟩ := hr
          have e : d = 1 := by omega
          subst e
          simp at hX
          simp [← hX]
      have h0γ := hlast _ _ _ _ hz' rfl rfl
      -- but a path never shifts 0
      have : ∀ s γ q, Path Trans s γ q → 0 ∉ γ := by
        intro s γ q h
        induction h with
        | nil => simp
        | snoc _ ht ih =>
          intro hm
          rcases List.mem_append.mp hm with hm | hm
          · exact ih hm
          · simp only [List.mem_singleton] at hm
            subst hm
            exact ((hA.ex _ _ (hA.lt _ _ _ ht).1).mp ⟨_, ht⟩).1 rfl
      exact this _ _ _ hp h0γ
    · obtain ⟨s, hs', -⟩ := hA.path_of_valid hz (fun X hX e => h0 (e ▸ hX))
      have := (hA.sameState hp hs').mp hs
      subst this
      exact ⟨γ', hs', z, hz, first_iff.mp hf⟩

end

end Verif
