import Verif.Proofs.Complete
/-
What a parser has shifted before the first syntax error, and where that error is reported.
-/
set_option autoImplicit false
namespace Verif
open Spec Relation

section
variable {G : CFG} {I : Init}

/-- A valid item gives a sentential form. -/
theorem Ctx.sentential {S : List Nat} (hI : ∀ r, I.rules r → ∀ A α, G.rules[r]? = some (A, α) → G.Derives S (α ++ I.ctx))
    {γ z : List Nat} {r d : Nat} (h : Ctx G I γ r d z) :
    ∀ {A : Nat} {α : List Nat}, G.rules[r]? = some (A, α) → G.Derives S (γ ++ (α.drop d ++ z)) := by
  induction h with
  | init hr => intro A α h; simpa using hI _ hr A α h
  | @clos γ r d z A α B r' η h hr hB hr' ih =>
    intro A' α' h'
    rw [hr'] at h'
    simp only [Option.some.injEq, Prod.mk.injEq] at h'
    obtain ⟨rfl, rfl⟩ := h'
    have := ih hr
    obtain ⟨hd, hB⟩ := List.getElem?_eq_some_iff.1 hB
    rw [List.drop_eq_getElem_cons hd, hB] at this
    refine this.trans ?_
    rw [List.drop_zero]
    refine Derives.append_left ?_ γ
    exact Derives.append_right (u := [B]) (Derives.rule (List.mem_of_getElem? hr')) _
  | @shift γ r d z A α X h hr hX ih =>
    intro A' α' h'
    rw [hr] at h'
    simp only [Option.some.injEq, Prod.mk.injEq] at h'
    obtain ⟨rfl, rfl⟩ := h'
    have := ih hr
    obtain ⟨hd, hX⟩ := List.getElem?_eq_some_iff.1 hX
    rw [List.drop_eq_getElem_cons hd, hX] at this
    simpa using this

/-- Right contexts consist of symbols of the rules. -/
theorem Ctx.symbols {Q : Nat → Prop} (hQ : ∀ A α, (A, α) ∈ G.rules → ∀ X ∈ α, Q X) (hI : ∀ X ∈ I.ctx, Q X)
    {γ z : List Nat} {r d : Nat} (h : Ctx G I γ r d z) : ∀ X ∈ z, Q X := by
  induction h with
  | init _ => exact hI
  | clos _ hr _ _ ih =>
    intro X hX
    rcases List.mem_append.1 hX with hX | hX
    · exact hQ _ _ (List.mem_of_getElem? hr) X (List.mem_of_mem_drop hX)
    · exact ih X hX
  | shift _ _ _ ih => exact ih

theorem yields_all {β : List Nat} (h : ∀ X ∈ β, ∃ w, Yields G [X] w) : ∃ w, Yields G β w := by
  induction β with
  | nil => exact ⟨[], .nil⟩
  | cons X β ih =>
    obtain ⟨w, hw⟩ := h X (by simp)
    obtain ⟨w', hw'⟩ := ih (fun Y hY => h Y (by simp [hY]))
    exact ⟨w ++ w', hw.append hw'⟩

/-- If every symbol of the rules derives tokens, what a prefix with a valid item derives begins a string derived from `S`. -/
theorem Ctx.viable {S : List Nat} (hI : ∀ r, I.rules r → ∀ A α, G.rules[r]? = some (A, α) → G.Derives S (α ++ I.ctx))
    (hQ : ∀ A α, (A, α) ∈ G.rules → ∀ X ∈ α, ∃ w, Yields G [X] w) (hctx : ∀ X ∈ I.ctx, ∃ w, Yields G [X] w)
    {γ z : List Nat} {r d A : Nat} {α w : List Nat} (h : Ctx G I γ r d z) (hr : G.rules[r]? = some (A, α)) (hw : Yields G γ w) :
    ∃ x, Yields G S (w ++ x) := by
  obtain ⟨x, hx⟩ := yields_all (G := G) (β := α.drop d ++ z) (by
    intro X hX
    rcases List.mem_append.1 hX with hX | hX
    · exact hQ _ _ (List.mem_of_getElem? hr) X (List.mem_of_mem_drop hX)
    · exact Ctx.symbols hQ hctx h X hX)
  have := hw.append hx
  refine ⟨x, yields_iff.2 ⟨this.toks, (Ctx.sentential hI h hr).trans this.derives⟩⟩

variable {Sh : Nat → Prop} {n : Nat} {Item : Nat → Nat → Nat → Prop} {Trans : Nat → Nat → Nat → Prop}

/-- Every state has an item. -/
theorem IsAuto.item_ex (h : IsAuto G I Sh n Item Trans) (hI : ∃ r A α, I.rules r ∧ G.rules[r]? = some (A, α))
    {γ : List Nat} {s : Nat} (hp : Path Trans 0 γ s) : ∃ r d z A α, Ctx G I γ r d z ∧ G.rules[r]? = some (A, α) := by
  cases hp with
  | nil =>
    obtain ⟨r, A, α, h1, h2⟩ := hI
    exact ⟨r, 0, _, A, α, .init h1, h2⟩
  | @snoc γ t X _ hp ht =>
    obtain ⟨-, r, d, hi, A, α, hr, hX⟩ := (h.ex _ X (h.path_lt h.pos hp)).1 ⟨_, ht⟩
    obtain ⟨z, hz⟩ := (h.item_valid hp r d).1 hi
    exact ⟨r, d+1, z, A, α, .shift hz hr hX, hr⟩

end

namespace Byacc
variable {V : Type} {G : CFG} {nsyms n : Nat} {Item Trans : _} {code : Nat → Int} {t : Tables}

theorem run_log {P : Driver V} (k : Nat) : ∀ c : Cfg V, c.log <:+ (P.run k c).cfg.log := by
  induction k with
  | zero => intro c; exact List.suffix_refl _
  | succ k ih =>
    intro c
    have h := step_log (P := P) c
    rw [Driver.run]
    cases hs : P.step c with
    | next c' => rw [hs] at h; exact h.trans (ih c')
    | done e c' => rw [hs] at h; exact h

theorem shifts_suffix {a b : List Ev} (h : a <:+ b) : (shifts a).length ≤ (shifts b).length := by
  obtain ⟨p, rfl⟩ := h
  simp [shifts, List.filterMap_append]

/-- On an input that begins with `v1`, where the grammar has a sentence beginning with `v1`, no error is reported before
all of `v1` is shifted (none at all if `v1` is the whole input with the end marker). -/
theorem prefix_sim (T : TabSound G nsyms n Item Trans code t) (TC : TabComplete G Trans code t) {P : Driver V} (ht : P.t = t)
    (hval : ∀ r d st, ∃ v, P.act r d st = .val v) {bound : Nat} (hmax : P.max ≤ bound) {rs : List Nat}
    {a b : List Nat × List Nat} (h : Lic G byaccInit rs a b) (hb : b = ([G.ntok + 1], [0])) (h00 : 0 ∉ a.2.dropLast) :
    ∀ (k : Nat) (v1 v2 : List Nat) (c : Cfg V) (l : List Int), a.2 = v1 ++ v2 → Base Trans bound c → Mid G Trans a.1 c →
      c.rest = v1.map code ++ l → ∀ before, .report :: before <:+ (P.run k c).cfg.log → c.log.length ≤ before.length →
      v2 ≠ [] ∧ v1.length + (shifts c.log).length ≤ (shifts before).length := by
  have hbase : ∀ (k : Nat) (c : Cfg V) (before : List Ev), .report :: before <:+ (P.run k c).cfg.log →
      c.log.length ≤ before.length → (shifts c.log).length ≤ (shifts before).length := by
    intro k c before h1 h2
    exact shifts_suffix (List.suffix_of_suffix_length_le (run_log k c) ((List.suffix_cons _ _).trans h1) h2)
  -- one step that logs something else than a report
  have hnext : ∀ (e : Ev), e ≠ .report → ∀ (L : List Ev) (c1 : Cfg V) (k : Nat) (before : List Ev), c1.log = e :: L →
      .report :: before <:+ (P.run k c1).cfg.log → L.length ≤ before.length → c1.log.length ≤ before.length := by
    intro e he L c1 k before h1 h2 h3
    rw [h1]
    rcases Nat.lt_or_ge L.length before.length with h4 | h4
    · simp only [List.length_cons]; omega
    · exfalso
      have h5 := List.suffix_of_suffix_length_le h2 (run_log k c1) (by rw [h1]; simpa using h4)
      rw [h1] at h5
      have := h5.eq_of_length (by simp; omega)
      simp only [List.cons.injEq] at this
      exact he this.1.symm
  have hlast : ∀ (e : Ev), e ≠ .report → ∀ (L before : List Ev), .report :: before <:+ e :: L → L.length ≤ before.length → False := by
    intro e he L before h2 h3
    have := h2.eq_of_length (by have := h2.length_le; simp at this ⊢; omega)
    simp only [List.cons.injEq] at this
    exact he this.1.symm
  induction h with
  | refl c =>
    intro k v1 v2 c' l hv B M hrest before h1 h2
    rw [hb] at hv M
    simp only at hv M
    obtain ⟨x, hc, hx⟩ := M.goal rfl
    cases v1 with
    | nil => exact ⟨by rintro rfl; simp at hv, by simpa using hbase k c' before h1 h2⟩
    | cons Y v1 =>
      exfalso
      simp only [List.cons_append, List.cons.injEq] at hv
      obtain ⟨rfl, -⟩ := hv
      unfold Cfg.rest Cfg.pending at hrest
      rw [hc] at hrest
      simp only at hrest
      rw [if_neg hx] at hrest
      simp only [List.map_cons, List.cons_append, List.cons.injEq, T.code0] at hrest
      exact hx hrest.1
  | @shift rs γ v z α r d A X c hz hr hX hlt h ih =>
    intro k v1 v2 c0 l hv B R hrest before h1 h2
    simp only at hv R
    cases v1 with
    | nil => exact ⟨by rintro rfl; simp at hv, by simpa using hbase k c0 before h1 h2⟩
    | cons Y v1 =>
    simp only [List.cons_append, List.cons.injEq] at hv
    obtain ⟨rfl, hv⟩ := hv
    subst ht
    have hnil := R.spell.ne_nil
    cases hst : c0.stack with
    | nil => rw [hst] at hnil; exact absurd rfl hnil
    | cons p tl =>
    obtain ⟨q, u⟩ := p
    have hpath : Path Trans 0 γ q := by
      have := R.spell.path (q := q) (ss' := tl.map Prod.fst) (by rw [hst]; rfl)
      simpa using this
    have hq := B.top T.A hst
    obtain ⟨f1, f2, f3, f4, f5, f6⟩ := read_fields c0
    obtain ⟨g1, x, l', gx, gr, gl, gz⟩ := read_rest c0
    have hxl : x = code X ∧ l' = v1.map code ++ l := by
      rw [gr] at hrest
      simpa using hrest
    obtain ⟨rfl, rfl⟩ := hxl
    have hX0 : X ≠ 0 := by
      rintro rfl
      have hv2 : v = [] := by
        by_contra hne
        apply h00
        cases v with
        | nil => exact absurd rfl hne
        | cons y v => simp
      subst hv2
      have := h.nil_end
      rw [hb] at this
      simp at this
    have hcX : code X ≠ 0 := by
      intro e
      exact hX0 (T.inj X 0 hlt T.wf.ntok (by rw [e, T.code0]))
    obtain ⟨y, hy⟩ := (T.A.ex q X hq).2 ⟨hX0, r, d, (T.A.item_valid hpath r d).2 ⟨z, hz⟩, A, α, hr, hX⟩
    obtain ⟨hdef, hsh⟩ := TC.shift q X y hlt hy
    have BR := B.read
    have hst' : c0.read.stack = (q, u) :: tl := by rw [f1, hst]
    have hstep : P.step c0 = P.push { c0.read with chr := none, errflag := c0.read.errflag - 1, log := .shift (code X) :: c0.read.log }
        y c0.read.lval := by
      unfold Driver.step
      rw [hst]
      simp only
      rw [if_neg (by rw [R.recover]; simp), if_neg (by rw [hdef]; simp)]
      simp only [gx, Option.getD_some, hsh]
    cases k with
    | zero =>
      exfalso
      have := h1.length_le
      simp [Driver.run, Res.cfg] at this
      omega
    | succ k =>
    rw [Driver.run] at h1
    rcases push_cases (P := P) ({ c0.read with chr := none, errflag := c0.read.errflag - 1, log := .shift (code X) :: c0.read.log } : Cfg V)
        y c0.read.lval BR.fits BR.two with ⟨m, e1, e2, e3, e4⟩ | ⟨e1, e2, e3⟩
    · have h00' : 0 ∉ v.dropLast := by
        intro hm
        apply h00
        cases v with
        | nil => simp at hm
        | cons y v => simp only [List.dropLast_cons_cons]; exact List.mem_cons_of_mem _ hm
      rw [e1] at hstep
      have hb1 := T.step_base B hmax
      rw [hstep] at hb1 h1
      simp only at h1
      have hlen := hnext (.shift (code X)) (by simp) c0.log _ k before (by simp only [f5]) h1 h2
      have := ih hb h00' k v1 v2 _ l hv hb1
        ⟨by
          simp only [hst', List.map_cons, List.reverse_append, List.reverse_cons, List.reverse_nil, List.nil_append, List.cons_append]
          have := R.spell
          rw [hst] at this
          exact .cons this hy, by simp only; rw [f2, R.errflag], by simp only; rw [f4]; exact R.recover, by
          intro hg
          exfalso
          have hγ : γ = [] := by
            have := congrArg List.length hg
            simp only [List.length_append, List.length_cons, List.length_nil] at this
            exact List.eq_nil_of_length_eq_zero (by omega)
          subst hγ
          simp only [List.nil_append, List.cons.injEq, and_true] at hg
          omega⟩ (by simp only [Cfg.rest, Cfg.pending]; exact (gl hcX).symm) before h1 hlen
      refine ⟨this.1, ?_⟩
      have := this.2
      simp only [shifts, f5, List.filterMap_cons, List.length_cons] at this ⊢
      omega
    · exfalso
      rw [hstep, e1] at h1
      simp only [Res.cfg, f5] at h1
      exact hlast (.shift (code X)) (by simp) c0.log before h1 h2
  | @reduce rs δ v z α r A X c hz hr hf h ih =>
    intro k v1 v2 c0 l hv B R hrest before h1 h2
    simp only at hv R
    cases v1 with
    | nil => exact ⟨by rintro rfl; simp at hv, by simpa using hbase k c0 before h1 h2⟩
    | cons Y v1 =>
    have hYX : X = Y := by simp at hv; exact hv.1
    subst ht
    have hnil := R.spell.ne_nil
    cases hst : c0.stack with
    | nil => rw [hst] at hnil; exact absurd rfl hnil
    | cons p tl =>
    obtain ⟨q, u⟩ := p
    have hpath : Path Trans 0 (δ ++ α) q := by
      have := R.spell.path (q := q) (ss' := tl.map Prod.fst) (by rw [hst]; rfl)
      simpa using this
    obtain ⟨h0, hcase⟩ := TC.reduce q r A α (δ ++ α) z X hpath hr hz hf
    have key : ∃ c1, P.step c0 = P.reduce c1 r ∧ Base Trans bound c1 ∧ Mid G Trans (δ ++ α) c1 ∧
        c1.stack = (q, u) :: tl ∧ c1.rest = c0.rest ∧ c1.log = c0.log := by
      rcases hcase with hdef | ⟨hdef, hsh, hre⟩
      · refine ⟨c0, ?_, B, R, hst, rfl, rfl⟩
        unfold Driver.step
        rw [hst]
        simp only
        rw [if_neg (by rw [R.recover]; simp), if_pos (by rw [hdef]; omega), hdef]
      · obtain ⟨f1, f2, f3, f4, f5, f6⟩ := read_fields c0
        obtain ⟨g1, x, l', gx, gr, gl, gz⟩ := read_rest c0
        have hxl : x = code X := by
          rw [gr] at hrest
          simp only [List.map_cons, List.cons_append, List.cons.injEq] at hrest
          rw [hYX]; exact hrest.1
        subst hxl
        refine ⟨c0.read, ?_, B.read, ?_, by rw [f1, hst], g1, f5⟩
        · unfold Driver.step
          rw [hst]
          simp only
          rw [if_neg (by rw [R.recover]; simp), if_neg (by rw [hdef]; simp)]
          simp only [gx, Option.getD_some, hsh, hre]
        · refine ⟨by rw [f1]; exact R.spell, by rw [f2]; exact R.errflag, by rw [f4]; exact R.recover, fun hg => ?_⟩
          obtain ⟨x, hx, h0⟩ := R.goal hg
          have : c0.read = c0 := by unfold Cfg.read; rw [hx]
          rw [this]
          exact ⟨x, hx, h0⟩
    obtain ⟨c1, hstep, B1, R1, hst1, hrest1, hlog1⟩ := key
    cases k with
    | zero =>
      exfalso
      have := h1.length_le
      simp [Driver.run, Res.cfg] at this
      omega
    | succ k =>
    rw [Driver.run] at h1
    rcases reduce_core rfl T hval B1 hmax h0 R1 hst1 hr hz with ⟨c', e1, e2, e3, e4, e5⟩ | ⟨c', e1, e2⟩ | ⟨c', e1, e2, -⟩
    · rw [hstep, e1] at h1
      simp only at h1
      have hlen := hnext (.reduce r) (by simp) c0.log _ k before (by rw [e5, hlog1]) h1 h2
      have := ih hb h00 k (Y :: v1) v2 c' l hv e2 e3 (by rw [e4, hrest1, hrest]) before h1 hlen
      rw [e5, hlog1] at this
      simpa [shifts] using this
    · exfalso
      rw [hstep, e1] at h1
      simp only [Res.cfg, e2, hlog1] at h1
      exact hlast (.reduce r) (by simp) c0.log before h1 h2
    · exfalso
      rw [hstep, e1] at h1
      simp only [Res.cfg, e2, hlog1] at h1
      exact hlast (.reduce r) (by simp) c0.log before h1 h2

end Byacc
end Verif
