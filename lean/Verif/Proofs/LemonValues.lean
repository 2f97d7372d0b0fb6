import Verif.Spec.LemonValues
import Verif.Proofs.LemonErr
import Verif.Proofs.LemonSound
/-
Lemmas about values on the stack of a parser made by lemon.
-/
set_option autoImplicit false
namespace Verif.Lemon
open Verif.Spec

variable {V : Type} {T : Tables} {code : Nat → List V → V → V} {v : V}

/-- the values on the stack, the top first -/
def Mem.vals (m : Mem V) : List V := (List.range m.top).map fun i => m.val (m.top - i)

theorem vals_length (m : Mem V) : m.vals.length = m.top := by simp [Mem.vals]

theorem vals_succ (m : Mem V) (h : 0 < m.top) : m.vals = m.val m.top :: { m with top := m.top - 1 }.vals := by
  obtain ⟨t, f⟩ := m
  cases t with
  | zero => cases h
  | succ t =>
    simp only [Mem.vals, List.range_succ_eq_map, List.map_cons, List.map_map, Nat.add_sub_cancel]
    congr 1
    refine List.map_congr_left fun i _ => ?_
    simp only [Function.comp_apply]
    congr 1; omega

theorem vals_set_above (m : Mem V) (i : Nat) (v : V) (h : m.top < i) : (m.set i v).vals = m.vals := by
  unfold Mem.vals Mem.set
  refine List.map_congr_left fun j hj => ?_
  have := List.mem_range.mp hj
  simp only
  rw [if_neg (by omega)]

theorem vals_push (m : Mem V) (v : V) : Mem.vals { m.set (m.top + 1) v with top := m.top + 1 } = v :: m.vals := by
  rw [vals_succ _ (by simp)]
  have h1 : ({ ({ m.set (m.top + 1) v with top := m.top + 1 } : Mem V) with top := m.top + 1 - 1 } : Mem V) = m.set (m.top + 1) v := by
    simp [Mem.set]
  simp only
  rw [show (⟨m.top + 1 - 1, (m.set (m.top + 1) v).val⟩ : Mem V) = m.set (m.top + 1) v from h1, vals_set_above _ _ _ (by omega)]
  simp [Mem.set]

/-- values below the top, of entries above the bottom -/
theorem vals_drop (m : Mem V) (n : Nat) (h : n ≤ m.top) : m.vals.drop n = Mem.vals { m with top := m.top - n } := by
  induction n with
  | zero => simp
  | succ n ih =>
    rw [← List.tail_drop, ih (by omega), vals_succ _ (by simp only; omega), List.tail_cons]
    congr 2

/-- the arguments of a rule -/
theorem vals_take (m : Mem V) (n : Nat) (h : n ≤ m.top) :
    ((List.range n).map fun k => m.val (m.top + 1 - n + k)) = (m.vals.take n).reverse := by
  refine List.ext_getElem (by simp [Mem.vals]; omega) fun i h1 h2 => ?_
  simp only [List.length_map, List.length_range] at h1
  simp only [Mem.vals, List.getElem_map, List.getElem_range, List.getElem_reverse, List.getElem_take, List.length_take, List.length_map,
    List.length_range]
  congr 1
  omega

theorem zip_append_left {α β : Type} (a b : List α) (c : List β) (h : a.length ≤ c.length) :
    (a ++ b).zip c = a.zip (c.take a.length) ++ b.zip (c.drop a.length) := by
  have : (a ++ b).zip (c.take a.length ++ c.drop a.length) = a.zip (c.take a.length) ++ b.zip (c.drop a.length) :=
    List.zip_append (by simp [h])
  rwa [List.take_append_drop] at this

theorem map_snd_zip' {α β : Type} (a : List α) (b : List β) (h : a.length = b.length) : (a.zip b).map Prod.snd = b := by
  rw [List.map_snd_zip (by omega)]

/-- a reduction -/
theorem vals_reduce (m : Mem V) (r n : Nat) (h : n ≤ m.top) (hn : (-T.nrhs r).toNat = n) :
    (vstep T code v m (.reduce r)).1.top = m.top + 1 - n ∧
    (∃ old, (∀ x ∈ (m.vals.take n).getLast?, old = x) ∧
      (vstep T code v m (.reduce r)).2 = .reduce r (m.vals.take n).reverse (code r (m.vals.take n).reverse old) ∧
      (vstep T code v m (.reduce r)).1.vals = code r (m.vals.take n).reverse old :: m.vals.drop n) := by
  subst hn
  refine ⟨by simp [vstep], m.val (m.top + 1 - (-T.nrhs r).toNat), ?_, ?_, ?_⟩
  · intro x hx
    rw [Option.mem_def, List.getLast?_eq_getElem?, List.getElem?_eq_some_iff] at hx
    obtain ⟨h1, h2⟩ := hx
    rw [← h2]
    simp only [Mem.vals, List.getElem_map, List.getElem_range, List.getElem_take, List.length_take, List.length_map, List.length_range] at h1 ⊢
    congr 1
    omega
  · simp only [vstep]
    rw [vals_take m _ h]
  · rw [vals_drop m _ h]
    simp only [vstep]
    rw [vals_take m _ h]
    generalize (-T.nrhs r).toNat = n at h
    have := vals_push { m with top := m.top - n } (code r (m.vals.take n).reverse (m.val (m.top + 1 - n)))
    rw [← this]
    simp only [Mem.set]
    have e : m.top - n + 1 = m.top + 1 - n := by omega
    rw [e]

/-- events with values, from events without -/
theorem vuses_of_uses (hT : RuleLens T) {s s' : List Nat} {evs : List Ev} (h : Uses T s evs s') : ∀ m : Mem V, m.top = s.length →
    VUses (T.ruleLhs[·]?) (T.ruleNRhs[·]?) code (s.zip m.vals) (vsteps T code v evs m).2 (s'.zip (vsteps T code v evs m).1.vals) ∧
    (vsteps T code v evs m).1.top = s'.length := by
  induction h with
  | done s => intro m hm; exact ⟨.done _, hm⟩
  | @shift s s' evs X _ ih =>
    intro m hm
    have := ih (vstep T code v m (.shift X)).1 (by simp [vstep, hm])
    refine ⟨.shift X v ?_, this.2⟩
    have h1 := this.1
    rw [show (vstep T code v m (.shift X)).1.vals = v :: m.vals from vals_push m v] at h1
    exact h1
  | @pop s s' evs X _ ih =>
    intro m hm
    simp only [List.length_cons] at hm
    have := ih (vstep T code v m (.pop X)).1 (by simp [vstep, hm])
    rw [vals_succ m (by omega)]
    exact ⟨.pop X _ this.1, this.2⟩
  | @reduce s s' evs r A α hA hα _ ih =>
    intro m hm
    rw [List.length_append] at hm
    have hn : (-T.nrhs r).toNat = α.length := by
      have := hT.nrhs hA
      rw [hα] at this
      exact (Option.some.inj this).symm
    obtain ⟨h1, old, h2, h3, h4⟩ := vals_reduce (T := T) (code := code) (v := v) m r α.length (by omega) hn
    have := ih (vstep T code v m (.reduce r)).1 (by rw [h1, hm, List.length_cons]; omega)
    rw [h4] at this
    simp only [vsteps]
    rw [h3]
    refine ⟨?_, this.2⟩
    rw [zip_append_left α s m.vals (by rw [vals_length]; omega)]
    have hl : α.length = (m.vals.take α.length).length := by rw [List.length_take, vals_length]; omega
    have he : ((α.zip (m.vals.take α.length)).reverse.map Prod.snd) = (m.vals.take α.length).reverse := by
      rw [List.map_reverse, map_snd_zip' _ _ hl]
    have := VUses.reduce (lhs := (T.ruleLhs[·]?)) (n := (T.ruleNRhs[·]?)) (code := code) (s := s.zip (m.vals.drop α.length)) (evs := (vsteps T code v evs (vstep T code v m (.reduce r)).1).2)
      (s' := s'.zip (vsteps T code v evs (vstep T code v m (.reduce r)).1).1.vals) r A (α.zip (m.vals.take α.length)) old hA
      (by rw [List.length_zip, ← hl, Nat.min_self]; exact hα) ?_ ?_
    · rwa [he] at this
    · intro x hx
      refine h2 x.2 ?_
      rw [← map_snd_zip' α (m.vals.take α.length) hl, List.getLast?_map]
      rw [Option.mem_def] at hx
      rw [hx]
      rfl
    · rw [he]
      exact this.1
  | @syntaxError s s' evs t _ ih => intro m hm; exact ⟨.syntaxError t v (ih m hm).1, (ih m hm).2⟩
  | @discard s s' evs t _ ih => intro m hm; exact ⟨.discard t v (ih m hm).1, (ih m hm).2⟩
  | @failed s' evs _ ih => intro m hm; exact ⟨.failed (ih m hm).1, (ih m hm).2⟩
  | @overflow s' evs _ ih => intro m hm; exact ⟨.overflow (ih m hm).1, (ih m hm).2⟩
  | @accept s' evs X _ ih =>
    intro m hm
    simp only [List.length_cons, List.length_nil, Nat.zero_add] at hm
    have := ih (vstep T code v m .accept).1 (by simp [vstep, hm])
    rw [vals_succ m (by omega)]
    have h0 : ({ m with top := m.top - 1 } : Mem V).vals = [] := by rw [hm]; rfl
    rw [h0]
    exact ⟨.accept X _ this.1, this.2⟩

theorem VUses.append {lhs n : Nat → Option Nat} {s s1 s2 : List (Nat × V)} {e1 e2 : List (VEv V)} (h1 : VUses lhs n code s e1 s1)
    (h2 : VUses lhs n code s1 e2 s2) : VUses lhs n code s (e1 ++ e2) s2 := by
  induction h1 with
  | done => exact h2
  | shift X v _ ih => exact .shift X v (ih h2)
  | pop X v _ ih => exact .pop X v (ih h2)
  | reduce r A α old hA hα ho _ ih => exact .reduce r A α old hA hα ho (ih h2)
  | syntaxError t v _ ih => exact .syntaxError t v (ih h2)
  | discard t v _ ih => exact .discard t v (ih h2)
  | failed _ ih => exact .failed (ih h2)
  | overflow _ ih => exact .overflow (ih h2)
  | accept X v _ ih => exact .accept X v (ih h2)

/-! ### events without values -/

theorem vstep_erase (m : Mem V) (e : Ev) : (vstep T code v m e).2.erase = e := by cases e <;> rfl

theorem vsteps_erase : ∀ (evs : List Ev) (m : Mem V), (vsteps T code v evs m).2.map VEv.erase = evs
  | [], _ => rfl
  | e :: evs, m => by rw [vsteps]; simp only [List.map_cons]; rw [vstep_erase, vsteps_erase evs]

theorem vsteps_given : ∀ (evs : List Ev) (m : Mem V), ∀ e ∈ (vsteps T code v evs m).2, ∀ w, e.given = some w → w = v
  | [], _ => by simp [vsteps]
  | e :: evs, m => by
    intro x hx w hw
    rw [vsteps] at hx
    rcases List.mem_cons.mp hx with rfl | hx
    · cases e <;> simp_all [vstep, VEv.given]
    · exact vsteps_given evs _ x hx w hw

theorem vsteps_append (e1 e2 : List Ev) (m : Mem V) : vsteps T code v (e1 ++ e2) m =
    ((vsteps T code v e2 (vsteps T code v e1 m).1).1, (vsteps T code v e1 m).2 ++ (vsteps T code v e2 (vsteps T code v e1 m).1).2) := by
  induction e1 generalizing m with
  | nil => rfl
  | cons e e1 ih => simp only [List.cons_append, vsteps, ih]

/-! ### evaluation -/

variable {g : Gram} {fb : Nat → Option Nat} {compress : Bool} {m : Mach} {F : List TSet} {A : Acts} {cs : List CState}

theorem chain_values (hcode : CodeOK g code) (d : V) {X X' : Nat} {us : List Nat} (hc : Chain g compress X us X') :
    ∀ {ps γ : List Nat} {w : List (Nat × V)} {vs : List V}, Builds g.ext (ruleVal g code d) ps (γ ++ [X]) w vs →
      Builds g.ext (ruleVal g code d) (ps ++ us) (γ ++ [X']) w vs := by
  induction hc with
  | nil X => intro ps γ w vs hb; simpa using hb
  | @cons X X' r us _ hr hu hX _ ih =>
    intro ps γ w vs hb
    rw [← hX] at hb
    have hl := hb.length
    have h1 := hb.reduce (ext_at hr)
    have hv : ruleVal g code d r (vs.drop γ.length) = (vs.drop γ.length).headD d := hcode.noCode r hr hu.2 _ _
    rw [hv] at h1
    have hlen : (vs.drop γ.length).length = 1 := by
      rw [List.length_append, hu.1] at hl
      rw [List.length_drop]
      omega
    obtain ⟨x, hx⟩ := List.length_eq_one_iff.mp hlen
    have e : vs.take γ.length ++ [(vs.drop γ.length).headD d] = vs := by
      rw [hx]
      have := List.take_append_drop γ.length vs
      rw [hx] at this
      exact this
    rw [e] at h1
    have := ih h1
    simpa using this

section
variable (u : Usable g) (h : Generated g fb compress m F A cs T)
include u h

/-- one token -/
theorem loop_values (hfb : FallbackOK g fb) (hlen : ∀ r ∈ g.rules, r.rhs.length ≤ 128) (hcode : CodeOK g code) (d : V) {c : PConf} {t : Nat} (ht : t < g.nterm) :
    ∀ (fuel : Nat) (eh : Bool) (p q : PState) (mm : Mem V) (γ ps es : List Nat) (w : List (Nat × V)) (evs : List Ev),
    Conf g m cs (nxstate cs (resortStates g cs)) (t = 0) p.stack γ → p.errcnt < 0 →
    Builds g.ext (ruleVal g code d) ps γ w mm.vals.reverse → Skips g compress ps es →
    parseLoop T c t fuel eh p = some (q, evs) → .syntaxError t ∉ evs → .overflow ∉ evs →
    (∃ t' Y γ' ps', ReadAs fb g.wildcard t t' ∧ t' < g.nterm ∧ t' ∈ g.shiftSyms Y ∧ .accept ∉ evs ∧
      Conf g m cs (nxstate cs (resortStates g cs)) False q.stack γ' ∧ q.errcnt < 0 ∧
      Builds g.ext (ruleVal g code d) ps' γ' (w ++ [(Y, v)]) (vsteps T code v evs mm).1.vals.reverse ∧ Skips g compress ps' (es ++ reductions evs)) ∨
    (t = 0 ∧ ∃ ps' x, Builds g.ext (ruleVal g code d) ps' [g.start] w [x] ∧ Skips g compress ps' (es ++ reductions evs) ∧
      .accept x ∈ (vsteps T code v evs mm).2) := by
  intro fuel
  induction fuel with
  | zero => intro eh p q mm γ ps es w evs _ _ _ _ hl; cases hl
  | succ fuel ih =>
    intro eh p q mm γ ps es w evs hc he hb hk hl hs ho
    rw [parseLoop] at hl
    cases hx : parseRound T c t (fuel + 1) eh p with
    | none => rw [hx] at hl; cases hl
    | some x =>
      have hr := round_sound u h hfb (fun r hr => by have := hlen r hr; omega) ht hc he hx
      have htop : mm.top = γ.length := by
        have := hb.length
        rw [List.length_reverse, vals_length] at this
        omega
      rw [hx] at hl
      cases x with
      | stop p1 e1 =>
        simp only [Option.some.injEq, Prod.mk.injEq] at hl
        obtain ⟨rfl, rfl⟩ := hl
        cases hr with
        | @shift t' Y _ h1 h2 h3 h4 h5 =>
          left
          have hY : Y < g.ext.ntok := (shiftSyms_members h2 h3).2
          refine ⟨t', Y, _, ps, h1, h2, h3, by simp, h4, h5, ?_, by simpa [reductions] using hk⟩
          have e : (vsteps T code v [.shift t] mm).1.vals = v :: mm.vals := vals_push mm v
          rw [e, List.reverse_cons]
          exact .tok v hY hb
        | accept h1 h2 =>
          right
          subst h2
          simp only [List.length_cons, List.length_nil, Nat.zero_add] at htop
          have e : mm.vals = [mm.val mm.top] := by
            rw [vals_succ mm (by omega)]
            congr 1
            rw [htop]; rfl
          refine ⟨h1, ps, mm.val mm.top, ?_, by simpa [reductions] using hk, by simp [vsteps, vstep]⟩
          rw [e] at hb
          exact hb
        | error h1 =>
          rcases h1 with h1 | h1
          · exact absurd h1 hs
          · exact absurd h1 ho
      | next eh1 p1 e1 =>
        simp only at hl
        obtain ⟨⟨q', e2⟩, h1, h2⟩ := Option.map_eq_some_iff.mp hl
        simp only [Prod.mk.injEq] at h2
        obtain ⟨rfl, rfl⟩ := h2
        rw [List.mem_append, not_or] at hs ho
        cases hr with
        | @reduce _ r X us δ _ hr e hch hcf hn =>
          subst e
          have hrl := hlen _ (rule_mem hr)
          have hn' : (-T.nrhs (g.iRule r)).toNat = (g.rule r).rhs.length := by rw [nrhs_le u h hr hrl]; omega
          rw [List.length_append] at htop
          obtain ⟨t1, old, t2, t3, t4⟩ := vals_reduce (T := T) (code := code) (v := v) mm (g.iRule r) (g.rule r).rhs.length (by omega) hn'
          have hb0 := hb.reduce (ext_at hr)
          have hdr : mm.vals.reverse.drop δ.length = (mm.vals.take (g.rule r).rhs.length).reverse := by
            rw [List.reverse_take, vals_length]
            congr 1
            omega
          have htk : mm.vals.reverse.take δ.length = (mm.vals.drop (g.rule r).rhs.length).reverse := by
            rw [List.reverse_drop, vals_length]
            congr 1
            omega
          have hval : ruleVal g code d r (mm.vals.take (g.rule r).rhs.length).reverse =
              code (g.iRule r) (mm.vals.take (g.rule r).rhs.length).reverse old := by
            unfold ruleVal
            rcases List.eq_nil_or_concat (mm.vals.take (g.rule r).rhs.length) with e0 | ⟨l, x, e0⟩
            · have : (g.rule r).rhs = [] := by
                have := congrArg List.length e0
                rw [List.length_take, vals_length, List.length_nil] at this
                exact List.length_eq_zero_iff.mp (by omega)
              rw [e0]
              exact hcode.empty r hr this _ _
            · rw [List.concat_eq_append] at e0
              rw [e0] at t2 ⊢
              rw [t2 x (by simp)]
              simp
          have hb1 : Builds g.ext (ruleVal g code d) (ps ++ [r]) (δ ++ [(g.rule r).lhs]) w (vstep T code v mm (.reduce (g.iRule r))).1.vals.reverse := by
            rw [t4, List.reverse_cons, ← hval, ← htk, ← hdr]
            exact hb0
          have hb2 := chain_values hcode d hch hb1
          have hk1 := hch.skips (Skips.keep r hk)
          have hres := ih eh1 p1 q' (vstep T code v mm (.reduce (g.iRule r))).1 (δ ++ [X]) _ _ w e2 hcf hn hb2 hk1 h1 hs.2 ho.2
          have hred : es ++ reductions ([.reduce (g.iRule r)] ++ e2) = es ++ [g.iRule r] ++ reductions e2 := by
            rw [reductions_append]; simp [reductions]
          rw [hred]
          rcases hres with ⟨t', Y, γ', ps', k1, k2, k3, k4, k5⟩ | ⟨k0, ps', x, k1, k2, k3⟩
          · exact .inl ⟨t', Y, γ', ps', k1, k2, k3, by simpa using k4, k5⟩
          · exact .inr ⟨k0, ps', x, k1, k2, by simp only [List.singleton_append, vsteps]; exact List.mem_cons_of_mem _ k3⟩
        | error h1 =>
          rcases h1 with h1 | h1
          · exact absurd h1 hs.1
          · exact absurd h1 ho.1

/-- all tokens up to the end of input -/
theorem tokens_values (hfb : FallbackOK g fb) (hlen : ∀ r ∈ g.rules, r.rhs.length ≤ 128) (hcode : CodeOK g code) (d : V) {c : PConf} {fuel : Nat} (v0 : V) :
    ∀ (ts : List (Nat × V)) (p q : PState) (mm mm' : Mem V) (γ ps es : List Nat) (w : List (Nat × V)) (evs : List (VEv V)),
    (∀ t ∈ ts, t.1 ≠ 0 ∧ t.1 < g.nterm) →
    Conf g m cs (nxstate cs (resortStates g cs)) False p.stack γ → p.errcnt < 0 →
    Builds g.ext (ruleVal g code d) ps γ w mm.vals.reverse → Skips g compress ps es →
    parseValues T c code fuel (ts ++ [(0, v0)]) p mm = some (q, mm', evs) → (∀ t x, .syntaxError t x ∉ evs) → .overflow ∉ evs →
    (∃ x, .accept x ∈ evs) →
    ∃ Ys ps' x, List.Forall₂ (fun t Y => ∃ t', ReadAs fb g.wildcard t t' ∧ t' < g.nterm ∧ t' ∈ g.shiftSyms Y) (ts.map Prod.fst) Ys ∧
      Builds g.ext (ruleVal g code d) ps' [g.start] (w ++ Ys.zip (ts.map Prod.snd)) [x] ∧ Skips g compress ps' (es ++ reductions (evs.map VEv.erase)) ∧
      .accept x ∈ evs := by
  intro ts
  have herase : ∀ {e : List Ev} {m1 : Mem V} {x : V} (ev : VEv V), ev ∈ (vsteps T code x e m1).2 → ev.erase ∈ e := by
    intro e m1 x ev hm
    have := List.mem_map_of_mem (f := VEv.erase) hm
    rwa [vsteps_erase] at this
  have herase' : ∀ {e : List Ev} {m1 : Mem V} {x : V} (ev : Ev), ev ∈ e → ∃ ev' ∈ (vsteps T code x e m1).2, ev'.erase = ev := by
    intro e m1 x ev hm
    rw [← vsteps_erase (T := T) (code := code) (v := x) e m1] at hm
    exact List.mem_map.mp hm
  have hsyn : ∀ {e : List Ev} {m1 : Mem V} {x : V}, (∀ t y, .syntaxError t y ∉ (vsteps T code x e m1).2) → ∀ t, .syntaxError t ∉ e := by
    intro e m1 x hh t hm
    obtain ⟨ev, k1, k2⟩ := herase' (m1 := m1) (x := x) _ hm
    cases ev <;> simp only [VEv.erase, reduceCtorEq] at k2
    exact hh _ _ k1
  have hovf : ∀ {e : List Ev} {m1 : Mem V} {x : V}, .overflow ∉ (vsteps T code x e m1).2 → .overflow ∉ e := by
    intro e m1 x hh hm
    obtain ⟨ev, k1, k2⟩ := herase' (m1 := m1) (x := x) _ hm
    cases ev <;> simp only [VEv.erase, reduceCtorEq] at k2
    exact hh k1
  induction ts with
  | nil =>
    intro p q mm mm' γ ps es w evs _ hc he hb hk hl hs ho ha
    rw [List.nil_append, parseValues, parseValue] at hl
    obtain ⟨⟨p1, m1, e1⟩, h1, h2⟩ := Option.bind_eq_some_iff.mp hl
    obtain ⟨⟨q1, ev⟩, h3, h4⟩ := Option.map_eq_some_iff.mp h1
    simp only [Prod.mk.injEq] at h4
    obtain ⟨rfl, h4⟩ := h4
    simp only [parseValues, Option.map_some, List.append_nil, Option.some.injEq, Prod.mk.injEq] at h2
    obtain ⟨rfl, rfl, rfl⟩ := h2
    have e1' : e1 = (vsteps T code v0 ev mm).2 := by rw [h4]
    subst e1'
    rcases loop_values u h hfb hlen hcode d (v := v0) u.wf.nterm fuel false p q1 mm γ ps es w ev (hc.mono (by simp)) he hb hk h3 (hsyn hs 0) (hovf ho) with
      ⟨_, _, _, _, _, _, _, k, _⟩ | ⟨_, ps', x, k1, k2, k3⟩
    · obtain ⟨x, hx⟩ := ha
      exact absurd (herase _ hx) k
    · exact ⟨[], ps', x, .nil, by simpa using k1, by rwa [vsteps_erase], k3⟩
  | cons t ts ih =>
    intro p q mm mm' γ ps es w evs hts hc he hb hk hl hs ho ha
    rw [List.cons_append, parseValues, parseValue] at hl
    obtain ⟨⟨p1, m1, e1⟩, h1, h2⟩ := Option.bind_eq_some_iff.mp hl
    obtain ⟨⟨q1, ev⟩, h3, h4⟩ := Option.map_eq_some_iff.mp h1
    simp only [Prod.mk.injEq] at h4
    obtain ⟨rfl, h4⟩ := h4
    obtain ⟨⟨q', mm2, e2⟩, h5, h6⟩ := Option.map_eq_some_iff.mp h2
    simp only [Prod.mk.injEq] at h6
    obtain ⟨rfl, rfl, rfl⟩ := h6
    have e1' : e1 = (vsteps T code t.2 ev mm).2 := by rw [h4]
    have m1' : m1 = (vsteps T code t.2 ev mm).1 := by rw [h4]
    subst e1' m1'
    have hs1 : ∀ s y, .syntaxError s y ∉ (vsteps T code t.2 ev mm).2 := fun s y hm => hs s y (List.mem_append_left _ hm)
    have hs2 : ∀ s y, .syntaxError s y ∉ e2 := fun s y hm => hs s y (List.mem_append_right _ hm)
    rw [List.mem_append, not_or] at ho
    have ht := hts t List.mem_cons_self
    rcases loop_values u h hfb hlen hcode d (v := t.2) ht.2 fuel false p q1 mm γ ps es w ev (hc.mono (fun h => h.elim)) he hb hk h3 (hsyn hs1 t.1)
      (hovf ho.1) with ⟨t', Y, γ', ps', k1, k2, k3, k4, k5, k6, k7, k8⟩ | ⟨k0, _⟩
    · have ha' : ∃ x, .accept x ∈ e2 := by
        obtain ⟨x, ha⟩ := ha
        rcases List.mem_append.mp ha with h | h
        · exact absurd (herase _ h) k4
        · exact ⟨x, h⟩
      obtain ⟨Ys, ps2, x, j1, j2, j3, j4⟩ := ih q1 q' _ mm2 γ' ps' _ _ e2 (fun t ht => hts t (List.mem_cons_of_mem _ ht)) k5 k6 k7 k8 h5 hs2 ho.2 ha'
      refine ⟨Y :: Ys, ps2, x, .cons ⟨t', k1, k2, k3⟩ j1, by simpa using j2, ?_, List.mem_append_right _ j4⟩
      rw [List.map_append, vsteps_erase, reductions_append, ← List.append_assoc]
      exact j3
    · exact absurd k0 ht.1

end

end Verif.Lemon
