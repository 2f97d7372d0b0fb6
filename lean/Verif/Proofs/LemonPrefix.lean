import Verif.Proofs.LemonComplete
import Verif.Proofs.Prefix
/-
Prefixes of sentences and the place where a lemon parser reports an error.
-/
set_option autoImplicit false
namespace Verif.Lemon
open Verif.Spec

variable {g : Gram} {fb : Nat → Option Nat} {compress : Bool} {m : Mach} {F : List TSet} {A : Acts} {cs : List CState} {T : Tables}

/-! ### the number of rounds allowed does not matter -/

theorem findShiftLoop_fuel {nd : Bool} {s : Nat} : ∀ (f f' la n : Nat), f ≤ f' → T.findShiftLoop nd s f la = some n →
    T.findShiftLoop nd s f' la = some n := by
  intro f
  induction f with
  | zero => intro f' la n _ h; cases h
  | succ f ih =>
    intro f' la n hle h
    obtain ⟨f', rfl⟩ : ∃ k, f' = k + 1 := ⟨f' - 1, by omega⟩
    rw [Tables.findShiftLoop] at h ⊢
    split at h
    · cases h
    · rename_i o ho
      simp only at h ⊢
      split_ifs at h ⊢ with h1
      split at h
      · cases h
      · rename_i l hl
        split_ifs at h ⊢ with h2
        · exact h
        · split at h
          · cases h
          · rename_i fb' hfb
            split_ifs at h ⊢ with h3
            exact ih f' _ n (by omega) h
          · exact h

theorem findShift_fuel {nd : Bool} {s f f' la n : Nat} (hle : f ≤ f') (h : T.findShift nd f la s = some n) : T.findShift nd f' la s = some n := by
  unfold Tables.findShift at h ⊢
  split_ifs at h ⊢
  · exact h
  · exact findShiftLoop_fuel f f' la n hle h

theorem parseRound_fuel {c : PConf} {t f f' : Nat} {eh : Bool} {p : PState} {x : Round} (hle : f ≤ f') (h : parseRound T c t f eh p = some x) :
    parseRound T c t f' eh p = some x := by
  unfold parseRound at h ⊢
  split at h
  · cases h
  · rename_i top htop
    simp only at h ⊢
    cases hn : T.findShift c.ndebug f t top.1 with
    | none => rw [hn] at h; cases h
    | some n =>
      rw [hn] at h
      rw [findShift_fuel hle hn]
      exact h

theorem parseLoop_fuel {c : PConf} {t : Nat} : ∀ (f f' : Nat) (eh : Bool) (p : PState) (x : PState × List Ev), f ≤ f' →
    parseLoop T c t f eh p = some x → parseLoop T c t f' eh p = some x := by
  intro f
  induction f with
  | zero => intro f' eh p x _ h; cases h
  | succ f ih =>
    intro f' eh p x hle h
    obtain ⟨f', rfl⟩ : ∃ k, f' = k + 1 := ⟨f' - 1, by omega⟩
    rw [parseLoop] at h ⊢
    cases hr : parseRound T c t (f + 1) eh p with
    | none => rw [hr] at h; cases h
    | some r =>
      rw [hr] at h
      rw [parseRound_fuel hle hr]
      cases r with
      | stop p1 e1 => exact h
      | next eh1 p1 e1 =>
        simp only at h ⊢
        obtain ⟨y, h1, h2⟩ := Option.map_eq_some_iff.mp h
        rw [ih f' eh1 p1 y (by omega) h1]
        exact congrArg some h2

theorem parseTokens_fuel {c : PConf} {f f' : Nat} (hle : f ≤ f') : ∀ (ts : List Nat) (p : PState) (x : PState × List Ev),
    parseTokens T c f ts p = some x → parseTokens T c f' ts p = some x := by
  intro ts
  induction ts with
  | nil => intro p x h; exact h
  | cons t ts ih =>
    intro p x h
    rw [parseTokens] at h ⊢
    obtain ⟨y, h1, h2⟩ := Option.bind_eq_some_iff.mp h
    obtain ⟨z, h3, h4⟩ := Option.map_eq_some_iff.mp h2
    unfold parseToken at h1 ⊢
    rw [parseLoop_fuel f f' false p y hle h1, Option.bind_some, ih y.1 z h3]
    exact congrArg some h4

theorem parseTokens_append {c : PConf} {f : Nat} : ∀ (a b : List Nat) (p : PState),
    parseTokens T c f (a ++ b) p = (parseTokens T c f a p).bind fun x => (parseTokens T c f b x.1).map fun y => (y.1, x.2 ++ y.2) := by
  intro a
  induction a with
  | nil => intro b p; simp [parseTokens]
  | cons t a ih =>
    intro b p
    rw [List.cons_append, parseTokens, parseTokens]
    cases h1 : parseToken T c f p t with
    | none => rfl
    | some x =>
      simp only [Option.bind_some]
      rw [ih]
      cases h2 : parseTokens T c f a x.1 with
      | none => rfl
      | some y =>
        simp only [Option.bind_some, Option.map_some]
        cases h3 : parseTokens T c f b y.1 with
        | none => rfl
        | some z => simp

/-! ### what has been shifted -/

section
variable (u : Usable g) (h : Generated g fb compress m F A cs T)
include u h

theorem tokens_conf (hfb : FallbackOK g fb) (hlen : ∀ r ∈ g.rules, r.rhs.length < 256) {c : PConf} {fuel : Nat} :
    ∀ (ts : List Nat) (p q : PState) (γ ps es : List Nat) (w : List (Nat × Unit)) (vs : List Unit) (evs : List Ev),
    (∀ t ∈ ts, t ≠ 0 ∧ t < g.nterm) →
    Conf g m cs (nxstate cs (resortStates g cs)) False p.stack γ → p.errcnt < 0 →
    Builds g.ext (fun _ _ => ()) ps γ w vs → Skips g compress ps es →
    parseTokens T c fuel ts p = some (q, evs) → (∀ t, .syntaxError t ∉ evs) → .overflow ∉ evs →
    ∃ Ys γ' ps' vs', List.Forall₂ (fun t Y => ∃ t', ReadAs fb g.wildcard t t' ∧ t' < g.nterm ∧ t' ∈ g.shiftSyms Y) ts Ys ∧
      Conf g m cs (nxstate cs (resortStates g cs)) False q.stack γ' ∧
      Builds g.ext (fun _ _ => ()) ps' γ' (w ++ Ys.map fun Y => (Y, ())) vs' := by
  intro ts
  induction ts with
  | nil =>
    intro p q γ ps es w vs evs _ hc he hb hk hl hs ho
    rw [parseTokens] at hl
    simp only [Option.some.injEq, Prod.mk.injEq] at hl
    obtain ⟨rfl, rfl⟩ := hl
    exact ⟨[], γ, ps, vs, .nil, hc, by simpa using hb⟩
  | cons t ts ih =>
    intro p q γ ps es w vs evs hts hc he hb hk hl hs ho
    rw [parseTokens] at hl
    obtain ⟨⟨p1, e1⟩, h1, h2⟩ := Option.bind_eq_some_iff.mp hl
    obtain ⟨⟨q', e2⟩, h3, h4⟩ := Option.map_eq_some_iff.mp h2
    simp only [Prod.mk.injEq] at h4
    obtain ⟨rfl, rfl⟩ := h4
    have hs1 : ∀ t, .syntaxError t ∉ e1 := fun t hm => hs t (List.mem_append_left _ hm)
    have hs2 : ∀ t, .syntaxError t ∉ e2 := fun t hm => hs t (List.mem_append_right _ hm)
    rw [List.mem_append, not_or] at ho
    have ht := hts t List.mem_cons_self
    rcases loop_sound u h hfb hlen ht.2 fuel false p p1 γ ps es w vs e1 (hc.mono (fun h => h.elim)) he hb hk h1 (hs1 t) ho.1 with
      ⟨t', Y, γ', ps', vs', k1, k2, k3, k4, k5, k6, k7, k8⟩ | ⟨k0, _⟩
    · obtain ⟨Ys, γ2, ps2, vs2, j1, j2, j3⟩ := ih p1 q' γ' ps' _ _ vs' e2 (fun t ht => hts t (List.mem_cons_of_mem _ ht)) k5 k6 k7 k8 h3 hs2 ho.2
      exact ⟨Y :: Ys, γ2, ps2, vs2, .cons ⟨t', k1, k2, k3⟩ j1, j2, by simpa using j3⟩
    · exact absurd k0 ht.1

/-- what a path derives begins a sentence -/
theorem path_viable (hprod : ∀ r ∈ g.rules, ∀ X ∈ r.rhs, ∃ w, g.cfg.Sentence X w) (hstart : ∃ w, g.cfg.Sentence g.start w)
    {γ w : List Nat} {s : Nat} (hp : Path m.Trans 0 γ s)
    (hy : Yields g.cfg γ w) (hw : 0 ∉ w) : ∃ x, g.cfg.Sentence g.start (w ++ x) := by
  have auto := h.toPrepared.isAuto u
  have htok0 : 0 < g.cfg.ntok := u.wf.nterm
  obtain ⟨r0, A0, α0, hr0, hr0'⟩ : ∃ r A α, (lemonInit g).rules r ∧ g.ext.rules[r]? = some (A, α) := by
    obtain ⟨w0, hw0⟩ := hstart
    have hy0 : Yields g.cfg [g.start] w0 := yields_iff.mpr hw0
    have hns := u.start.1
    cases hy0 with
    | tok ht =>
      exfalso
      have ht' : g.start < g.nterm := ht
      unfold Gram.nlow at hns
      omega
    | var hr =>
      rcases mem_cfg.mp hr with ⟨r, h1, h2, h3⟩ | ⟨i, t, h1, h2, h3, h4⟩
      · obtain ⟨i, hi, rfl⟩ := List.getElem_of_mem h1
        have hri : g.rule i = g.rules[i] := by unfold Gram.rule; simp [hi]
        exact ⟨i, _, _, ⟨hi, by rw [hri]; exact h2⟩, ext_at hi⟩
      · exfalso
        unfold Gram.nlow at hns
        omega
  obtain ⟨r, d, z, A', α, hz, hr⟩ := IsAuto.item_ex auto ⟨r0, A0, α0, hr0, hr0'⟩ hp
  have hsent := Ctx.sentential (S := [g.start, 0]) (by
    intro r hI A α hr
    obtain ⟨_, h1, h2⟩ := ext_rule.mp hr
    have : A = g.start := by rw [← h1]; exact hI.2
    subst this
    exact Derives.append_right (u := [g.start]) (Derives.rule (List.mem_of_getElem? hr)) [0]) hz hr
  have hderiv : g.cfg.Derives [g.start, 0] (γ ++ (α.drop d ++ z)) := by
    refine Relation.ReflTransGen.mono ?_ _ _ hsent
    rintro _ _ ⟨u, v, hm⟩
    exact .mk u v (ext_mem_cfg hm)
  have hQ : ∀ A α, (A, α) ∈ g.ext.rules → ∀ X ∈ α, ∃ w, Yields g.cfg [X] w := by
    intro A α hm X hX
    obtain ⟨r, h1, h2⟩ := List.mem_map.mp hm
    simp only [Prod.mk.injEq] at h2
    obtain ⟨w, hw⟩ := hprod r h1 X (by rw [h2.2]; exact hX)
    exact ⟨w, yields_iff.mpr hw⟩
  obtain ⟨x, hx⟩ := yields_all (G := g.cfg) (β := α.drop d ++ z) (by
    intro X hX
    rcases List.mem_append.1 hX with hX | hX
    · exact hQ _ _ (List.mem_of_getElem? hr) X (List.mem_of_mem_drop hX)
    · refine Ctx.symbols hQ ?_ hz X hX
      intro X hX
      have : X = 0 := by simpa [lemonInit] using hX
      subst this
      exact ⟨[0], .tok htok0 .nil⟩)
  have hall := hy.append hx
  have hall : Yields g.cfg [g.start, 0] (w ++ x) := yields_iff.mpr ⟨hall.toks, hderiv.trans hall.derives⟩
  obtain ⟨w1, w2, e, h1, h2⟩ := Yields.split (a := [g.start]) (b := [0]) hall
  have hw2 : w2 = [0] := by
    cases h2 with
    | tok _ h2 => cases h2; rfl
    | var hr =>
      exfalso
      rcases mem_cfg.mp hr with ⟨r, h1, h2, _⟩ | ⟨i, t, _, _, h3, _⟩
      · have := (u.wf.lhs r h1).1
        have := u.wf.nterm
        unfold Gram.nlow at *
        omega
      · have := u.wf.nterm
        omega
  subst hw2
  have hpre : w <+: w1 := by
    have h3 : w <+: w1 ++ [0] := ⟨x, e⟩
    rcases List.prefix_concat_iff.1 h3 with h4 | h4
    · exfalso
      exact hw (by rw [h4]; simp)
    · exact h4
  obtain ⟨x', rfl⟩ := hpre
  exact ⟨x', yields_iff.mp h1⟩

theorem Conf.path {st : List (Nat × Nat)} {γ : List Nat} (hc : Conf g m cs (nxstate cs (resortStates g cs)) False st γ) :
    ∃ s, Path m.Trans 0 γ s := by
  cases hc with
  | norm hs => exact ⟨_, hs.path⟩
  | pend X hs ht _ => exact ⟨_, hs.path.snoc ht⟩
  | acc X hf => exact hf.elim

end

end Verif.Lemon
