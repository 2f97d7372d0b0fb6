import Verif.Spec.ByaccReads
import Verif.Proofs.TableSizes
import Verif.Props.C19
import Verif.Props.C82
/-
C102: a parser made by byacc never reads outside its tables.
-/
set_option autoImplicit false
namespace Verif.Byacc
open Rd Spec Spec.YText Spec.Reads

variable {V : Type} {P : Driver V} {G : CFG} {nsyms n nv : Nat} {Item Trans : _} {code : Nat → Int}

/-- a probe with an index that is inside -/
theorem probeReads_inside {t : Tables} {nr : Nat} (S : TableSizes n nv nr t) {index : Arr} {i base x : Int} (hi : 0 ≤ i) (hl : i < size t index) :
    ∀ r ∈ probeReads t index i base x, Inside t r := by
  unfold probeReads
  intro r hr
  rw [List.mem_cons] at hr
  rcases hr with rfl | hr
  · exact ⟨hi, hl⟩
  · split at hr
    · next h =>
      have h1 : Inside t (.check, base + x) := ⟨h.2.1, by show _ < ((t.check.length : Nat) : Int); rw [S.check]; push_cast; omega⟩
      rw [List.mem_cons] at hr
      rcases hr with rfl | hr
      · exact h1
      · split at hr
        · rw [List.mem_singleton] at hr
          subst hr
          exact ⟨h.2.1, by show _ < ((t.table.length : Nat) : Int); rw [S.table]; push_cast; omega⟩
        · cases hr
    · cases hr

theorem ruleReads_inside (T : TabSound G nsyms n Item Trans code P.t) (S : TableSizes n (nsyms - (G.ntok + 1)) G.rules.length P.t) {c : Cfg V} {γ : List Nat} {q : Nat} {u : V}
    {rest : List (Nat × V)} (hst : c.stack = (q, u) :: rest) (hγ : Spell Trans γ (c.stack.map Prod.fst)) {r A : Nat} {α : List Nat}
    (hr : G.rules[r]? = some (A, α)) (hi : Item q r α.length) (h0 : 0 < r) : ∀ x ∈ ruleReads P c r, Inside P.t x := by
  have hst' : c.stack.map Prod.fst = q :: rest.map Prod.fst := by rw [hst]; rfl
  obtain ⟨δ, s, below, q', hγ', hd, hδ, ht, hz, hA⟩ := T.shape (hst' ▸ hγ) hr hi h0
  rw [← hst', ← List.map_drop] at hd
  have hlt := (List.getElem?_eq_some_iff.1 hr).1
  have hAn := (T.wf.lhs hr).2.1
  have h1 : Inside P.t (.len, (r : Int)) := ⟨by show (0 : Int) ≤ r; omega, by show (r : Int) < ((P.t.len.length : Nat) : Int); rw [S.len]; omega⟩
  have h2 : Inside P.t (.lhs, (r : Int)) := ⟨by show (0 : Int) ≤ r; omega, by show (r : Int) < ((P.t.lhs.length : Nat) : Int); rw [S.lhs]; omega⟩
  have h3 : ∀ s : Nat, ∀ x ∈ gotoReads P.t s ((A : Int) - G.ntok - 1), Inside P.t x := by
    intro s x hx
    unfold gotoReads at hx
    rw [List.mem_append] at hx
    rcases hx with hx | hx
    · exact probeReads_inside S (by omega) (by show _ < ((P.t.gindex.length : Nat) : Int); rw [S.gindex]; omega) x hx
    · split at hx
      · cases hx
      · rw [List.mem_singleton] at hx
        subst hx
        exact ⟨by show (0 : Int) ≤ (A : Int) - G.ntok - 1; omega, by show (A : Int) - G.ntok - 1 < ((P.t.dgoto.length : Nat) : Int); rw [S.dgoto]; omega⟩
  unfold ruleReads
  dsimp only
  rw [T.lhs r A α hr]
  intro x hx
  rw [List.mem_cons] at hx
  rcases hx with rfl | hx
  · exact h1
  · split at hx
    · rw [List.mem_cons] at hx
      rcases hx with rfl | hx
      · exact h2
      · split at hx
        · cases hx
        · split at hx
          · cases hx
          · exact h3 _ x hx
    · cases hx

/-- all reads of a round are inside, if the stack spells a path of the automaton -/
theorem roundReads_inside (T : TabSound G nsyms n Item Trans code P.t) (S : TableSizes n (nsyms - (G.ntok + 1)) G.rules.length P.t) {bound : Nat} {c : Cfg V}
    (B : Base Trans bound c) : ∀ r ∈ roundReads P c, Inside P.t r := by
  obtain ⟨γ, hγ⟩ := B.spell
  unfold roundReads
  split
  · intro r hr; cases hr
  rename_i q u rest hst
  have hq := B.top T.A hst
  have hsh : ∀ x, ∀ r ∈ shiftReads P.t q x, Inside P.t r := fun x =>
    probeReads_inside S (by omega) (by show (q : Int) < ((P.t.sindex.length : Nat) : Int); rw [S.sindex]; omega)
  have hre : ∀ x, ∀ r ∈ reduceReads P.t q x, Inside P.t r := fun x =>
    probeReads_inside S (by omega) (by show (q : Int) < ((P.t.rindex.length : Nat) : Int); rw [S.rindex]; omega)
  split
  · exact hsh _
  intro r hr
  rw [List.mem_cons] at hr
  rcases hr with rfl | hr
  · exact ⟨by show (0 : Int) ≤ q; omega, by show (q : Int) < ((P.t.defred.length : Nat) : Int); rw [S.defred]; omega⟩
  split at hr
  · next hne =>
    obtain ⟨A, α, hr', hi⟩ := T.defred q hq hne
    exact ruleReads_inside T S hst hγ hr' hi (Nat.pos_of_ne_zero hne) r hr
  · obtain ⟨f1, -⟩ := read_fields c
    obtain ⟨x, hx, hx0⟩ := read_chr_nonneg c B.chr
    rw [hx] at hr
    dsimp only [Option.getD_some] at hr
    rw [List.mem_append] at hr
    rcases hr with hr | hr
    · exact hsh _ r hr
    · split at hr
      · cases hr
      · rw [List.mem_append] at hr
        rcases hr with hr | hr
        · exact hre _ r hr
        · split at hr
          · next k hk =>
            obtain ⟨h0, A, α, hr', hi⟩ := T.reduce q hq _ _ hx0 hk
            exact ruleReads_inside T S (by rw [f1]; exact hst) (by rw [f1]; exact hγ) hr' hi h0 r hr
          · cases hr

/-- C102: whatever the input is (any numbers, whether they are codes of tokens or not), whatever the actions do, in every round of a parse with the tables
made from a grammar file, error recovery included: every read of an array of the parser is inside the array. -/
theorem C102_inside (per : Nat) (hper : per = 2 ∨ per = 3) (lp : Bool) (file text : List Nat) (out : FileOut) (o : Generated) (tb : Tables)
    (h : makeTables per lp file text = some (out, o, tb)) (t : List Nat) (F : File) (ht : GivenText file text t) (hF : FileAt F t)
    (hd : CodesDiffer F.uses) (V : Type) (P : Driver V) (hP : P.t = tb) (hi : 2 ≤ P.init) (size : Nat) (hs : size = 0 ∨ 2 ≤ size) (u : V) (input : List (Int × V))
    (n : Nat) (c : Cfg V) (hc : P.run n (P.start size u input) = .next c) : ∀ r ∈ roundReads P c, Inside tb r := by
  obtain ⟨h1, h2, h3⟩ := (tables_iff _ _ _ _ _ _ _).1 h
  obtain ⟨-, t', F', g1, g2, hok, hl, acts, tags, -, ho⟩ := (reader_iff lp file text out).1 h1
  obtain ⟨rfl, rfl, -⟩ := C80_unique file text t t' F F' ht g1 hF g2
  have hu := user_rules hF hl
  have hlen : 2 ≤ (tokenNames F.uses).length + 1 := by
    have : txt "error" ∈ tokenNames F.uses :=
      List.mem_filter.2 ⟨(mem_names _ _).2 (.inl rfl), by simpa using error_terminal hF hok⟩
    have := List.length_pos_of_mem this
    omega
  rw [ho] at h2 h3
  obtain ⟨o', ho', K⟩ := generate_ok lp ((tokenNames F.uses).length + 1) ((names F.uses).length + 2) (F.rules.map (srcRule F.uses F.goal))
    (by rw [rule_numbers]; exact hu) (finalOut lp F acts).gram rfl (finalOut lp F acts).prec lp (finalOut lp F acts).sr (finalOut lp F acts).rr
  rw [h2] at ho'
  cases ho'
  have hsv : SymVals (finalOut lp F acts).gram.ntokens (finalOut lp F acts).gram.nsyms (finalOut lp F acts).num.value := sym_vals hF hok hd _
  obtain ⟨S, -, -⟩ := outputTables_sizes K (by omega) hsv h3
  have T := tabSound K hsv hlen (outputTables_ok K (by omega) hsv h3)
  rw [K.ctx.packs.ntok] at S
  rw [← hP] at T S ⊢
  have hs2 : 2 ≤ (P.start size u input).size := by
    simp only [Driver.start]; split <;> omega
  have hR := run_inv (P := P) (Base (ShiftsTo o.aut) (max (P.start size u input).size P.max))
    (fun c c' B hs => by
      have := T.step_base B (Nat.le_max_right _ _)
      rw [hs] at this
      exact this) n (P.start size u input)
    (start_base P size u input _ hs2 (Nat.le_max_left _ _))
  exact roundReads_inside T S (hR.1 c hc)

/-! ### nothing else is read -/

theorem probe_agree {t t' : Tables} {index : Arr} {i base x : Int} (hs : t.size = t'.size)
    (h : ∀ r ∈ probeReads t index i base x, cell t r.1 r.2.toNat = cell t' r.1 r.2.toNat) : t.probe base x = t'.probe base x := by
  unfold probeReads at h
  unfold Tables.probe
  rw [← hs]
  by_cases hc : base ≠ 0 ∧ 0 ≤ base + x ∧ base + x ≤ t.size
  · rw [if_pos hc] at h
    have h1 : t.check[(base + x).toNat]? = t'.check[(base + x).toNat]? := h (.check, base + x) (by simp)
    rw [← h1]
    by_cases hx : t.check[(base + x).toNat]? = some x
    · rw [if_pos ⟨hc.1, hc.2.1, hc.2.2, hx⟩, if_pos ⟨hc.1, hc.2.1, hc.2.2, hx⟩]
      rw [if_pos hx] at h
      have h2 : t.table[(base + x).toNat]?.map Int.ofNat = t'.table[(base + x).toNat]?.map Int.ofNat := h (.table, base + x) (by simp)
      exact Option.map_injective (fun a b e => Int.ofNat.inj e) h2
    · rw [if_neg (fun h => hx h.2.2.2), if_neg (fun h => hx h.2.2.2)]
  · rw [if_neg (fun h => hc ⟨h.1, h.2.1, h.2.2.1⟩), if_neg (fun h => hc ⟨h.1, h.2.1, h.2.2.1⟩)]

theorem getD_cell {l l' : List Int} {i : Nat} (h : l[i]? = l'[i]?) : l.getD i 0 = l'.getD i 0 := by
  rw [List.getD_eq_getElem?_getD, List.getD_eq_getElem?_getD, h]

theorem getD_cellN {l l' : List Nat} {i : Nat} (h : l[i]?.map Int.ofNat = l'[i]?.map Int.ofNat) : l.getD i 0 = l'.getD i 0 := by
  rw [List.getD_eq_getElem?_getD, List.getD_eq_getElem?_getD, Option.map_injective (fun a b e => Int.ofNat.inj e) h]

theorem shiftOn_agree {t t' : Tables} {s : Nat} {x : Int} (hs : t.size = t'.size) (h : ∀ r ∈ shiftReads t s x, cell t r.1 r.2.toNat = cell t' r.1 r.2.toNat) :
    t.shiftOn s x = t'.shiftOn s x := by
  unfold Tables.shiftOn
  have : t.sindex.getD s 0 = t'.sindex.getD s 0 := getD_cell (h (.sindex, s) (by simp [shiftReads, probeReads]))
  rw [← this]
  exact probe_agree hs h

theorem reduceOn_agree {t t' : Tables} {s : Nat} {x : Int} (hs : t.size = t'.size) (h : ∀ r ∈ reduceReads t s x, cell t r.1 r.2.toNat = cell t' r.1 r.2.toNat) :
    t.reduceOn s x = t'.reduceOn s x := by
  unfold Tables.reduceOn
  have : t.rindex.getD s 0 = t'.rindex.getD s 0 := getD_cell (h (.rindex, s) (by simp [reduceReads, probeReads]))
  rw [← this]
  exact probe_agree hs h

theorem gotoOf_agree {t t' : Tables} {s : Nat} {y : Int} (hs : t.size = t'.size) (h : ∀ r ∈ gotoReads t s y, cell t r.1 r.2.toNat = cell t' r.1 r.2.toNat) :
    t.gotoOf s y = t'.gotoOf s y := by
  unfold gotoReads at h
  unfold Tables.gotoOf
  have : t.gindex.getD y.toNat 0 = t'.gindex.getD y.toNat 0 := getD_cell (h (.gindex, y) (by simp [probeReads]))
  rw [← this, ← probe_agree hs (fun r hr => h r (List.mem_append_left _ hr))]
  cases hp : t.probe (t.gindex.getD y.toNat 0) s with
  | some q => rfl
  | none => exact getD_cellN (h (.dgoto, y) (by rw [hp]; simp))

theorem rule_agree {t' : Tables} {c : Cfg V} {r : Nat} (hs : P.t.size = t'.size) (hf : P.t.final = t'.final)
    (h : ∀ x ∈ ruleReads P c r, cell P.t x.1 x.2.toNat = cell t' x.1 x.2.toNat) : ({ P with t := t' } : Driver V).reduce c r = P.reduce c r := by
  unfold ruleReads at h
  dsimp only at h
  have hl : P.t.len.getD r 0 = t'.len.getD r 0 := getD_cell (h (.len, r) (by simp))
  unfold Driver.reduce
  dsimp only
  rw [← hl]
  generalize hm : (P.t.len.getD r 0).toNat = m at h ⊢
  generalize ha : P.act r (if m = 0 then P.zero else (c.stack.map Prod.snd).getD (m - 1) P.zero) (c.stack.map Prod.snd) = a at h ⊢
  cases a with
  | val v =>
    dsimp only at h ⊢
    have hy : P.t.lhs.getD r 0 = t'.lhs.getD r 0 := getD_cell (h (.lhs, r) (by simp))
    rw [← hy]
    unfold Driver.finish
    dsimp only
    rw [← hf]
    cases hd : c.stack.drop m with
    | nil => rfl
    | cons p below =>
      obtain ⟨s, v'⟩ := p
      rw [hd] at h
      dsimp only [List.head?_cons] at h ⊢
      by_cases hc : s = 0 ∧ P.t.lhs.getD r 0 = 0
      · rw [if_pos hc, if_pos hc]
      · rw [if_neg hc, if_neg hc]
        rw [if_neg hc] at h
        rw [gotoOf_agree hs (fun x hx => h x (List.mem_cons_of_mem _ (List.mem_cons_of_mem _ hx)))]
        rfl
  | _ => rfl

/-- C102: there are no other reads: a round is the same with any tables that have the same constants, and the same elements at the places that are read. -/
theorem C102_only (V : Type) (P : Driver V) (t' : Tables) (c : Cfg V) (h : Agree (roundReads P c) P.t t') : ({ P with t := t' } : Driver V).step c = P.step c := by
  obtain ⟨hs, hf, he, h⟩ := h
  unfold roundReads at h
  unfold Driver.step
  cases hst : c.stack with
  | nil => rfl
  | cons p rest =>
    obtain ⟨s, v⟩ := p
    rw [hst] at h
    dsimp only at h ⊢
    by_cases hr : c.recover = true
    · rw [if_pos hr] at h
      rw [if_pos hr, if_pos hr, ← he, ← shiftOn_agree hs h]
      rfl
    · rw [if_neg hr] at h
      rw [if_neg hr, if_neg hr]
      have hd : P.t.defred.getD s 0 = t'.defred.getD s 0 := getD_cellN (h (.defred, s) (by simp))
      rw [← hd]
      by_cases hn : P.t.defred.getD s 0 ≠ 0
      · rw [if_pos hn] at h
        rw [if_pos hn, if_pos hn]
        exact rule_agree hs hf (fun x hx => h x (List.mem_cons_of_mem _ hx))
      · rw [if_neg hn] at h
        rw [if_neg hn, if_neg hn]
        generalize c.read.chr.getD 0 = x at h ⊢
        rw [← shiftOn_agree hs (fun y hy => h y (List.mem_cons_of_mem _ (List.mem_append_left _ hy)))]
        cases hq : P.t.shiftOn s x with
        | some q => rfl
        | none =>
          rw [hq] at h
          dsimp only [Option.isSome_none] at h ⊢
          rw [if_neg (by simp)] at h
          rw [← reduceOn_agree hs (fun y hy => h y (List.mem_cons_of_mem _ (List.mem_append_right _ (List.mem_append_left _ hy))))]
          cases hq' : P.t.reduceOn s x with
          | none => rfl
          | some k =>
            rw [hq'] at h
            exact rule_agree hs hf (fun y hy => h y (List.mem_cons_of_mem _ (List.mem_append_right _ (List.mem_append_right _ hy))))

/-- the reads of a round of the parser of the examples for C82, with the start symbol of state 0 to come: a shift -/
example : ((makeTables 2 false [] c82File).map fun x => roundReads (c82P x.2.2) ((c82P x.2.2).start 0 0 [(257, 3)])) =
    some [(.defred, 0), (.sindex, 0), (.check, 217), (.table, 217)] := by decide +kernel

/-- the next round: a reduction, with the default for the next state -/
example : ((makeTables 2 false [] c82File).bind fun x => match (c82P x.2.2).run 1 ((c82P x.2.2).start 0 0 [(257, 3)]) with
      | .next c => some (roundReads (c82P x.2.2) c)
      | _ => none) = some [(.defred, 1), (.len, 4), (.lhs, 4), (.gindex, 1), (.dgoto, 1)] := by decide +kernel

end Verif.Byacc
