import Verif.Proofs.ByaccMeaningAll
import Verif.Props.C50
/-
Auxiliary facts: the rules the reader makes of a file.
-/
set_option autoImplicit false
namespace Verif.Byacc.Rd
open Spec.YText
open Spec (Elem)

/-- an element by positions -/
def encEl (pos : Sym → Nat) : El → Elem
  | .sym x => .sym (pos x)
  | .action _ _ => .action
  | .prec x => .prec (pos x)

def encAlt (pos : Sym → Nat) (a : Alt) : Nat × List Elem := (pos a.lhs, a.rhs.map (encEl pos))

theorem rdRun_read (pos : Sym → Nat) (toks : List RTok) : ∀ (l : Sym) (a : List El) (alts : List (Nat × List Elem)) (done : List RR) (g : Nat) (s : RdSt),
    Finished alts done g → Reading done g (.user (pos l)) (a.map (encEl pos)) s →
    ∃ done', Finished (alts ++ (altsFrom l a toks).map (encAlt pos)) done' (rdRun pos s toks).gensym ∧
      (endRule (rdRun pos s toks)).pitem = (encRR done').reverse ∧ (endRule (rdRun pos s toks)).plhs = (done'.map RR.lhs).reverse ∧
      (endRule (rdRun pos s toks)).rprec = (done'.map RR.prec).reverse := by
  induction toks with
  | nil =>
    intro l a alts done g s F R
    obtain ⟨done', F', e1, e2, e3, -, -, -⟩ := F.add R
    exact ⟨done', F', e1, e2, e3⟩
  | cons x ts ih =>
    intro l a alts done g s F R
    cases x with
    | sym x =>
      have := R.step (.sym (pos x))
      exact ih l (a ++ [.sym x]) alts done g _ F (by simpa [encEl] using this)
    | action b ps =>
      have := R.step .action
      exact ih l (a ++ [.action b ps]) alts done g _ F (by simpa [encEl] using this)
    | prec x =>
      have := R.step (.prec (pos x))
      exact ih l (a ++ [.prec x]) alts done g _ F (by simpa [encEl] using this)
    | bar =>
      obtain ⟨done', F', e1, e2, e3, e4, e5, e6⟩ := F.add R
      have R' := Reading.start e1 e2 e3 e5 (.user (pos l))
      rw [e4] at R'
      have := ih l [] _ done' s.gensym (startRule (endRule s) (.user (pos l))) F' (by simpa using R')
      rw [← e6] at this
      rw [List.append_assoc] at this
      exact this
    | lhs y =>
      obtain ⟨done', F', e1, e2, e3, e4, e5, e6⟩ := F.add R
      have R' := Reading.start e1 e2 e3 e5 (.user (pos y))
      rw [e4] at R'
      have := ih y [] _ done' s.gensym (startRule (endRule s) (.user (pos y))) F' (by simpa using R')
      rw [List.append_assoc] at this
      exact this

/-- the name of a symbol of the arrays -/
def nameAt (N : List (List Nat)) : RSym → List Nat
  | .user i => N.getD i []
  | .gen k => hiddenKey k

def precAtN (N : List (List Nat)) : RPrec → PrecBy
  | .undef => .rhs
  | .zero => .nowhere
  | .ofSym i => .of (N.getD i [])

/-- a rule of the arrays, by names -/
def ruleAt (N : List (List Nat)) (r : RR) : SRule := ⟨nameAt N r.lhs, r.rhs.map (nameAt N), precAtN N r.prec⟩

theorem getD_idxOf (N : List (List Nat)) (m : List Nat) (h : m ∈ N) : N.getD (N.idxOf m) [] = m := by
  have h1 : N.idxOf m < N.length := List.idxOf_lt_length_iff.2 h
  rw [List.getD_eq_getElem?_getD, List.getElem?_eq_getElem h1, Option.getD_some, List.getElem_idxOf h1]

theorem enc_filter (pos : Sym → Nat) (a : List El) : (a.map (encEl pos)).filter (fun e => !isPrec e) = (elFilter a).map (encEl pos) := by
  induction a with
  | nil => rfl
  | cons e a ih =>
    cases e with
    | sym x =>
      have e1 : elFilter (.sym x :: a) = .sym x :: elFilter a := rfl
      rw [e1, List.map_cons, List.map_cons, ← ih]; rfl
    | action b ps =>
      have e1 : elFilter (.action b ps :: a) = .action b ps :: elFilter a := rfl
      rw [e1, List.map_cons, List.map_cons, ← ih]; rfl
    | prec x =>
      have e1 : elFilter (.prec x :: a) = elFilter a := rfl
      rw [e1, List.map_cons, ← ih]; rfl

theorem precOnly_filter (a : List El) : precOnly a = true ↔ elFilter a = [] := by
  unfold precOnly elFilter
  rw [List.filter_eq_nil_iff, List.all_eq_true]
  refine forall_congr' fun e => forall_congr' fun _ => ?_
  cases e <;> simp

theorem rhsKeys_filter (k : Nat) (a : List El) : rhsKeys k (elFilter a) = rhsKeys k a := by
  induction a generalizing k with
  | nil => rfl
  | cons e a ih =>
    cases e with
    | sym x =>
      have : elFilter (.sym x :: a) = .sym x :: elFilter a := rfl
      rw [this, rhsKeys, rhsKeys, ih]
    | prec x =>
      have : elFilter (.prec x :: a) = elFilter a := rfl
      rw [this, rhsKeys, ih]
    | action b ps =>
      have : elFilter (.action b ps :: a) = .action b ps :: elFilter a := rfl
      rw [this, rhsKeys, rhsKeys, ih]
      have e : precOnly (elFilter a) = precOnly a := by
        rw [Bool.eq_iff_iff, precOnly_filter, precOnly_filter]
        unfold elFilter
        rw [List.filter_filter]
        simp
      rw [e]

/-- all actions have a symbol, or all but the last element -/
theorem rhs_names (N : List (List Nat)) (pos : Sym → Nat) (es : List El) (hpos : ∀ x, El.sym x ∈ es → N.getD (pos x) [] = x.key)
    (hnp : ∀ x, El.prec x ∉ es) (rs : List RSym) (k m : Nat)
    (hr : rs.map backElem = es.map (encEl pos)) (hl : ∀ b ps, es.getLast? ≠ some (.action b ps) )
    (hg : rs.filter RSym.isGen = (List.range m).map fun i => .gen (k + i + 1)) :
    rs.map (nameAt N) = rhsKeys k es ∧ m = actionsIn es := by
  induction es generalizing rs k m with
  | nil =>
    have : rs = [] := by simpa using hr
    subst this
    have : m = 0 := by
      have := congrArg List.length hg
      simpa using this.symm
    subst this
    exact ⟨rfl, rfl⟩
  | cons e es ih =>
    cases rs with
    | nil => simp at hr
    | cons r rs =>
      simp only [List.map_cons, List.cons.injEq] at hr
      obtain ⟨hr1, hr2⟩ := hr
      have hpos' : ∀ x, El.sym x ∈ es → N.getD (pos x) [] = x.key := fun x hx => hpos x (by simp [hx])
      have hnp' : ∀ x, El.prec x ∉ es := fun x hx => hnp x (by simp [hx])
      cases e with
      | prec x => exact absurd (by simp) (hnp x)
      | sym x =>
        cases r with
        | gen j => cases hr1
        | user i =>
          have hi : i = pos x := by simpa [backElem, encEl] using hr1
          have hl' : ∀ b ps, es.getLast? ≠ some (.action b ps) := by
            intro b ps h
            have := hl b ps
            cases es with
            | nil => cases h
            | cons e' es' => exact this (by rw [List.getLast?_cons_cons]; exact h)
          have hg' : rs.filter RSym.isGen = (List.range m).map fun i => .gen (k + i + 1) := by simpa [RSym.isGen] using hg
          obtain ⟨h1, h2⟩ := ih hpos' hnp' rs k m hr2 hl' hg'
          refine ⟨?_, ?_⟩
          · rw [List.map_cons, h1, rhsKeys]
            simp only [nameAt, hi]
            rw [hpos x (by simp)]
          · rw [h2]; simp [actionsIn]
      | action b ps =>
        cases r with
        | user i => cases hr1
        | gen j =>
          have hne : es ≠ [] := by
            rintro rfl
            exact hl b ps rfl
          have hl' : ∀ b ps, es.getLast? ≠ some (.action b ps) := by
            intro b' ps' h
            have := hl b' ps'
            cases es with
            | nil => cases h
            | cons e' es' => exact this (by rw [List.getLast?_cons_cons]; exact h)
          have hm : m ≠ 0 := by
            rintro rfl
            simp [RSym.isGen] at hg
          obtain ⟨m', rfl⟩ := Nat.exists_eq_succ_of_ne_zero hm
          have hg2 : RSym.gen j = .gen (k + 1) ∧ rs.filter RSym.isGen = (List.range m').map fun i => .gen (k + 1 + i + 1) := by
            rw [List.filter_cons_of_pos rfl, List.range_succ_eq_map, List.map_cons, List.map_map] at hg
            rw [List.cons.injEq] at hg
            refine ⟨by simpa using hg.1, ?_⟩
            rw [hg.2]
            refine List.map_congr_left ?_
            intro i _
            simp only [Function.comp_apply]
            congr 1; omega
          obtain ⟨h1, h2⟩ := ih hpos' hnp' rs (k + 1) m' hr2 hl' hg2.2
          have hp : precOnly es = false := by
            rw [Bool.eq_false_iff]
            intro h
            unfold precOnly at h
            rw [List.all_eq_true] at h
            obtain ⟨e', es', rfl⟩ := List.exists_cons_of_ne_nil hne
            have := h e' (by simp)
            cases e' with
            | prec x => exact hnp' x (by simp)
            | sym x => simp at this
            | action => simp at this
          refine ⟨?_, ?_⟩
          · rw [List.map_cons, h1, rhsKeys, hp]
            simp only [Bool.false_eq_true, if_false]
            cases hg2.1
            rfl
          · rw [h2]; simp [actionsIn]

theorem actionsIn_filter (a : List El) : actionsIn (elFilter a) = actionsIn a := by
  unfold actionsIn elFilter
  rw [List.filter_filter]
  congr 1
  refine List.filter_congr ?_
  intro e _
  cases e <;> rfl

theorem innerActions_filter (a : List El) : innerActions (elFilter a) = innerActions a := by
  unfold innerActions
  rw [actionsIn_filter]
  have : elFilter (elFilter a) = elFilter a := by
    unfold elFilter
    rw [List.filter_filter]
    simp
  rw [this]

theorem elFilter_noPrec (a : List El) (x : Sym) : El.prec x ∉ elFilter a := by
  intro h
  have := (List.mem_filter.1 h).2
  simp at this

theorem elFilter_self (a : List El) (h : ∀ x, El.prec x ∉ a) : elFilter a = a := by
  unfold elFilter
  rw [List.filter_eq_self]
  intro e he
  cases e with
  | prec x => exact absurd he (h x)
  | sym => rfl
  | action => rfl

theorem innerActions_open (a : List El) (hl : ∀ b ps, (elFilter a).getLast? ≠ some (.action b ps)) : innerActions a = actionsIn a := by
  unfold innerActions
  split
  · rename_i b ps r h
    exfalso
    refine hl b ps ?_
    rw [← List.head?_reverse]
    rw [h]; rfl
  · rfl

/-- a final action has no symbol -/
theorem rhsKeys_last (es : List El) (b : Bool) (ps : List Part) : ∀ (k : Nat), (∀ x, El.prec x ∉ es) →
    ∀ (rs : List RSym) (N : List (List Nat)) (pos : Sym → Nat) (m : Nat), (∀ x, El.sym x ∈ es → N.getD (pos x) [] = x.key) →
    rs.map backElem = es.map (encEl pos) → rs.filter RSym.isGen = (List.range m).map (fun i => .gen (k + i + 1)) →
    rs.map (nameAt N) = rhsKeys k (es ++ [.action b ps]) ∧ m = actionsIn es := by
  induction es with
  | nil =>
    intro k hnp rs N pos m hpos hr hg
    have : rs = [] := by simpa using hr
    subst this
    have : m = 0 := by
      have := congrArg List.length hg
      simpa using this.symm
    subst this
    exact ⟨rfl, rfl⟩
  | cons e es ih =>
    intro k hnp rs N pos m hpos hr hg
    cases rs with
    | nil => simp at hr
    | cons r rs =>
      simp only [List.map_cons, List.cons.injEq] at hr
      obtain ⟨hr1, hr2⟩ := hr
      have hpos' : ∀ x, El.sym x ∈ es → N.getD (pos x) [] = x.key := fun x hx => hpos x (by simp [hx])
      have hnp' : ∀ x, El.prec x ∉ es := fun x hx => hnp x (by simp [hx])
      cases e with
      | prec x => exact absurd (by simp) (hnp x)
      | sym x =>
        cases r with
        | gen j => cases hr1
        | user i =>
          have hi : i = pos x := by simpa [backElem, encEl] using hr1
          have hg' : rs.filter RSym.isGen = (List.range m).map fun i => .gen (k + i + 1) := by simpa [RSym.isGen] using hg
          obtain ⟨h1, h2⟩ := ih k hnp' rs N pos m hpos' hr2 hg'
          refine ⟨?_, ?_⟩
          · rw [List.map_cons, h1, List.cons_append, rhsKeys]
            simp only [nameAt, hi]
            rw [hpos x (by simp)]
          · rw [h2]; simp [actionsIn]
      | action b' ps' =>
        cases r with
        | user i => cases hr1
        | gen j =>
          have hm : m ≠ 0 := by
            rintro rfl
            simp [RSym.isGen] at hg
          obtain ⟨m', rfl⟩ := Nat.exists_eq_succ_of_ne_zero hm
          have hg2 : RSym.gen j = .gen (k + 1) ∧ rs.filter RSym.isGen = (List.range m').map fun i => .gen (k + 1 + i + 1) := by
            rw [List.filter_cons_of_pos rfl, List.range_succ_eq_map, List.map_cons, List.map_map] at hg
            rw [List.cons.injEq] at hg
            refine ⟨by simpa using hg.1, ?_⟩
            rw [hg.2]
            refine List.map_congr_left ?_
            intro i _
            simp only [Function.comp_apply]
            congr 1; omega
          obtain ⟨h1, h2⟩ := ih (k + 1) hnp' rs N pos m' hpos' hr2 hg2.2
          refine ⟨?_, ?_⟩
          · rw [List.map_cons, h1, List.cons_append, rhsKeys]
            rw [if_neg (by simp [precOnly])]
            cases hg2.1
            rfl
          · rw [h2]; simp [actionsIn]

theorem precOf_enc (pos : Sym → Nat) (a : List El) : Spec.precOfAlt (a.map (encEl pos)) = (precNamed a).map pos := by
  unfold Spec.precOfAlt precNamed
  rw [List.filterMap_map, ← List.getLast?_map, List.map_filterMap]
  congr 1
  refine List.filterMap_congr ?_
  intro e _
  cases e <;> rfl

theorem precNamed_mem (a : List El) (x : Sym) (h : precNamed a = some x) : El.prec x ∈ a := by
  unfold precNamed at h
  have := List.mem_of_getLast? h
  obtain ⟨e, he, hx⟩ := List.mem_filterMap.1 this
  cases e with
  | prec y => simp at hx; rw [← hx]; exact he
  | sym => simp at hx
  | action => simp at hx

theorem genNo_block (new : List RR) (k : Nat) (l : List Nat) (he : ∀ x ∈ new, x.rhs = [] ∧ x.prec = .zero ∧ x.lhs.isGen = true)
    (h : new.filterMap (fun r => r.lhs.genNo) ++ l = List.range' (k + 1) (new.length + l.length)) :
    new = news k new.length ∧ l = List.range' (k + new.length + 1) l.length := by
  have e1 : (new.filterMap (fun r => r.lhs.genNo)).length = new.length := by
    clear h
    induction new with
    | nil => rfl
    | cons r new ih =>
      obtain ⟨_, _, h3⟩ := he r (by simp)
      rcases r with ⟨lh, rh, pr⟩
      cases lh with
      | user => cases h3
      | gen j =>
        rw [List.filterMap_cons_some (f := fun r : RR => r.lhs.genNo) (b := j) rfl]
        simp [ih fun x hx => he x (by simp [hx])]
  rw [← List.range'_append_1, ] at h
  obtain ⟨h1, h2⟩ := List.append_inj h (by rw [e1]; simp)
  refine ⟨?_, by rw [show k + new.length + 1 = k + 1 + new.length by omega]; exact h2⟩
  clear h h2 e1 l
  induction new generalizing k with
  | nil => rfl
  | cons r new ih =>
    obtain ⟨g1, g2, h3⟩ := he r (by simp)
    rcases r with ⟨lh, rh, pr⟩
    cases lh with
    | user => cases h3
    | gen j =>
      rw [List.filterMap_cons_some (f := fun r : RR => r.lhs.genNo) (b := j) rfl, List.length_cons, List.range'_succ, List.cons.injEq] at h1
      obtain ⟨rfl, h1⟩ := h1
      have := ih (k + 1) (fun x hx => he x (by simp [hx])) h1
      simp only at g1 g2
      rw [g1, g2, List.length_cons]
      conv => lhs; rw [this]
      unfold news
      rw [List.range_succ_eq_map, List.map_cons, List.map_map]
      congr 1
      refine List.map_congr_left ?_
      intro i _
      simp only [Function.comp_apply]
      congr 2; omega

/-- the symbols of the file have the positions `pos` -/
def PosOf (N : List (List Nat)) (pos : Sym → Nat) (alts : List Alt) : Prop :=
  ∀ a ∈ alts, N.getD (pos a.lhs) [] = a.lhs.key ∧ (∀ x, El.sym x ∈ a.rhs → N.getD (pos x) [] = x.key) ∧
    (∀ x, El.prec x ∈ a.rhs → N.getD (pos x) [] = x.key)

theorem block_rules (N : List (List Nat)) (pos : Sym → Nat) (a : Alt) (new : List RR) (r : RR) (k : Nat) (hp : PosOf N pos [a])
    (h : ReadAs (encAlt pos a) new r) (hn : new = news k new.length) :
    (new ++ [r]).map (ruleAt N) = altRules k a ∧ new.length = innerActions a.rhs := by
  obtain ⟨p1, p2, p3⟩ := hp a (by simp)
  have hg : r.rhs.filter RSym.isGen = (List.range new.length).map fun i => .gen (k + i + 1) := by
    rw [h.gens]
    conv => lhs; rw [hn]
    simp [news]
  have hpos : ∀ x, El.sym x ∈ elFilter a.rhs → N.getD (pos x) [] = x.key := fun x hx => p2 x (List.mem_filter.1 hx).1
  have key : r.rhs.map (nameAt N) = rhsKeys k a.rhs ∧ new.length = innerActions a.rhs := by
    rcases h.rhs with ⟨h1, h2⟩ | h1
    · simp only [encAlt] at h1 h2
      rw [enc_filter] at h1 h2
      have hl : ∀ b ps, (elFilter a.rhs).getLast? ≠ some (.action b ps) := by
        intro b ps hh
        rw [List.getLast?_map, hh] at h2
        exact h2 rfl
      obtain ⟨e1, e2⟩ := rhs_names N pos (elFilter a.rhs) hpos (elFilter_noPrec a.rhs) r.rhs k new.length h1 hl hg
      rw [rhsKeys_filter] at e1
      rw [actionsIn_filter] at e2
      exact ⟨e1, by rw [e2, innerActions_open _ hl]⟩
    · simp only [encAlt] at h1
      rw [enc_filter] at h1
      rcases List.eq_nil_or_concat (elFilter a.rhs) with h0 | ⟨es, e, h0⟩
      · rw [h0] at h1
        have := congrArg List.length h1
        simp at this
      · rw [List.concat_eq_append] at h0
        rw [h0, List.map_append] at h1
        obtain ⟨g1, g2⟩ := List.append_inj' h1 rfl
        cases e with
        | sym x => simp [encEl] at g2
        | prec x => simp [encEl] at g2
        | action b ps =>
          have hnp : ∀ x, El.prec x ∉ es := fun x hx => elFilter_noPrec a.rhs x (by rw [h0]; simp [hx])
          obtain ⟨e1, e2⟩ := rhsKeys_last es b ps k hnp r.rhs N pos new.length (fun x hx => hpos x (by rw [h0]; simp [hx])) g1 hg
          rw [← h0, rhsKeys_filter] at e1
          refine ⟨e1, ?_⟩
          rw [e2, ← innerActions_filter, h0]
          have hs := elFilter_self (es ++ [.action b ps]) (by intro x hx; simp at hx; exact hnp x hx)
          unfold innerActions
          rw [hs, List.reverse_append]
          simp [actionsIn]
  refine ⟨?_, key.2⟩
  unfold altRules
  rw [List.map_append, ← key.2]
  refine congr (congrArg HAppend.hAppend ?_) ?_
  · conv => lhs; rw [hn]
    unfold news
    rw [List.map_map]
    rfl
  · simp only [List.map_cons, List.map_nil, ruleAt]
    rw [key.1, h.lhs, h.prec]
    simp only [encAlt, nameAt, p1]
    rw [precOf_enc]
    cases hq : precNamed a.rhs with
    | none => rfl
    | some x =>
      simp only [Option.map_some, precEnc, precAtN, Option.elim_some]
      rw [p3 x (precNamed_mem _ _ hq)]

theorem blocks_rules (N : List (List Nat)) (pos : Sym → Nat) (alts : List Alt) : ∀ (blocks : List (List RR × RR)) (k g : Nat), PosOf N pos alts →
    List.Forall₂ (fun p b => ReadAs p b.1 b.2) (alts.map (encAlt pos)) blocks →
    ((blocks.flatMap fun b => b.1 ++ [b.2]).filterMap fun r => r.lhs.genNo) = List.range' (k + 1) g →
    (blocks.flatMap fun b => b.1 ++ [b.2]).map (ruleAt N) = rulesFrom k alts := by
  induction alts with
  | nil =>
    intro blocks k g _ hf _
    cases hf
    rfl
  | cons a as ih =>
    intro blocks k g hp hf hg
    rw [List.map_cons] at hf
    cases hf with
    | @cons _ b _ bs h1 h2 =>
      rw [List.flatMap_cons, List.filterMap_append, List.filterMap_append] at hg
      have hu : List.filterMap (fun r => r.lhs.genNo) [b.2] = [] := by
        have := h1.lhs
        simp [this, RSym.genNo]
      rw [hu, List.append_nil] at hg
      have hlen : (b.1.filterMap fun r => r.lhs.genNo).length = b.1.length := by
        have he := h1.empty
        clear hg h1
        generalize b.1 = new at *
        induction new with
        | nil => rfl
        | cons r new ih =>
          obtain ⟨_, _, h3⟩ := he r (by simp)
          rcases r with ⟨lh, rh, pr⟩
          cases lh with
          | user => cases h3
          | gen j =>
            rw [List.filterMap_cons_some (f := fun r : RR => r.lhs.genNo) (b := j) rfl]
            simp [ih fun x hx => he x (by simp [hx])]
      have hgl : g = b.1.length + ((bs.flatMap fun b => b.1 ++ [b.2]).filterMap fun r => r.lhs.genNo).length := by
        have := congrArg List.length hg
        rw [List.length_append, List.length_range', hlen] at this
        exact this.symm
      rw [hgl] at hg
      obtain ⟨g1, g2⟩ := genNo_block b.1 k _ h1.empty hg
      obtain ⟨r1, r2⟩ := block_rules N pos a b.1 b.2 k (fun x hx => hp x (by simp at hx; simp [hx])) h1 g1
      rw [List.flatMap_cons, List.map_append, r1, rulesFrom]
      rw [ih bs (k + b.1.length) _ (fun x hx => hp x (by simp [hx])) h2 g2, r2]

end Verif.Byacc.Rd
