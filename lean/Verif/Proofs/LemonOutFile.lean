import Verif.Lemon.OutFile
import Verif.Spec.LemonOut
import Verif.Proofs.LemonReduces
import Verif.Proofs.LemonSound
/-
The report of lemon: text and meaning.
-/
set_option autoImplicit false
namespace Verif.Lemon
open OutSpec Verif.Spec

theorem out_sym (I : OutIn) (X : Nat) : I.sym X = symText I.g I.name X := by
  unfold OutIn.sym symText Gram.isMT Gram.nlow
  simp only [Bool.and_eq_true, decide_eq_true_eq]
  rfl

/-- a list printed by its positions -/
theorem range_print (f : Nat → List Nat) (d : Option Nat) (l : List Nat) : ∀ k, (List.range (l.length + 1)).flatMap (fun i =>
      (if d = some (k + i) then cstr " *" else []) ++ (l[i]?.map fun X => 32 :: f X).getD []) =
    match d with
    | none => l.flatMap fun X => 32 :: f X
    | some d => if k ≤ d ∧ d ≤ k + l.length then (l.take (d - k)).flatMap (fun X => 32 :: f X) ++ cstr " *" ++ (l.drop (d - k)).flatMap (fun X => 32 :: f X)
      else l.flatMap fun X => 32 :: f X := by
  induction l with
  | nil =>
    intro k
    cases d with
    | none => simp
    | some d =>
      simp only [List.length_nil, Nat.zero_add, List.range_one, List.flatMap_cons, List.flatMap_nil, Nat.add_zero]
      by_cases h : d = k
      · simp [h]
      · have : ¬ (k ≤ d ∧ d ≤ k) := by omega
        simp [h, this]
  | cons X l ih =>
    intro k
    rw [List.length_cons, List.range_succ_eq_map, List.flatMap_cons, List.flatMap_map]
    have hk : (fun i => (if d = some (k + (i + 1)) then cstr " *" else []) ++ ((X :: l)[i + 1]?.map fun X => 32 :: f X).getD []) = (fun i => (if d = some (k + 1 + i) then cstr " *" else []) ++ (l[i]?.map fun X => 32 :: f X).getD []) := by
      funext i
      rw [List.getElem?_cons_succ, show k + (i + 1) = k + 1 + i by omega]
    have := ih (k + 1)
    show (if d = some (k + 0) then cstr " *" else []) ++ (32 :: f X) ++ (List.range (l.length + 1)).flatMap _ = _
    rw [show ((fun a : Nat => (if d = some (k + a.succ) then cstr " *" else []) ++ ((X :: l)[a.succ]?.map fun X => 32 :: f X).getD [])) = _ from hk, this]
    cases d with
    | none => simp
    | some d =>
      simp only [Option.some.injEq, Nat.add_zero, List.length_cons]
      by_cases h : d = k
      · subst h
        have h1 : ¬ (d + 1 ≤ d ∧ d ≤ d + 1 + l.length) := by omega
        simp only [if_true, h1, if_false]
        rw [if_pos (by (try simp only [List.length_cons]); omega)]
        simp
      · by_cases h2 : k + 1 ≤ d ∧ d ≤ k + 1 + l.length
        · have e : d - k = (d - (k + 1)) + 1 := by omega
          rw [if_neg h, if_pos h2, if_pos (by (try simp only [List.length_cons]); omega), e]
          simp
        · rw [if_neg h, if_neg h2, if_neg (by (try simp only [List.length_cons]); omega)]
          simp

theorem out_rule (I : OutIn) (r : Nat) : I.rulePrint r none = ruleText I.g I.name r := by
  unfold OutIn.rulePrint ruleText symsText
  have := range_print I.sym none (I.g.rule r).rhs 0
  simp only [Nat.zero_add] at this
  rw [this, out_sym]
  congr 1
  exact congrArg (fun f => List.flatMap f (I.g.rule r).rhs) (funext fun X => by rw [out_sym])

theorem out_item (I : OutIn) {it : Item} (h : it.2 ≤ (I.g.rule it.1).rhs.length) : I.configLine it = itemLine I.g I.name it := by
  obtain ⟨r, d⟩ := it
  simp only at h
  unfold OutIn.configLine itemLine OutIn.rulePrint symsText
  have := range_print I.sym (some d) (I.g.rule r).rhs 0
  simp only [Nat.zero_add, Nat.zero_le, true_and, if_pos h, Nat.sub_zero] at this
  simp only
  rw [this, out_sym]
  have e : (fun X => 32 :: I.sym X) = fun X => 32 :: symText I.g I.name X := funext fun X => by rw [out_sym]
  rw [e]
  simp only [List.append_assoc]
  rfl

/-- the entry for an action -/
def outDoes (g : Gram) (order : List Nat) (a : Act) : Option Does :=
  match a.type with
  | .SHIFT => some (.shift (order.idxOf a.x))
  | .REDUCE => some (.reduce a.x)
  | .SHIFTREDUCE => some (.shiftReduce a.x)
  | .ACCEPT => some .accept
  | .ERROR => some .error
  | .SRCONFLICT | .RRCONFLICT => some (.conflictReduce a.x)
  | .SSCONFLICT => some (.conflictShift (order.idxOf a.x))
  | .SH_RESOLVED => some (.droppedShift (order.idxOf a.x))
  | .RD_RESOLVED => some (.droppedReduce a.x)
  | .NOT_USED => none

/-- the entries shown for a state -/
def outEntries (I : OutIn) (s : Nat) (l : List (Act × Nat)) : List Entry :=
  l.filterMap fun p => ((outDoes I.g I.order p.1).filter fun d => I.showPrecedenceConflict || !d.dropped).map fun d => ⟨p.1.sp, d, I.spOpt s p.2⟩

theorem out_action (I : OutIn) (a : Act) : I.actionText a =
    ((outDoes I.g I.order a).filter fun d => I.showPrecedenceConflict || !d.dropped).map
      fun d => padLeft 30 (symText I.g I.name a.sp) ++ d.text I.g I.name := by
  obtain ⟨sp, ty, x, id⟩ := a
  unfold OutIn.actionText outDoes
  cases ty <;> simp only [Option.filter, Does.dropped, Does.text, numberedRule, out_sym, out_rule, Bool.not_false, Bool.or_true, if_true, Option.map_some,
    List.append_assoc, Option.map_none, Bool.not_true, Bool.or_false]
  · cases I.showPrecedenceConflict <;> simp
  · cases I.showPrecedenceConflict <;> simp

theorem out_entries (I : OutIn) (s : Nat) (l : List (Act × Nat)) : l.flatMap (I.actionLine s) = (outEntries I s l).flatMap (Entry.line I.g I.name) := by
  induction l with
  | nil => rfl
  | cons p l ih =>
    rw [List.flatMap_cons, ih]
    unfold outEntries
    rw [List.filterMap_cons]
    unfold OutIn.actionLine
    rw [out_action]
    cases (outDoes I.g I.order p.1).filter fun d => I.showPrecedenceConflict || !d.dropped with
    | none => rfl
    | some d =>
      simp only [Option.map_some, List.flatMap_cons]
      congr 1
      unfold Entry.line
      simp only [out_sym]
      rfl

variable {I : OutIn} {fb : Nat → Option Nat} {compress : Bool} {F : List TSet} {A : Acts} {T : Tables}

theorem outDoes_number (u : Usable I.g) (h : Generated I.g fb compress I.m F A I.cs T) (a : Act) :
    (outDoes I.g I.order a).bind (Does.number I.g T a.sp) =
      if a.type.live then some (actNum I.g I.cs.length I.order a.sp (a.type, a.x)) else none := by
  obtain ⟨c1, c2, c3, c4, c5, _⟩ := consts u h
  obtain ⟨sp, ty, x, id⟩ := a
  unfold outDoes AType.live
  cases ty <;> simp [Does.number, actNum, c1, c2, c4, c5]
  split_ifs <;> rfl

theorem out_given (u : Usable I.g) (h : Generated I.g fb compress I.m F A I.cs T) (s X : Nat) (l : List (Act × Nat)) :
    ((outEntries I s l).filter fun e => e.sym = X).filterMap (fun e => e.does.number I.g T X) =
      (onSym (l.map Prod.fst) X).map (actNum I.g I.cs.length I.order X) := by
  induction l with
  | nil => rfl
  | cons p l ih =>
    have hn := outDoes_number u h p.1
    unfold outEntries at ih ⊢
    unfold onSym at ih ⊢
    rw [List.filterMap_cons, List.map_cons, List.filter_cons]
    by_cases hX : p.1.sp = X
    · simp only [hX, beq_self_eq_true, Bool.and_true]
      rw [hX] at hn
      cases hd : outDoes I.g I.order p.1 with
      | none =>
        rw [hd] at hn
        simp only [Option.bind_none] at hn
        split_ifs at hn with h1
        simp only [Option.filter_none, Option.map_none]
        rw [ih]
        simp [h1]
      | some d =>
        rw [hd] at hn
        simp only [Option.bind_some] at hn
        simp only [Option.filter_some]
        by_cases hs : (I.showPrecedenceConflict || !d.dropped) = true
        · rw [if_pos hs]
          simp only [Option.map_some, List.filter_cons, decide_true, if_true, List.filterMap_cons, hn]
          split_ifs with h1
          · simp [ih]
          · exact ih
        · rw [if_neg hs]
          have hx : d.number I.g T X = none := by
            cases d <;> simp [Does.dropped] at hs <;> rfl
          rw [hx] at hn
          split_ifs at hn with h1
          simp only [Option.map_none]
          rw [ih]
          simp [h1]
    · have hb : (p.1.sp == X) = false := by simpa using hX
      simp only [hb, Bool.and_false, Bool.false_eq_true, if_false]
      rw [← ih]
      cases (outDoes I.g I.order p.1).filter fun d => I.showPrecedenceConflict || !d.dropped with
      | none => rfl
      | some d => simp [hX]

/-- the actions on `{default}` are reductions -/
theorem dflt_type {g : Gram} {m : Mach} {cs : List CState} (u : Usable g) (h : Prepared g compress m F A cs) {s : Nat} (hs : s < m.sts.length) {e : AType × Nat}
    (h1 : e ∈ onSym (cs.getD s ⟨[], none⟩).acts g.nsym) : e.1 = .REDUCE := by
  have hok := h.analysed.ok u.wf u.items
  obtain ⟨hr, _⟩ := resolved_of_findActions u.wf u.start u.items hok h.small h.actions hs
  have hspec := findActions_spec u.wf u.start u.items (precsyms g) (F := F) hok h.small
  rw [h.actions] at hspec
  have hAl : A.acts.length = m.sts.length := hspec.1
  cases hc : compress with
  | true =>
    obtain ⟨fuel, hf⟩ := h.compressed hc
    obtain ⟨_, k1, _⟩ := compressTables_get hf (s := s) (by rw [hAl]; exact hs)
    obtain ⟨j1, _⟩ := elideAll_spec u.wf k1
    have hsp : ∀ a ∈ (compressState g (A.acts.getD s [])).acts, a.sp = g.nsym → a.type = .REDUCE := by
      intro a ha he
      rcases compressState_spec u.wf hr with ⟨_, e, _⟩ | ⟨r, _, _, _, _, _, _, _, _, e, _, _⟩
      · rw [e] at ha; exact absurd he (hr.ne_nsym u.wf a ha)
      · rcases e a ha with h1 | ⟨b, hb, h1⟩
        · exact h1.2
        · exact absurd (h1.symm.trans he) (hr.ne_nsym u.wf b hb)
    rw [elided_ty j1] at h1
    · obtain ⟨b, hb, _, h6, h7⟩ := mem_onSym.mp h1
      obtain ⟨c, hc, rfl⟩ := List.mem_map.mp hb
      rw [shiftReduce_sp] at h6
      have := hsp c hc h6
      rw [← h7]
      unfold shiftReduce
      simp [this]
    · intro b hb he
      obtain ⟨c, hc, rfl⟩ := List.mem_map.mp hb
      rw [shiftReduce_sp] at he
      have := hsp c hc he
      unfold shiftReduce
      simp [this]
  | false =>
    obtain ⟨a, ha, _, h3, _⟩ := mem_onSym.mp h1
    have hcs := h.uncompressed hc
    rw [hcs] at ha
    unfold Lemon.uncompressed at ha
    rw [List.getD_eq_getElem?_getD, List.getElem?_map, List.getElem?_eq_getElem (by omega)] at ha
    have := hr.ne_nsym u.wf a (by rw [List.getD_eq_getElem?_getD, List.getElem?_eq_getElem (by omega)]; exact ha)
    exact absurd h3 this

theorem intercalate_concat (s x : List Nat) : ∀ l : List (List Nat), l ≠ [] → List.intercalate s (l ++ [x]) = List.intercalate s l ++ s ++ x
  | [], h => absurd rfl h
  | [a], _ => by simp [List.intercalate]
  | a :: b :: l, _ => by
    have := intercalate_concat s x (b :: l) (by simp)
    simp only [List.intercalate, List.cons_append, List.intersperse_cons₂, List.flatten_cons] at this ⊢
    rw [this]
    simp

/-- the names of symbols without content in lines -/
theorem out_plain (I : OutIn) (hne : ∀ i, I.name i ≠ []) : ∀ (l : List Nat) (t0 : List Nat) (cur : List (List Nat)), (∀ x ∈ cur, x ≠ []) →
    ((List.intercalate [32] cur).length ≤ 76 ∨ ∃ w, cur = [w]) →
    ∃ L : List (List (List Nat)), L.flatten = cur ++ (l.filter fun i => !I.content i).map I.name ∧ (∀ x ∈ L, x ≠ []) ∧
      (∀ x ∈ L, (List.intercalate [32] x).length ≤ 76 ∨ ∃ w, x = [w]) ∧
      (let r := I.syntaxOnly l (t0 ++ List.intercalate [32] cur, (List.intercalate [32] cur).length); r.1 ++ if r.2 > 0 then [10] else []) =
        t0 ++ L.flatMap (fun x => List.intercalate [32] x ++ [10]) := by
  have hpos : ∀ cur : List (List Nat), (∀ x ∈ cur, x ≠ []) → cur ≠ [] → 0 < (List.intercalate [32] cur).length := by
    intro cur hc h
    cases cur with
    | nil => exact absurd rfl h
    | cons a cur =>
      have := List.length_pos_of_ne_nil (hc a (by simp))
      cases cur with
      | nil => simpa [List.intercalate] using this
      | cons b cur => simp only [List.intercalate, List.intersperse_cons₂, List.flatten_cons, List.length_append]; omega
  intro l
  induction l with
  | nil =>
    intro t0 cur hc hb
    unfold OutIn.syntaxOnly
    by_cases h : cur = []
    · subst h
      exact ⟨[], rfl, by simp, by simp, by simp [List.intercalate]⟩
    · refine ⟨[cur], by simp, by simpa using h, by simpa using hb, ?_⟩
      simp [hpos cur hc h]
  | cons i l ih =>
    intro t0 cur hc hb
    unfold OutIn.syntaxOnly
    cases hi : I.content i with
    | true =>
      obtain ⟨L, h1, h2, h3, h4⟩ := ih t0 cur hc hb
      refine ⟨L, by simpa [hi] using h1, h2, h3, ?_⟩
      simpa using h4
    | false =>
      have e1 : ∀ w : List Nat, List.intercalate [32] [w] = w := by intro w; simp [List.intercalate]
      simp only [Bool.false_eq_true, if_false]
      by_cases h : cur = []
      · subst h
        obtain ⟨L, h1, h2, h3, h4⟩ := ih t0 [I.name i] (by simpa using hne i) (.inr ⟨_, rfl⟩)
        refine ⟨L, by simpa [hi] using h1, h2, h3, ?_⟩
        rw [e1] at h4
        simpa [List.intercalate] using h4
      · have hp := hpos cur hc h
        by_cases hw : (List.intercalate [32] cur).length + (I.name i).length > 75
        · obtain ⟨L, h1, h2, h3, h4⟩ := ih (t0 ++ List.intercalate [32] cur ++ [10]) [I.name i] (by simpa using hne i) (.inr ⟨_, rfl⟩)
          refine ⟨cur :: L, by rw [List.flatten_cons, h1]; simp [hi], by simpa using ⟨h, h2⟩, by simpa using ⟨hb, h3⟩, ?_⟩
          rw [e1] at h4
          simp only [hp, hw, and_self, gt_iff_lt, if_true, Nat.lt_irrefl, if_false, Nat.zero_add]
          simpa using h4
        · obtain ⟨L, h1, h2, h3, h4⟩ := ih t0 (cur ++ [I.name i])
            (by intro x hx; rcases List.mem_append.mp hx with hx | hx; exacts [hc x hx, by rw [List.mem_singleton.mp hx]; exact hne i])
            (by left; rw [intercalate_concat _ _ _ h]; simp only [List.length_append, List.length_cons, List.length_nil]; omega)
          refine ⟨L, by rw [h1]; simp [hi], h2, h3, ?_⟩
          rw [intercalate_concat _ _ _ h] at h4
          simp only [hp, hw, and_false, gt_iff_lt, if_false, if_true]
          simpa [Nat.add_assoc, Nat.add_comm 1] using h4

theorem out_ruler : dashes = ruler := by decide

theorem flatMap_range (f : Nat → List Nat) (n : Nat) : (List.range n).flatMap f = ((List.range n).map f).flatten := by
  rw [List.flatMap_def]

end Verif.Lemon
