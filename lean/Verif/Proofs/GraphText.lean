import Verif.Byacc.Graph
import Verif.Spec.ByaccGraph
import Verif.Proofs.LR0
set_option autoImplicit false
namespace Verif.Byacc.Gr
open Spec

variable {g : Gram} {G : CFG}

theorem ritem_rule (hp : Packs g G) {r A : Nat} {α : List Nat} (hr : G.rules[r]? = some (A, α)) :
    ∃ rest, g.ritem.drop (g.rhs (r + 2)) = α.map (fun (x : Nat) => (x : Int)) ++ (-((r + 2 : Nat) : Int)) :: rest := by
  have hlt : g.rhs (r + 2) + α.length < g.ritem.length := by
    have := pos_lt hp (r := r) (d := α.length) ⟨A, α, hr, Nat.le_refl _⟩
    exact this
  have ht : (g.ritem.drop (g.rhs (r + 2))).take (α.length + 1) = α.map (fun (x : Nat) => (x : Int)) ++ [-((r + 2 : Nat) : Int)] := by
    apply List.ext_getElem?
    intro i
    rw [List.getElem?_take]
    have hit : ∀ i, i ≤ α.length → (g.ritem.drop (g.rhs (r + 2)))[i]? = some (g.item (g.rhs (r + 2) + i)) := by
      intro i hi
      rw [List.getElem?_drop, Gram.item, List.getD_eq_getElem?_getD, List.getElem?_eq_getElem (by omega)]
      rfl
    by_cases h1 : i < α.length
    · rw [if_pos (by omega), hit i (by omega), List.getElem?_append_left (by simpa using h1), List.getElem?_map, List.getElem?_eq_getElem h1,
        hp.sym r A α i α[i] hr (List.getElem?_eq_getElem h1)]
      rfl
    · by_cases h2 : i = α.length
      · subst h2
        rw [if_pos (by omega), hit _ (Nat.le_refl _), hp.term r A α hr, List.getElem?_append_right (by simp)]
        simp
      · rw [if_neg (by omega), List.getElem?_eq_none (by simp; omega)]
  refine ⟨(g.ritem.drop (g.rhs (r + 2))).drop (α.length + 1), ?_⟩
  have := List.take_append_drop (α.length + 1) (g.ritem.drop (g.rhs (r + 2)))
  rw [ht, List.append_assoc] at this
  exact this.symm

theorem ritem_item (hp : Packs g G) {r A : Nat} {α : List Nat} (hr : G.rules[r]? = some (A, α)) {d : Nat} (hd : d ≤ α.length) :
    ∃ rest, g.ritem.drop (pos g r d) = (α.drop d).map (fun (x : Nat) => (x : Int)) ++ (-((r + 2 : Nat) : Int)) :: rest := by
  obtain ⟨rest, h⟩ := ritem_rule hp hr
  refine ⟨rest, ?_⟩
  have e : g.ritem.drop (pos g r d) = (g.ritem.drop (g.rhs (r + 2))).drop d := by rw [List.drop_drop]; rfl
  rw [e, h, List.drop_append_of_le_length (by simpa using hd), List.map_drop]

theorem find_neg (β : List Nat) (k : Nat) (rest : List Int) :
    (β.map (fun (x : Nat) => (x : Int)) ++ (-((k + 2 : Nat) : Int)) :: rest).find? (· < 0) = some (-((k + 2 : Nat) : Int)) := by
  induction β with
  | nil => rw [List.map_nil, List.nil_append, List.find?_cons_of_pos]; simp; omega
  | cons x β ih => rw [List.map_cons, List.cons_append, List.find?_cons_of_neg _, ih]; simp

theorem ruleAt_eq (hp : Packs g G) {r A : Nat} {α : List Nat} (hr : G.rules[r]? = some (A, α)) {d : Nat} (hd : d ≤ α.length) :
    ruleAt g (pos g r d) = r + 2 := by
  obtain ⟨rest, h⟩ := ritem_item hp hr hd
  unfold ruleAt
  rw [h, find_neg]
  simp
  omega

theorem before_eq (hp : Packs g G) {r A : Nat} {α : List Nat} (hr : G.rules[r]? = some (A, α)) {d : Nat} (hd : d ≤ α.length) :
    beforeDot g (pos g r d) = (α.take d).map (fun (x : Nat) => (x : Int)) := by
  obtain ⟨rest, h⟩ := ritem_rule hp hr
  unfold beforeDot
  rw [ruleAt_eq hp hr hd, h]
  have : pos g r d - g.rhs (r + 2) = d := by unfold pos; omega
  rw [this, List.take_append_of_le_length (by simpa using hd), List.map_take]

theorem after_eq (hp : Packs g G) {r A : Nat} {α : List Nat} (hr : G.rules[r]? = some (A, α)) {d : Nat} (hd : d ≤ α.length) :
    afterDot g (pos g r d) = (α.drop d).map (fun (x : Nat) => (x : Int)) := by
  obtain ⟨rest, h⟩ := ritem_item hp hr hd
  unfold afterDot
  rw [ruleAt_eq hp hr hd]
  have : max (pos g r d) (g.rhs (r + 2)) = pos g r d := by unfold pos; omega
  rw [this, h]
  induction α.drop d with
  | nil =>
    rw [List.map_nil, List.nil_append, List.takeWhile_cons_of_neg]
    simp
    omega
  | cons x β ih => rw [List.map_cons, List.cons_append, List.takeWhile_cons_of_pos (by simp), ih]

theorem dotted_eq (hp : Packs g G) (pn : Nat → List Nat) (arrow : String) {r A : Nat} {α : List Nat} (hr : G.rules[r]? = some (A, α)) {d : Nat}
    (hd : d ≤ α.length) : dotted g pn (Rd.str arrow) (pos g r d) = YGraph.item pn arrow A α d := by
  unfold dotted YGraph.item
  rw [before_eq hp hr hd, after_eq hp hr hd, ruleAt_eq hp hr hd, hp.lhs r A α hr, List.flatMap_map, List.flatMap_map]
  rfl

/-- The tokens of a row of `LA`, in the order in which they are printed. -/
def laToks (g : Gram) (lo : LalrOut) (k : Nat) : List Nat := (List.range g.ntokens).reverse.filter (BIT (row lo.LA k))

theorem red_cons (i : Nat) (is : List Nat) : reductionsOf g (i :: is) =
    if g.item i < 0 then (-(g.item i)).toNat :: reductionsOf g is else reductionsOf g is := by
  unfold reductionsOf
  by_cases h : g.item i < 0
  · rw [List.filterMap_cons_some (b := (-(g.item i)).toNat) (by rw [if_pos h]), if_pos h]
  · rw [List.filterMap_cons_none (by rw [if_neg h]), if_neg h]

theorem graphItems_eq (hp : Packs g G) (pn : Nat → List Nat) (lo : LalrOut) : ∀ (is : List Nat) (b : Nat), ItemPos g is →
    (∀ (j rule : Nat), (reductionsOf g is)[j]? = some rule → lo.ruleno[b + j]? = some rule) →
    ∃ items : List (Nat × Nat × List Nat), graphItems g pn lo is b = items.flatMap (fun i => YGraph.line G pn i.2.2 i.1 i.2.1) ∧
      items.map (fun i => pos g i.1 i.2.1) = is ∧ (∀ i ∈ items, IsItem G i.1 i.2.1) ∧
      ∀ i ∈ items, Complete G i.1 i.2.1 → ∃ j, (reductionsOf g is)[j]? = some (i.1 + 2) ∧ i.2.2 = laToks g lo (b + j) := by
  intro is
  induction is with
  | nil => intro b _ _; exact ⟨[], rfl, rfl, nofun, nofun⟩
  | cons i is ih =>
    intro b hpos hred
    obtain ⟨r, d, hi, rfl⟩ := exists_item hp (hpos i (by simp)).1 (hpos i (by simp)).2
    have hpos' : ItemPos g is := fun k hk => hpos k (by simp [hk])
    obtain ⟨A, α, hr, hd⟩ := id hi
    rcases item_cases hp hi with ⟨A', α', Y, hr', hY, e⟩ | ⟨A', α', hr', hda, e⟩
    · rw [hr] at hr'; cases hr'
      have hneg : ¬ g.item (pos g r d) < 0 := by rw [e]; omega
      have hlt : d < α.length := (List.getElem?_eq_some_iff.mp hY).1
      rw [red_cons, if_neg hneg] at hred
      obtain ⟨items, h1, h2, h3, h4⟩ := ih b hpos' hred
      refine ⟨(r, d, []) :: items, ?_, by simp [h2], ?_, ?_⟩
      · simp only [graphItems, if_neg hneg, List.flatMap_cons, h1, YGraph.line, hr, dotted_eq hp pn " -> " hr hd]
        rw [if_neg (by omega)]
        rfl
      · intro x hx
        simp only [List.mem_cons] at hx
        rcases hx with rfl | hx
        · exact hi
        · exact h3 x hx
      · intro x hx hc
        rw [red_cons, if_neg hneg]
        simp only [List.mem_cons] at hx
        rcases hx with rfl | hx
        · obtain ⟨A', α', hr', hc⟩ := hc
          rw [hr] at hr'; cases hr'
          dsimp only at hc
          omega
        · exact h4 x hx hc
    · rw [hr] at hr'; cases hr'
      have hneg : g.item (pos g r d) < 0 := by rw [e]; omega
      have hval : (-(g.item (pos g r d))).toNat = r + 2 := by rw [e]; omega
      rw [red_cons, if_pos hneg, hval] at hred
      have hb : lo.ruleno[b]? = some (r + 2) := hred 0 (r + 2) rfl
      obtain ⟨items, h1, h2, h3, h4⟩ := ih (b + 1) hpos' (by
        intro j rule hj
        have := hred (j + 1) rule (by simpa using hj)
        rw [show b + 1 + j = b + (j + 1) by omega]
        exact this)
      refine ⟨(r, d, laToks g lo b) :: items, ?_, by simp [h2], ?_, ?_⟩
      · simp only [graphItems, if_pos hneg, hval, graphLA, hb, if_true, List.flatMap_cons, h1, YGraph.line, hr, dotted_eq hp pn " -> " hr hd]
        rw [if_pos hda]
        rfl
      · intro x hx
        simp only [List.mem_cons] at hx
        rcases hx with rfl | hx
        · exact hi
        · exact h3 x hx
      · intro x hx hc
        rw [red_cons, if_pos hneg, hval]
        simp only [List.mem_cons] at hx
        rcases hx with rfl | hx
        · exact ⟨0, rfl, rfl⟩
        · obtain ⟨j, hj, hl⟩ := h4 x hx hc
          exact ⟨j + 1, by simpa using hj, by rw [hl]; congr 1; omega⟩

end Verif.Byacc.Gr
