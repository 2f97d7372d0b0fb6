import Verif.Proofs.GraphText
import Verif.Props.C08
/-
C107: the graph of the automaton that byacc -g draws.
-/
set_option autoImplicit false
namespace Verif.Byacc
open Spec Gr

/-- The graph has a node for every state and an edge for every transition.  A node shows the LR(0) items of its state, each once, and after a complete item exactly the
LALR(1) lookaheads of the item, each once, from the last token to the first.  (`pn` gives the printed names of the symbols.) -/
theorem C107_graph (lp : Bool) (ntokens nsyms : Nat) (rs : List SrcRule)
    (h : UserRules ntokens nsyms (rs.map SrcRule.rule)) (g : Gram)
    (hg : g = packGrammar lp ntokens nsyms (rs.map SrcRule.p) (encPitem rs)) (pn : Nat → List Nat) :
    ∃ a N out, generateStates g = some a ∧ setNullable g = some N ∧ lalr g a N = some out ∧
      ∃ (items : Nat → List (Nat × Nat × List Nat)) (edges : Nat → List (Nat × Nat)),
        graph g pn a out =
          (List.range a.nstates).flatMap (fun q => YGraph.node (augCFG ntokens (rs.map SrcRule.rule)) pn q (items q)) ++ YGraph.txt "\n\n" ++
          (List.range a.nstates).flatMap (fun q => (edges q).flatMap fun e => YGraph.edge pn q e.1 e.2) ++ YGraph.txt "}\n" ∧
        ∀ q, q < a.nstates → (∃ γ, Path (ShiftsTo a) 0 γ q) ∧
          ((items q).map fun i => (i.1, i.2.1)).Nodup ∧
          (edges q).Pairwise (fun e e' => e.1 < e'.1) ∧ (∀ X s, (X, s) ∈ edges q ↔ ShiftsTo a q X s) ∧
          ∀ γ, Path (ShiftsTo a) 0 γ q →
            (∀ r d, (∃ la, (r, d, la) ∈ items q) ↔ ValidItem (augCFG ntokens (rs.map SrcRule.rule)) byaccInit γ r d) ∧
            ∀ r d la, (r, d, la) ∈ items q → Complete (augCFG ntokens (rs.map SrcRule.rule)) r d →
              la.Pairwise (· > ·) ∧ ∀ t, t ∈ la ↔ t < ntokens ∧ LalrLA (augCFG ntokens (rs.map SrcRule.rule)) byaccInit γ r d t := by
  obtain ⟨a, N, out, ha, hN, hout, hslots, hla⟩ := C08_lalr_lookaheads lp ntokens nsyms rs h g hg
  refine ⟨a, N, out, ha, hN, hout, ?_⟩
  have hp : Packs g (augCFG ntokens (rs.map SrcRule.rule)) := by rw [hg]; exact packs_packGrammar lp ntokens nsyms rs
  have hwf : WF (augCFG ntokens (rs.map SrcRule.rule)) g.nsyms := by rw [hg]; exact wf_aug h
  obtain ⟨a', ha', H⟩ := isLR0Automaton hp hwf
  obtain ⟨a'', ha'', hok, hlen⟩ := generateStates_ok hp hwf
  rw [ha] at ha' ha''
  cases ha'; cases ha''
  have hA := isAuto H
  have hnt : g.ntokens = ntokens := hp.ntok
  generalize hG : augCFG ntokens (rs.map SrcRule.rule) = G at *
  -- the nodes
  have hnode : ∀ q, q < a.nstates → ∃ items : List (Nat × Nat × List Nat), graphState g pn a out q = YGraph.node G pn q items ∧
      ∃ c rd b, a.states[q]? = some c ∧ a.reds[q]? = some rd ∧ out.lookaheads[q]? = some b ∧
        (items.map fun i => pos g i.1 i.2.1) = closure g (setFirstDerives g) c.items ∧ (∀ i ∈ items, IsItem G i.1 i.2.1) ∧
        ∀ i ∈ items, Complete G i.1 i.2.1 → ∃ j, rd[j]? = some (i.1 + 2) ∧ i.2.2 = laToks g out (b + j) := by
    intro q hq
    have hq' : q < a.states.length := hq
    obtain ⟨c, hc⟩ : ∃ c, a.states[q]? = some c := ⟨_, List.getElem?_eq_getElem hq'⟩
    obtain ⟨sh, hsh⟩ : ∃ sh, a.shifts[q]? = some sh := ⟨_, List.getElem?_eq_getElem (by omega)⟩
    obtain ⟨rd, hrd⟩ : ∃ rd, a.reds[q]? = some rd := ⟨_, List.getElem?_eq_getElem (by have := hok.len; omega)⟩
    have hdone : rd = reductionsOf g (closure g (setFirstDerives g) c.items) := (hok.done q c sh rd hc hsh hrd).2
    obtain ⟨b, hb, -, hrule⟩ := hslots.slots q rd hrd
    have hcm := List.mem_of_getElem? hc
    obtain ⟨-, hpos, -⟩ := closure_items hp hwf c.items (hok.st.sorted c hcm) (hok.st.pos c hcm)
    obtain ⟨items, h1, h2, h3, h4⟩ := graphItems_eq hp pn out (closure g (setFirstDerives g) c.items) b hpos (by rw [← hdone]; exact hrule)
    refine ⟨items, ?_, c, rd, b, hc, hrd, hb, h2, h3, by rw [hdone]; exact h4⟩
    unfold graphState YGraph.node
    rw [List.getD_eq_getElem?_getD, hc, List.getD_eq_getElem?_getD, hb, Option.getD_some, Option.getD_some, h1]
    rfl
  let items : Nat → List (Nat × Nat × List Nat) := fun q => if hq : q < a.nstates then (hnode q hq).choose else []
  have hitems : ∀ q (hq : q < a.nstates), items q = (hnode q hq).choose := fun q hq => dif_pos hq
  refine ⟨items, fun q => (a.shiftsOf q).map fun s => (a.acc s, s), ?_, ?_⟩
  · unfold graph
    have e1 : (List.range a.nstates).flatMap (graphState g pn a out) = (List.range a.nstates).flatMap (fun q => YGraph.node G pn q (items q)) := by
      refine List.flatMap_congr ?_
      intro q hq
      have hq := List.mem_range.1 hq
      rw [hitems q hq]
      exact (hnode q hq).choose_spec.1
    have e2 : (List.range a.nstates).flatMap (graphEdges pn a) =
        (List.range a.nstates).flatMap (fun q => ((a.shiftsOf q).map fun s => (a.acc s, s)).flatMap fun e => YGraph.edge pn q e.1 e.2) := by
      refine List.flatMap_congr ?_
      intro q _
      rw [List.flatMap_map]
      rfl
    rw [e1, e2]
    rfl
  · intro q hq
    obtain ⟨-, c, rd, b, hc, hrd, hb, h2, h3, h4⟩ := (hnode q hq).choose_spec
    rw [← hitems q hq] at h2 h3 h4
    have hcm := List.mem_of_getElem? hc
    obtain ⟨hsort, hpos, hclos⟩ := closure_items hp hwf c.items (hok.st.sorted c hcm) (hok.st.pos c hcm)
    obtain ⟨sh, hsh⟩ : ∃ sh, a.shifts[q]? = some sh := ⟨_, List.getElem?_eq_getElem (by have : q < a.states.length := hq; omega)⟩
    have hshq : a.shiftsOf q = sh := by unfold LR0.shiftsOf; rw [List.getD_eq_getElem?_getD, hsh]; rfl
    have hacc : ∀ s X, ShiftsTo a q X s → a.acc s = X := by
      rintro s X ⟨sh', c', -, -, hc', rfl⟩
      unfold LR0.acc
      rw [List.getD_eq_getElem?_getD, hc']
      rfl
    have hker : KernelItem g G a q = itemsAt g G c.items := by
      funext r d
      simp only [KernelItem, itemsAt, pos, eq_iff_iff]
      constructor
      · rintro ⟨c', hc', h⟩
        rw [hc] at hc'; cases hc'; exact h
      · intro h; exact ⟨c, hc, h⟩
    refine ⟨hA.path_to q hq, ?_, ?_, ?_, ?_⟩
    · have hnd : ((items q).map fun i => pos g i.1 i.2.1).Nodup := by
        rw [h2]
        exact hsort.imp (fun h => Nat.ne_of_lt h)
      have e : ((items q).map fun i => pos g i.1 i.2.1) = ((items q).map fun i => (i.1, i.2.1)).map fun p => pos g p.1 p.2 := by
        rw [List.map_map]; rfl
      rw [e] at hnd
      exact List.Nodup.of_map _ hnd
    · dsimp only
      rw [hshq, List.pairwise_map]
      refine (H.ordered q sh hsh).imp ?_
      rintro s s' ⟨X, X', hX, hX', hlt⟩
      rw [hacc s X hX, hacc s' X' hX']
      exact hlt
    · intro X s
      dsimp only
      rw [hshq, List.mem_map]
      constructor
      · rintro ⟨s', hs', e⟩
        cases e
        have hv := H.valid q sh s hsh hs'
        exact ⟨sh, a.states[s]'hv, hsh, hs', List.getElem?_eq_getElem hv, by
          unfold LR0.acc; rw [List.getD_eq_getElem?_getD, List.getElem?_eq_getElem hv]; rfl⟩
      · intro hst
        obtain ⟨sh', c', hsh', hm, -⟩ := id hst
        rw [hsh] at hsh'; cases hsh'
        exact ⟨s, hm, by rw [hacc s X hst]⟩
    · intro γ hγ
      constructor
      · intro r d
        rw [← hA.item_valid hγ r d]
        have : AItem g G a q r d ↔ itemsAt g G (closure g (setFirstDerives g) c.items) r d := by
          rw [hclos, ← hker]
          exact ⟨fun h => h.2, fun h => ⟨hq, h⟩⟩
        rw [this]
        constructor
        · rintro ⟨la, hm⟩
          exact ⟨h3 _ hm, by rw [← h2]; exact List.mem_map.2 ⟨_, hm, rfl⟩⟩
        · rintro ⟨hi, hm⟩
          rw [← h2] at hm
          obtain ⟨⟨r', d', la⟩, hx, he⟩ := List.mem_map.1 hm
          obtain ⟨rfl, rfl⟩ := pos_inj hp (h3 _ hx) hi he
          exact ⟨la, hx⟩
      · intro r d la hm hcomp
        obtain ⟨j, hj, hl⟩ := h4 _ hm hcomp
        dsimp only at hj hl
        obtain ⟨A, α, hr, hd⟩ := hcomp
        obtain ⟨b', hb', -, hrule⟩ := hslots.slots q rd hrd
        rw [hb] at hb'; cases hb'
        have hlt : b + j < out.LA.length := by
          rw [hslots.sizes.2.1]
          exact (List.getElem?_eq_some_iff.mp (hrule j (r + 2) hj)).1
        have hrow : out.LA[b + j]? = some (row out.LA (b + j)) := by
          unfold row
          rw [List.getElem?_eq_getElem hlt, List.getD_eq_getElem?_getD, List.getElem?_eq_getElem hlt]
          rfl
        have := (hla q rd b j r A α _ hrd hb hj hrow hr).2 γ hγ
        subst hl
        unfold laToks
        refine ⟨?_, ?_⟩
        · refine List.Pairwise.filter _ ?_
          rw [List.pairwise_reverse]
          exact List.pairwise_lt_range
        · intro t
          rw [List.mem_filter, List.mem_reverse, List.mem_range, this t, hnt, hd]

/-- The node of state 0 and its edges for `s: l 'b' s | l ;  l: 'c' | ` (the grammar of C08): `s` is 5, `l` is 6. -/
def c107Names (i : Nat) : List Nat :=
  (["$end", "error", "'b'", "'c'", "$accept", "s", "l"].map YGraph.txt).getD i []

example : ((genLoop c08G (setFirstDerives c08G) 20 (initialLR0 c08G)).bind fun a =>
      (setNullable c08G).bind fun N => (lalr c08G a N).map fun o => graphState c08G c107Names a o 0 ++ [10] ++ graphEdges c107Names a 0) =
    some (YGraph.txt ("\n\tq0 [label=\"0:\\l  $accept -> . s $end\\l  s -> . l 'b' s\\l  s -> . l\\l  l -> . 'c'\\l  l -> . { 'b' $end }\\l\"];\n" ++
      "\tq0 -> q1 [label=\"'c'\"];\n\tq0 -> q2 [label=\"s\"];\n\tq0 -> q3 [label=\"l\"];\n")) := by
  decide +kernel

end Verif.Byacc
