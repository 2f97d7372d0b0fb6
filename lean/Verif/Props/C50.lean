import Verif.Proofs.Rules
import Verif.Proofs.Pack
/-
C50 — actions inside rules do not change the language (byacc/reader.c, insert_empty_rule).
C54 — `%empty` (byacc/reader.c, mark_symbol, read_grammar).
-/
set_option autoImplicit false
namespace Verif.Byacc
open Spec

/-- The context-free grammar of the rules read, under a numbering of the symbols. -/
def readCFG (ntok : Nat) (num : RSym → Nat) (rules : List RR) : CFG :=
  ⟨ntok, rules.map fun r => (num r.lhs, r.rhs.map num)⟩

/-- The context-free grammar written in the file, actions ignored. -/
def writtenCFG (ntok : Nat) (num : RSym → Nat) (gs : List Group) : CFG :=
  ⟨ntok, (sectionRules gs).map fun p => (num (.user p.1), p.2.map fun n => num (.user n))⟩

/-- `rules` is what the arrays of `s` contain (last entry first). -/
def HoldsRules (s : RdSt) (rules : List RR) : Prop :=
  s.pitem.reverse = encRR rules ∧ s.plhs.reverse = rules.map RR.lhs ∧ s.rprec.reverse = rules.map RR.prec

/-- C50: reading any rules section gives, for every alternative in order, one rule with the left side
and precedence symbol written and with the right side written, where each action but a final one is
replaced by a symbol of its own.  Just before it come empty rules for those symbols, one for each and
in the same order; all these symbols are different. -/
theorem C50_rules (G : Group) (gs : List Group) : ∃ s rules, readGrammar (sectionToks (G :: gs)) = some s ∧
    HoldsRules s rules ∧
    (∃ blocks : List (List RR × RR), rules = blocks.flatMap (fun b => b.1 ++ [b.2]) ∧
      List.Forall₂ (fun p b => ReadAs p b.1 b.2) (sectionAlts (G :: gs)) blocks) ∧
    (rules.filterMap fun r => r.lhs.genNo).Nodup := by
  obtain ⟨s, h1, done, F, e1, e2, e3, e4⟩ := read_section G gs
  refine ⟨s, done, h1, ⟨by rw [e1]; simp, by rw [e2]; simp, by rw [e3]; simp⟩, F.out, ?_⟩
  rw [F.gens]
  exact List.nodup_range' ..

theorem symsOfAlt_back (l : List RSym) :
    symsOfAlt (l.map backElem) = l.filterMap RSym.userNo := by
  induction l with
  | nil => rfl
  | cons x l ih =>
    cases x with
    | user n => rw [List.filterMap_cons_some (f := RSym.userNo) (b := n) rfl, ← ih]; rfl
    | gen k => rw [List.filterMap_cons_none rfl, ← ih]; rfl

theorem symsOfAlt_filter (a : List Elem) : symsOfAlt (a.filter fun e => !isPrec e) = symsOfAlt a := by
  induction a with
  | nil => rfl
  | cons e a ih =>
    cases e <;> simp_all [symsOfAlt, isPrec]

/-- users of a right-hand side -/
theorem ReadAs.syms {p : Nat × List Elem} {new : List RR} {r : RR} (h : ReadAs p new r) :
    r.rhs.filterMap RSym.userNo = symsOfAlt p.2 := by
  rw [← symsOfAlt_back, ← symsOfAlt_filter p.2]
  rcases h.rhs with ⟨h, _⟩ | h
  · rw [h]
  · rw [← h]
    simp [symsOfAlt, List.filterMap_append]

open Classical in
/-- C50: the rules read generate, from every symbol named in the file, exactly the sentences of the
grammar written.  `num` is any numbering of the symbols that gives different symbols different
numbers, and the symbols made for actions are not tokens. -/
theorem C50_language (G : Group) (gs : List Group) (ntok : Nat) (num : RSym → Nat) (hinj : Function.Injective num)
    (hgen : ∀ k, ntok ≤ num (.gen k)) : ∃ s rules, readGrammar (sectionToks (G :: gs)) = some s ∧ HoldsRules s rules ∧
    ∀ (S : Nat) (w : List Nat), (readCFG ntok num rules).Sentence (num (.user S)) w ↔
      (writtenCFG ntok num (G :: gs)).Sentence (num (.user S)) w := by
  obtain ⟨s, rules, h1, h2, ⟨blocks, hb1, hb2⟩, h4⟩ := C50_rules G gs
  refine ⟨s, rules, h1, h2, ?_⟩
  generalize G :: gs = gs at *
  -- facts about the rules
  have hf : ∀ r ∈ rules, (∃ k, r.lhs = .gen k ∧ r.rhs = []) ∨
      ∃ p ∈ sectionAlts gs, r.lhs = .user p.1 ∧ r.rhs.filterMap RSym.userNo = symsOfAlt p.2 := by
    intro r hr
    rw [hb1, List.mem_flatMap] at hr
    obtain ⟨b, hb, hr⟩ := hr
    obtain ⟨i, hi, rfl⟩ := List.getElem_of_mem hb
    have hra := (List.forall₂_iff_get.1 hb2).2 i (by rw [hb2.length_eq]; exact hi) hi
    rcases List.mem_append.1 hr with hr | hr
    · obtain ⟨e1, e2, e3⟩ := hra.empty r hr
      left
      rcases r with ⟨l, rh, p⟩
      cases l with
      | user n => simp [RSym.isGen] at e3
      | gen k => exact ⟨k, rfl, e1⟩
    · simp only [List.mem_singleton] at hr
      subst hr
      exact .inr ⟨_, List.getElem_mem _, hra.lhs, hra.syms⟩
  have hg : ∀ p ∈ sectionAlts gs, ∃ r ∈ rules, r.lhs = .user p.1 ∧
      r.rhs.filterMap RSym.userNo = symsOfAlt p.2 ∧
      ∀ k, RSym.gen k ∈ r.rhs → ∃ x ∈ rules, x.lhs = .gen k ∧ x.rhs = [] := by
    intro p hp
    obtain ⟨i, hi, rfl⟩ := List.getElem_of_mem hp
    have hi' : i < blocks.length := by rw [← hb2.length_eq]; exact hi
    have hra := (List.forall₂_iff_get.1 hb2).2 i hi hi'
    simp only [List.get_eq_getElem] at hra
    refine ⟨(blocks[i]).2, ?_, hra.lhs, hra.syms, ?_⟩
    · rw [hb1, List.mem_flatMap]
      exact ⟨_, List.getElem_mem hi', by simp⟩
    · intro k hk
      have : RSym.gen k ∈ (blocks[i]).1.map RR.lhs := by
        rw [← hra.gens, List.mem_filter]; exact ⟨hk, rfl⟩
      obtain ⟨x, hx, hxl⟩ := List.mem_map.1 this
      refine ⟨x, ?_, hxl, (hra.empty x hx).1⟩
      rw [hb1, List.mem_flatMap]
      exact ⟨_, List.getElem_mem hi', by simp [hx]⟩
  let er : List Nat → List Nat := List.filter fun x => decide (¬ ∃ k, x = num (.gen k))
  have er_app : ∀ u v, er (u ++ v) = er u ++ er v := fun u v => List.filter_append ..
  have er_user : ∀ n v, er (num (.user n) :: v) = num (.user n) :: er v := by
    intro n v
    apply List.filter_cons_of_pos
    simp only [decide_eq_true_eq]
    rintro ⟨k, hk⟩
    cases hinj hk
  have er_gen : ∀ k v, er (num (.gen k) :: v) = er v := by
    intro k v
    apply List.filter_cons_of_neg
    simp only [decide_eq_true_eq, not_not]
    exact ⟨k, rfl⟩
  have er_map : ∀ l : List RSym, er (l.map num) =
      (l.filterMap RSym.userNo).map fun n => num (.user n) := by
    intro l
    induction l with
    | nil => rfl
    | cons x l ih =>
      cases x with
      | user n => rw [List.filterMap_cons_some (f := RSym.userNo) (b := n) rfl, List.map_cons, er_user, ih, List.map_cons]
      | gen k => rw [List.filterMap_cons_none rfl, List.map_cons, er_gen, ih]
  have fwd : ∀ u v, (readCFG ntok num rules).Derives u v → (writtenCFG ntok num gs).Derives (er u) (er v) := by
    intro u v h
    induction h with
    | refl => exact .refl
    | tail _ hs ih =>
      refine Relation.ReflTransGen.trans ih ?_
      obtain ⟨x, y, hm⟩ := hs
      simp only [readCFG, List.mem_map] at hm
      obtain ⟨r, hr, e⟩ := hm
      simp only [Prod.mk.injEq] at e
      obtain ⟨rfl, rfl⟩ := e
      rcases hf r hr with ⟨k, e1, e2⟩ | ⟨p, hp, e1, e2⟩
      · rw [e1, e2, er_app, er_gen, er_app]
        exact .refl
      · rw [e1, er_app, er_user, er_app, er_app, er_map, e2]
        apply Relation.ReflTransGen.single
        apply CFG.Step.mk
        simp only [writtenCFG, sectionRules, List.mem_map]
        exact ⟨_, ⟨p, hp, rfl⟩, rfl⟩
  have drop : ∀ (l : List RSym) (x y : List Nat), (∀ k, RSym.gen k ∈ l → ∃ x ∈ rules, x.lhs = .gen k ∧ x.rhs = []) →
      (readCFG ntok num rules).Derives (x ++ (l.map num ++ y)) (x ++ (er (l.map num) ++ y)) := by
    intro l
    induction l with
    | nil => intro x y _; exact .refl
    | cons a l ih =>
      intro x y hl
      have hl' : ∀ k, RSym.gen k ∈ l → ∃ x ∈ rules, x.lhs = .gen k ∧ x.rhs = [] := fun k hk => hl k (by simp [hk])
      cases a with
      | user n =>
        rw [List.map_cons, er_user]
        have := ih (x ++ [num (.user n)]) y hl'
        simpa using this
      | gen k =>
        rw [List.map_cons, er_gen]
        obtain ⟨r, hr, e1, e2⟩ := hl k (by simp)
        refine Relation.ReflTransGen.head (b := x ++ ([] ++ (l.map num ++ y))) ?_
          (by rw [List.nil_append]; exact ih x y hl')
        apply CFG.Step.mk
        simp only [readCFG, List.mem_map]
        exact ⟨r, hr, by rw [e1, e2]; rfl⟩
  have bwd : ∀ u v, (writtenCFG ntok num gs).Derives u v → (readCFG ntok num rules).Derives u v := by
    intro u v h
    induction h with
    | refl => exact .refl
    | tail _ hs ih =>
      refine Relation.ReflTransGen.trans ih ?_
      obtain ⟨x, y, hm⟩ := hs
      simp only [writtenCFG, sectionRules, List.mem_map] at hm
      obtain ⟨_, ⟨p, hp, rfl⟩, e⟩ := hm
      simp only [Prod.mk.injEq] at e
      obtain ⟨rfl, rfl⟩ := e
      obtain ⟨r, hr, e1, e2, e3⟩ := hg p hp
      refine Relation.ReflTransGen.head (b := x ++ (r.rhs.map num ++ y)) ?_ ?_
      · apply CFG.Step.mk
        simp only [readCFG, List.mem_map]
        exact ⟨r, hr, by rw [e1]⟩
      · have := drop r.rhs x y e3
        rw [er_map, e2] at this
        exact this
  intro S w
  constructor
  · rintro ⟨ht, hd⟩
    refine ⟨ht, ?_⟩
    have := fwd _ _ hd
    rw [er_user] at this
    have ew : er w = w := by
      apply List.filter_eq_self.2
      intro x hx
      simp only [decide_eq_true_eq]
      rintro ⟨k, rfl⟩
      have h1 := ht _ hx
      have h2 := hgen k
      simp only [readCFG] at h1
      omega
    rw [ew] at this
    exact this
  · rintro ⟨ht, hd⟩
    exact ⟨ht, bwd _ _ hd⟩

/-- The arrays read are those `pack_grammar` is given: with a bucket for each symbol they are the
encoding (`encPitem`) of the rules read, as used in all theorems about the tables. -/
theorem C50_layout (bucket : RSym → Bucket) (prec : RPrec → Int) (assoc : RPrec → Assoc) (s : RdSt) (rules : List RR)
    (h : HoldsRules s rules) :
    let rs := rules.map fun r => (⟨bucket r.lhs, r.rhs.map bucket, prec r.prec, assoc r.prec⟩ : SrcRule)
    s.pitem.reverse.map (Option.map bucket) = encPitem rs ∧
    List.zipWith (fun l p => (⟨bucket l, prec p, assoc p⟩ : PRule)) s.plhs.reverse s.rprec.reverse = rs.map SrcRule.p := by
  obtain ⟨h1, h2, h3⟩ := h
  constructor
  · rw [h1, encRR, encPitem]
    simp [List.map_flatMap, List.flatMap_map, SrcRule.enc]
  · rw [h2, h3]
    clear h1 h2 h3
    induction rules with
    | nil => rfl
    | cons r rules ih => simpa [SrcRule.p] using ih

/-- `s : A {..} B {..} {..} %prec C | {..} ; t : {..} A` -/
def c50Src : List Group :=
  [⟨10, [.sym 1, .action, .sym 2, .action, .action, .prec 3], [[.action]]⟩, ⟨11, [.action, .sym 1], []⟩]

example : readGrammar (sectionToks c50Src) = some
    ⟨(encRR [⟨.gen 1, [], .zero⟩, ⟨.gen 2, [], .zero⟩, ⟨.user 10, [.user 1, .gen 1, .user 2, .gen 2], .ofSym 3⟩,
      ⟨.user 10, [], .undef⟩, ⟨.gen 3, [], .zero⟩, ⟨.user 11, [.gen 3, .user 1], .undef⟩]).reverse,
     [.user 11, .gen 3, .user 10, .user 10, .gen 2, .gen 1], [.undef, .zero, .undef, .ofSym 3, .zero, .zero], false, 3⟩ := by
  decide

/-! ## C54 -/

/-- `%empty` before a rule's end: the text of a section with `%empty` inserted. -/
theorem C54_drops (a b : List GTok) (s : RdSt) (hm : GTok.mark ∉ a) (h : GTok.emptyMark ∉ a) :
    readLoop s (a ++ .emptyMark :: b) = readLoop s a := by
  induction a generalizing s with
  | nil => rfl
  | cons t a ih =>
    simp only [List.mem_cons, not_or] at hm h
    cases t <;> simp [readLoop, ih _ hm.2 h.2] at *

/-- C54 (partial): `%empty` at the end of the last right-hand side of a section changes nothing; anywhere,
it makes byacc read the section as if the text from there on were missing.  Missing for the full
claim: that the rest is read. -/
theorem C54_empty_partial (G : Group) (gs : List Group) (b : List GTok) :
    readGrammar (sectionToks (G :: gs) ++ .emptyMark :: b) = readGrammar (sectionToks (G :: gs)) := by
  have hno : ∀ gs : List Group, GTok.mark ∉ sectionToks gs ∧ GTok.emptyMark ∉ sectionToks gs := by
    intro gs
    have he : ∀ e : Elem, e.tok ≠ .mark ∧ e.tok ≠ .emptyMark := by intro e; cases e <;> simp [Elem.tok]
    constructor <;>
    · simp only [sectionToks, Group.toks, List.mem_flatMap, List.mem_cons, List.mem_append, List.mem_map]
      rintro ⟨g, _, h | ⟨e, _, h⟩ | ⟨a, _, h | ⟨e, _, h⟩⟩⟩
      · cases h
      · first | exact (he e).1 h | exact (he e).2 h
      · cases h
      · first | exact (he e).1 h | exact (he e).2 h
  obtain ⟨h1, h2⟩ := hno (G :: gs)
  rw [sectionToks, List.flatMap_cons, Group.toks] at *
  simp only [List.cons_append, readGrammar, List.mem_cons, not_or] at *
  rw [C54_drops _ _ _ h1.2 h2.2]

/-- C54 is violated: in `s : %empty | A ;` the second alternative is lost, so that the token `A` is
no longer a sentence. -/
theorem C54_violated : ∃ with_ without : List GTok, without = with_.filter (fun t => decide (t ≠ .emptyMark)) ∧
    ∃ s s' rules rules', readGrammar with_ = some s ∧ readGrammar without = some s' ∧
      HoldsRules s rules ∧ HoldsRules s' rules' ∧
      ∀ num : RSym → Nat, num (.user 1) = 1 → num (.user 10) = 10 →
        (readCFG 2 num rules').Sentence 10 [1] ∧ ¬ (readCFG 2 num rules).Sentence 10 [1] := by
  refine ⟨[.lhs 10, .emptyMark, .bar, .sym 1], [.lhs 10, .bar, .sym 1], by decide, _, _,
    [⟨.user 10, [], .undef⟩], [⟨.user 10, [], .undef⟩, ⟨.user 10, [.user 1], .undef⟩], rfl, rfl,
    ⟨rfl, rfl, rfl⟩, ⟨rfl, rfl, rfl⟩, ?_⟩
  intro num h1 h2
  constructor
  · refine ⟨by simp [readCFG], Relation.ReflTransGen.single ?_⟩
    have := CFG.Step.mk (G := readCFG 2 num [⟨.user 10, [], .undef⟩, ⟨.user 10, [.user 1], .undef⟩]) [] [] (A := 10) (α := [1])
      (by simp [readCFG, h1, h2])
    simpa using this
  · rintro ⟨_, h⟩
    have key : ∀ u, (readCFG 2 num [⟨.user 10, [], .undef⟩]).Derives [10] u → u = [10] ∨ u = [] := by
      intro u hu
      induction hu with
      | refl => exact .inl rfl
      | tail _ hs ih =>
        obtain ⟨x, y, hm⟩ := hs
        simp only [readCFG, h2, List.map_cons, List.map_nil, List.mem_singleton, Prod.mk.injEq] at hm
        obtain ⟨rfl, rfl⟩ := hm
        rcases ih with ih | ih
        · cases x with
          | nil => simp at ih; simp [ih]
          | cons a x =>
            have := congrArg List.length ih
            simp at this
        · simp at ih
    rcases key _ h with h | h <;> simp at h

end Verif.Byacc
