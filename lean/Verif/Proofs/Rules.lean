import Verif.Spec.Source
import Verif.Spec.Grammar
import Mathlib.Data.List.Forall2
import Mathlib.Data.List.Nodup
/-
Lemmas about reading the rules section.
-/
set_option autoImplicit false
namespace Verif.Byacc
open Spec

/-- A rule as read. -/
structure RR where
  lhs : RSym
  rhs : List RSym
  prec : RPrec
deriving DecidableEq, Repr

/-- The arrays for a list of rules: NULL-terminated right-hand sides after four NULL entries. -/
def encRR (rules : List RR) : List (Option RSym) :=
  [none, none, none, none] ++ rules.flatMap fun r => r.rhs.map some ++ [none]

/-- The arrays of `s` contain the finished rules `done`, and a rule being read. -/
structure Rd (s : RdSt) (done : List RR) (l : RSym) (cur : List RSym) (p : RPrec) : Prop where
  pitem : s.pitem = (cur.map some).reverse ++ (encRR done).reverse
  plhs : s.plhs = l :: (done.map RR.lhs).reverse
  rprec : s.rprec = p :: (done.map RR.prec).reverse

theorem encRR_rev (done : List RR) : ∃ rest, (encRR done).reverse = none :: rest := by
  rcases List.eq_nil_or_concat done with rfl | ⟨ds, d, rfl⟩
  · exact ⟨_, rfl⟩
  · simp [encRR, List.concat_eq_append, List.flatMap_append]

theorem shiftItems_some (xs : List RSym) (rest : List (Option RSym)) :
    shiftItems (xs.map some ++ none :: rest) = xs.map some ++ none :: none :: rest := by
  induction xs with
  | nil => rfl
  | cons x xs ih => simp [shiftItems, ih]

theorem Rd.insert {s : RdSt} {done : List RR} {l : RSym} {cur : List RSym} {p : RPrec} (h : Rd s done l cur p) :
    Rd (insertEmptyRule s) (done ++ [⟨.gen (s.gensym + 1), [], .zero⟩]) l (cur ++ [.gen (s.gensym + 1)]) p := by
  obtain ⟨h1, h2, h3⟩ := h
  obtain ⟨rest, hr⟩ := encRR_rev done
  constructor
  · simp only [insertEmptyRule, h1, hr, ← List.map_reverse]
    rw [shiftItems_some]
    have : (encRR (done ++ [⟨.gen (s.gensym + 1), [], .zero⟩])).reverse = none :: (encRR done).reverse := by
      simp [encRR, List.flatMap_append]
    rw [this, hr]
    simp
  · simp [insertEmptyRule, h2]
  · simp [insertEmptyRule, h3]

/-- Effect of one right-hand-side element. -/
def stepElem (s : RdSt) : Elem → RdSt
  | .sym n => addSymbol s n
  | .action => copyAction s
  | .prec n => markPrecAt s n

theorem readLoop_elems (a : List Elem) (s : RdSt) (rest : List GTok) :
    readLoop s (a.map Elem.tok ++ rest) = readLoop (a.foldl stepElem s) rest := by
  induction a generalizing s with
  | nil => rfl
  | cons e a ih => cases e <;> simp [Elem.tok, readLoop, ih, stepElem]

/-- A symbol of a rule as an element of the source: a generated symbol stands for an action. -/
def backElem : RSym → Elem
  | .user n => .sym n
  | .gen _ => .action

def isPrec : Elem → Bool
  | .prec _ => true
  | _ => false

def RSym.isGen : RSym → Bool
  | .gen _ => true
  | _ => false

/-- number of a symbol made for an action -/
def RSym.genNo : RSym → Option Nat
  | .gen k => some k
  | .user _ => none

/-- a symbol named in the file -/
def RSym.userNo : RSym → Option Nat
  | .user n => some n
  | .gen _ => none

def precEnc : Option Nat → RPrec
  | none => .undef
  | some n => .ofSym n

/-- The empty rules made while a rule is read; symbols `$$(g+1) .. $$(g+m)`. -/
def news (g m : Nat) : List RR := (List.range m).map fun i => ⟨.gen (g + i + 1), [], .zero⟩

theorem news_succ (g m : Nat) : news g (m + 1) = news g m ++ [⟨.gen (g + m + 1), [], .zero⟩] := by
  simp [news, List.range_succ]

/-- State after the elements `es` of a rule. -/
structure Reading (done : List RR) (g : Nat) (l : RSym) (es : List Elem) (s : RdSt) : Prop where
  out : ∃ m cur, Rd s (done ++ news g m) l cur (precEnc (precOfAlt es)) ∧ s.gensym = g + m ∧
    cur.map backElem ++ (if s.lastAct then [.action] else []) = es.filter (fun e => !isPrec e) ∧
    cur.filter RSym.isGen = (news g m).map RR.lhs ∧
    (s.lastAct = false → (es.filter (fun e => !isPrec e)).getLast? ≠ some .action)

theorem precOfAlt_append (es : List Elem) (e : Elem) :
    precOfAlt (es ++ [e]) = match e with | .prec n => some n | _ => precOfAlt es := by
  cases e <;> simp [precOfAlt, List.filterMap_append]

theorem Reading.step {done : List RR} {g : Nat} {l : RSym} {es : List Elem} {s : RdSt} (h : Reading done g l es s)
    (e : Elem) : Reading done g l (es ++ [e]) (stepElem s e) := by
  obtain ⟨m, cur, h1, h2, h3, h4, h5⟩ := h.out
  -- after the possible insertion of an empty rule
  have hins : ∃ m' cur', Rd (if s.lastAct then insertEmptyRule s else s) (done ++ news g m') l cur' (precEnc (precOfAlt es)) ∧
      (if s.lastAct then insertEmptyRule s else s).gensym = g + m' ∧
      cur'.map backElem = es.filter (fun e => !isPrec e) ∧ cur'.filter RSym.isGen = (news g m').map RR.lhs := by
    by_cases hl : s.lastAct
    · rw [if_pos hl]
      refine ⟨m + 1, cur ++ [.gen (s.gensym + 1)], ?_, ?_, ?_, ?_⟩
      · rw [news_succ, ← List.append_assoc, ← h2]; exact h1.insert
      · simp [insertEmptyRule, h2, Nat.add_assoc]
      · rw [if_pos hl] at h3
        rw [← h3]; simp [backElem]
      · rw [news_succ, List.map_append, ← h4, h2]
        simp [RSym.isGen]
    · rw [if_neg hl]
      refine ⟨m, cur, h1, h2, ?_, h4⟩
      rw [if_neg hl] at h3
      simpa using h3
  constructor
  cases e with
  | sym n =>
    obtain ⟨m', cur', k1, k2, k3, k4⟩ := hins
    refine ⟨m', cur' ++ [.user n], ⟨?_, ?_, ?_⟩, ?_, ?_, ?_, ?_⟩
    · simp [stepElem, addSymbol, k1.pitem]
    · simpa [stepElem, addSymbol] using k1.plhs
    · rw [precOfAlt_append]
      simpa [stepElem, addSymbol] using k1.rprec
    · simpa [stepElem, addSymbol] using k2
    · simp [stepElem, addSymbol, k3, backElem, List.filter_append, isPrec]
    · rw [List.filter_append, k4]
      simp [RSym.isGen]
    · intro _
      simp [List.filter_append, isPrec]
  | action =>
    obtain ⟨m', cur', k1, k2, k3, k4⟩ := hins
    refine ⟨m', cur', ⟨?_, ?_, ?_⟩, ?_, ?_, ?_, ?_⟩
    · simpa [stepElem, copyAction] using k1.pitem
    · simpa [stepElem, copyAction] using k1.plhs
    · rw [precOfAlt_append]
      simpa [stepElem, copyAction] using k1.rprec
    · simpa [stepElem, copyAction] using k2
    · simp [stepElem, copyAction, k3, List.filter_append, isPrec]
    · exact k4
    · intro h
      cases h
  | prec n =>
    have e0 : markPrecAt s n = { s with rprec := .ofSym n :: ((done ++ news g m).map RR.prec).reverse } := by
      unfold markPrecAt; rw [h1.rprec]
    refine ⟨m, cur, ⟨?_, ?_, ?_⟩, ?_, ?_, ?_, ?_⟩
    · simpa [stepElem, e0] using h1.pitem
    · simpa [stepElem, e0] using h1.plhs
    · rw [precOfAlt_append]
      simp [stepElem, e0, precEnc]
    · simpa [stepElem, e0] using h2
    · simp only [stepElem, e0, List.filter_append]
      rw [h3]; simp [isPrec]
    · exact h4
    · intro h
      rw [List.filter_append]
      simpa [isPrec] using h5 (by simpa [stepElem, e0] using h)

theorem Reading.elems {done : List RR} {g : Nat} {l : RSym} {es : List Elem} {s : RdSt} (h : Reading done g l es s)
    (a : List Elem) : Reading done g l (es ++ a) (a.foldl stepElem s) := by
  induction a generalizing es s with
  | nil => simpa using h
  | cons e a ih => simpa using ih (h.step e)

/-- What the text says about one rule as read: `new` are the empty rules of its inner actions,
`r` the rule itself. -/
structure ReadAs (p : Nat × List Elem) (new : List RR) (r : RR) : Prop where
  lhs : r.lhs = .user p.1
  /-- the right-hand side is the text, with a symbol for every action but a final one -/
  rhs : (r.rhs.map backElem = p.2.filter (fun e => !isPrec e) ∧ (p.2.filter (fun e => !isPrec e)).getLast? ≠ some .action) ∨
    r.rhs.map backElem ++ [.action] = p.2.filter (fun e => !isPrec e)
  prec : r.prec = precEnc (precOfAlt p.2)
  /-- the symbols made for actions are those of the empty rules, in this order -/
  gens : r.rhs.filter RSym.isGen = new.map RR.lhs
  empty : ∀ x ∈ new, x.rhs = [] ∧ x.prec = .zero ∧ x.lhs.isGen = true

/-- All finished rules. -/
structure Finished (alts : List (Nat × List Elem)) (done : List RR) (g : Nat) : Prop where
  out : ∃ blocks : List (List RR × RR), done = blocks.flatMap (fun b => b.1 ++ [b.2]) ∧
    List.Forall₂ (fun p b => ReadAs p b.1 b.2) alts blocks
  gens : (done.filterMap fun r => r.lhs.genNo) = List.range' 1 g

theorem Finished.add {alts : List (Nat × List Elem)} {done : List RR} {g : Nat} (F : Finished alts done g)
    {n : Nat} {es : List Elem} {s : RdSt} (h : Reading done g (.user n) es s) :
    ∃ done', Finished (alts ++ [(n, es)]) done' s.gensym ∧ (endRule s).pitem = (encRR done').reverse ∧
      (endRule s).plhs = (done'.map RR.lhs).reverse ∧ (endRule s).rprec = (done'.map RR.prec).reverse ∧
      (endRule s).gensym = s.gensym ∧ (endRule s).lastAct = false ∧ s.plhs.headD (.user 0) = .user n := by
  obtain ⟨m, cur, h1, h2, h3, h4, h5⟩ := h.out
  refine ⟨done ++ news g m ++ [⟨.user n, cur, precEnc (precOfAlt es)⟩], ⟨?_, ?_⟩, ?_, ?_, ?_, rfl, rfl, ?_⟩
  · obtain ⟨blocks, b1, b2⟩ := F.out
    refine ⟨blocks ++ [(news g m, ⟨.user n, cur, precEnc (precOfAlt es)⟩)], by simp [b1], ?_⟩
    refine List.rel_append b2 (.cons ⟨rfl, ?_, rfl, h4, ?_⟩ .nil)
    · by_cases hl : s.lastAct
      · rw [if_pos hl] at h3; exact .inr h3
      · rw [if_neg hl] at h3; exact .inl ⟨by simpa using h3, h5 (by simpa using hl)⟩
    · intro x hx
      simp only [news, List.mem_map] at hx
      obtain ⟨i, _, rfl⟩ := hx
      exact ⟨rfl, rfl, rfl⟩
  · rw [h2, List.filterMap_append, List.filterMap_append, F.gens]
    have hn : (RSym.user n).genNo = none := rfl
    simp only [List.filterMap_cons, List.filterMap_nil, List.append_nil, hn]
    have : (news g m).filterMap (fun r => r.lhs.genNo) = List.range' (g + 1) m := by
      rw [news, List.filterMap_map, List.range'_eq_map_range]
      rw [← List.filterMap_eq_map]
      congr 1
      funext i
      simp [RSym.genNo]; omega
    rw [this, ← List.range'_append_1, Nat.add_comm 1 g]
  · simp [endRule, h1.pitem, encRR, List.flatMap_append]
  · simp [endRule, h1.plhs]
  · simp [endRule, h1.rprec]
  · rw [h1.plhs]; rfl

theorem Reading.start {done : List RR} {s : RdSt} (h1 : s.pitem = (encRR done).reverse) (h2 : s.plhs = (done.map RR.lhs).reverse)
    (h3 : s.rprec = (done.map RR.prec).reverse) (h4 : s.lastAct = false) (b : RSym) :
    Reading done s.gensym b [] (startRule s b) := by
  refine ⟨0, [], ⟨?_, ?_, ?_⟩, ?_, ?_, ?_, ?_⟩
  · simpa [startRule, news] using h1
  · simp [startRule, news, h2]
  · simp [startRule, news, h3, precOfAlt, precEnc]
  · simp [startRule]
  · simp [startRule, h4]
  · simp [news]
  · simp

/-- What is reached at the end. -/
def ReadOK (alts : List (Nat × List Elem)) (s : RdSt) : Prop :=
  ∃ done, Finished alts done s.gensym ∧ s.pitem = (encRR done).reverse ∧ s.plhs = (done.map RR.lhs).reverse ∧
    s.rprec = (done.map RR.prec).reverse ∧ s.lastAct = false

theorem read_more (n : Nat) (more : List (List Elem)) : ∀ (alts : List (Nat × List Elem)) (done : List RR) (g : Nat) (es : List Elem)
    (s : RdSt) (rest : List GTok), Finished alts done g → Reading done g (.user n) es s →
    ∃ alts' done' g' es' s', readLoop s ((more.flatMap fun a => .bar :: a.map Elem.tok) ++ rest) = readLoop s' rest ∧
      Finished alts' done' g' ∧ Reading done' g' (.user n) es' s' ∧
      alts' ++ [(n, es')] = alts ++ (es :: more).map fun a => (n, a) := by
  induction more with
  | nil => intro alts done g es s rest F R; exact ⟨alts, done, g, es, s, rfl, F, R, by simp⟩
  | cons a more ih =>
    intro alts done g es s rest F R
    obtain ⟨done', F', e1, e2, e3, e4, e5, e6⟩ := F.add R
    have R' : Reading done' s.gensym (.user n) [] (startRule (endRule s) (.user n)) := Reading.start e1 e2 e3 e5 _
    have R'' := R'.elems a
    simp only [List.nil_append] at R''
    obtain ⟨alts', done'', g', es', s', f1, f2, f3, f4⟩ := ih _ _ _ _ _ rest F' R''
    refine ⟨alts', done'', g', es', s', ?_, f2, f3, ?_⟩
    · rw [List.flatMap_cons, List.cons_append, List.cons_append, readLoop, e6, List.append_assoc, readLoop_elems, f1]
    · rw [f4]; simp

theorem read_groups (gs : List Group) : ∀ (alts : List (Nat × List Elem)) (done : List RR) (g n : Nat) (es : List Elem) (s : RdSt),
    Finished alts done g → Reading done g (.user n) es s →
    ReadOK (alts ++ (n, es) :: sectionAlts gs) (readLoop s (sectionToks gs)) := by
  induction gs with
  | nil =>
    intro alts done g n es s F R
    obtain ⟨done', F', e1, e2, e3, e4, e5, e6⟩ := F.add R
    exact ⟨done', F', e1, e2, e3, e5⟩
  | cons G gs ih =>
    intro alts done g n es s F R
    obtain ⟨done', F', e1, e2, e3, e4, e5, e6⟩ := F.add R
    have R' : Reading done' s.gensym (.user G.lhs) [] (startRule (endRule s) (.user G.lhs)) := Reading.start e1 e2 e3 e5 _
    have R'' := R'.elems G.first
    simp only [List.nil_append] at R''
    obtain ⟨alts', done'', g', es', s', f1, f2, f3, f4⟩ := read_more G.lhs G.more _ _ _ _ _ (sectionToks gs) F' R''
    have := ih alts' done'' g' G.lhs es' s' f2 f3
    rw [sectionToks, List.flatMap_cons, Group.toks, List.cons_append, readLoop, List.append_assoc, readLoop_elems]
    change ReadOK _ (readLoop _ (_ ++ sectionToks gs))
    rw [f1]
    have e : alts ++ (n, es) :: sectionAlts (G :: gs) = alts' ++ (G.lhs, es') :: sectionAlts gs := by
      have : alts' ++ (G.lhs, es') :: sectionAlts gs = (alts' ++ [(G.lhs, es')]) ++ sectionAlts gs := by simp
      rw [this, f4]
      simp [sectionAlts, Group.alts]
    rw [e]; exact this

theorem read_section (G : Group) (gs : List Group) :
    ∃ s, readGrammar (sectionToks (G :: gs)) = some s ∧ ReadOK (sectionAlts (G :: gs)) s := by
  have F : Finished [] [] 0 := ⟨⟨[], rfl, .nil⟩, rfl⟩
  have R' : Reading [] rdInit.gensym (.user G.lhs) [] (startRule rdInit (.user G.lhs)) := Reading.start rfl rfl rfl rfl _
  have R'' := R'.elems G.first
  simp only [List.nil_append] at R''
  obtain ⟨alts', done'', g', es', s', f1, f2, f3, f4⟩ := read_more G.lhs G.more _ _ _ _ _ (sectionToks gs) F R''
  refine ⟨readLoop s' (sectionToks gs), ?_, ?_⟩
  · rw [sectionToks, List.flatMap_cons, Group.toks, List.cons_append, readGrammar, List.append_assoc, readLoop_elems]
    change some (readLoop _ (_ ++ sectionToks gs)) = _
    rw [f1]
  · have := read_groups gs alts' done'' g' G.lhs es' s' f2 f3
    have e : sectionAlts (G :: gs) = alts' ++ (G.lhs, es') :: sectionAlts gs := by
      have : alts' ++ (G.lhs, es') :: sectionAlts gs = (alts' ++ [(G.lhs, es')]) ++ sectionAlts gs := by simp
      rw [this, f4]
      simp [sectionAlts, Group.alts]
    rw [e]; exact this

end Verif.Byacc
