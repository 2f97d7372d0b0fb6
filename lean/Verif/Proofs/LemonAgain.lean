import Verif.Lemon.Again
import Verif.Spec.LemonAgain
import Verif.Proofs.ToLemonWords
import Verif.Proofs.LemonTextRead
import Verif.Props.C117
/-
Helper lemmas for C119: the words of the grammar file printed by option `-g`.
-/
set_option autoImplicit false
namespace Verif.Lemon
open Verif.Spec.GFile Verif.Spec.Words Verif.Spec.Again
open Verif.Spec.Sql hiding letter
open Verif.Byacc.ToLemon (Wc Wd NB wc_nil nb_append wc_blank wc_char wc_comment wd_name)

variable {o : Opts} {items : List Verif.Spec.GFile.Item} {s : RState}

/-- the text is read as the given words and does not continue a name -/
def Wv (z : List Nat) (xs : List (List Nat)) : Prop := Wd z xs ∧ NB z

def NameOK (x : Word) : Prop := Verif.Spec.GFile.Letter x ∧ ∀ c ∈ x, inName c

theorem Wv.append {z z' xs ys} (h : Wv z xs) (h' : Wv z' ys) : Wv (z ++ z') (xs ++ ys) := ⟨h.1.appendD h'.2 h'.1, nb_append h.2 h'.2⟩

theorem wv_nil : Wv [] [] := ⟨wc_nil.wd, by simp [NB]⟩

theorem wv_blank {c : Nat} (h : blank c) : Wv [c] [] := by
  refine ⟨(wc_blank h).wd, ?_⟩
  intro d hd
  simp at hd
  subst hd
  unfold blank inName letter digit at *
  omega

theorem wv_blanks : ∀ {l : List Nat}, (∀ c ∈ l, blank c) → Wv l []
  | [], _ => wv_nil
  | c :: l, h => by
    have := (wv_blank (h c (by simp))).append (wv_blanks (l := l) fun d hd => h d (by simp [hd]))
    simpa using this

theorem wv_char {c : Nat} (hc : ¬ blank c ∧ ¬ letter c ∧ ¬ digit c ∧ c ≠ 34 ∧ c ≠ 123) (h : c ≠ 58 ∧ c ≠ 47 ∧ c ≠ 124 ∧ c ≠ 95) : Wv [c] [[c]] := by
  refine ⟨(wc_char hc ⟨h.1, h.2.1, h.2.2.1⟩).wd, ?_⟩
  intro d hd
  simp at hd
  subst hd
  unfold inName
  tauto

theorem wv_dot : Wv [46] [[46]] := wv_char (by unfold blank letter digit; omega) (by omega)
theorem wv_sp : Wv [32] [] := wv_blank (.inl rfl)
theorem wv_nl : Wv [10] [] := wv_blank (.inr (by omega))

theorem Wv.nl {z xs} (h : Wv z xs) : Wc (z ++ [10]) xs := by
  simpa using h.1.append wv_nl.2 (by simp) (wc_blank (c := 10) (.inr (by omega)))

theorem wv_word {c : Nat} {x : List Nat} (hc : ¬ blank c ∧ ¬ letter c ∧ ¬ digit c ∧ c ≠ 34 ∧ c ≠ 123) (h : c ≠ 58 ∧ c ≠ 47 ∧ c ≠ 124 ∧ c ≠ 95) (hx : NameOK x) :
    Wv (c :: x) [[c], x] := by
  refine ⟨(wc_char hc ⟨h.1, h.2.1, h.2.2.1⟩).appendD (wd_name hx.1 hx.2), ?_⟩
  intro d hd
  simp at hd
  subst hd
  unfold inName
  tauto

theorem wv_decl {x : List Nat} (hx : NameOK x) : Wv (37 :: x) [[37], x] := wv_word (by unfold blank letter digit; omega) (by omega) hx

theorem wv_name {x : List Nat} (hx : NameOK x) : Wv (32 :: x) [x] := by
  refine ⟨(wc_blank (c := 32) (.inl rfl)).appendD (wd_name hx.1 hx.2), ?_⟩
  intro d hd
  simp at hd
  subst hd
  unfold inName letter digit
  omega

theorem wv_alt {x : List Nat} (hx : NameOK x) : Wv (124 :: x) [124 :: x] := by
  refine ⟨?_, ?_⟩
  · obtain ⟨c, t, rfl, hl⟩ := letter_head hx.1
    exact fun line rest ws hn hr => ⟨[(line, 124 :: c :: t)], rfl, .word (.alternative (.inr rfl) hl (fun d hd => hx.2 d (by simp [hd])) hn) hr⟩
  · intro d hd
    simp at hd
    subst hd
    unfold inName letter digit
    omega

theorem wv_comment {b : List Nat} (h : 42 ∉ b) : Wv (32 :: 47 :: 42 :: (b ++ [42, 47])) [] := by
  refine ⟨((wc_blank (c := 32) (.inl rfl)).append (wc_comment h)).wd, ?_⟩
  intro d hd
  simp at hd
  subst hd
  unfold inName letter digit
  omega

theorem wc_line {b : List Nat} (h : 10 ∉ b) : Wc (47 :: 47 :: (b ++ [10])) [] := by
  intro line rest ws hr
  have hc : (47 :: 47 :: b).count 10 = 0 := List.count_eq_zero.2 (by simp [h])
  have e : (47 :: 47 :: (b ++ [10])).count 10 = 1 := by
    rw [show 47 :: 47 :: (b ++ [10]) = (47 :: 47 :: b) ++ [10] by simp, List.count_append, hc]
    rfl
  rw [e] at hr
  refine ⟨[], rfl, ?_⟩
  have h2 : Reads line (10 :: rest) ws [] := Reads.skip (w := [10]) (.blank (.inr (by omega)) rest) (by simpa using hr)
  have := Reads.skip (line := line) (w := 47 :: 47 :: b) (rest := 10 :: rest) (.line h (.inl rfl)) (by rw [hc]; exact h2)
  simpa using this

theorem wc_flatMap {α : Type} (f : α → List Nat) : ∀ (l : List α), (∀ x ∈ l, Wc (f x) []) → Wc (l.flatMap f) []
  | [], _ => wc_nil
  | x :: l, h => by simpa using (h x (by simp)).append (wc_flatMap f l fun y hy => h y (by simp [hy]))

theorem decimal_not {n c : Nat} (h : c < 48) : c ∉ decimal n := by
  intro hc
  have := (LT.decimal_bytes n).2 c hc
  omega

/-! The counter of the precedences -/

theorem says_count (o : Opts) (z : List Nat) (ws : List (Nat × Word)) (items : List Verif.Spec.GFile.Item) (hz : HasWords z ws) (hf : IsFile items ws) (hv : Valid o items) :
    ∃ s, parseText (ropts o) o.yacc z = some s ∧ errorcnt s = 0 ∧ Holds o items s.1 ∧ s.1.preccounter = (precs items).length := by
  have h1 := (C71_words z ws).mpr hz
  have hfold : ∀ (ws : List (Nat × Word)) (s : RState), (given ws).foldl (parseEvent (ropts o)) (s, 0) = (readTokens (ropts o) s ws, 0) := by
    intro ws
    induction ws with
    | nil => intro s; rfl
    | cons w ws ih => intro s; simp only [given, List.map_cons, List.foldl_cons, parseEvent, readTokens_cons]; exact ih _
  have hr := reads_punct hz (by omega)
  have hinv := items_read o items [] _ (init_inv o) (by simpa using hv) ws (fun w hw => (hr w hw).2) hf
  simp only [List.nil_append] at hinv
  refine ⟨(readTokens (ropts o) (.init o.yacc) ws, 0), ?_, ?_, hinv.holds, hinv.prec⟩
  · rw [parseText, h1, Option.map_some, hfold]
  · simp [errorcnt, hinv.errs]

/-! The parts -/

theorem wc_numbers {file : List Nat} (hf : 10 ∉ file) (hn : ∀ y ∈ s.symbols.take s.nsymbol, 10 ∉ y.name) : Wc (s.reprintNumbers file) [] := by
  unfold RState.reprintNumbers
  have h1 : Wc (cstr "// Reprint of input file \"" ++ file ++ cstr "\".\n// Symbols:\n") [] := by
    have a := wc_line (b := cstr " Reprint of input file \"" ++ file ++ cstr "\".") (by
      simp only [List.mem_append, not_or]
      exact ⟨⟨by decide, hf⟩, by decide⟩)
    have b := wc_line (b := cstr " Symbols:") (by decide)
    have := a.append b
    rw [show cstr "// Reprint of input file \"" = 47 :: 47 :: cstr " Reprint of input file \"" by decide,
      show cstr "\".\n// Symbols:\n" = cstr "\"." ++ [10] ++ (47 :: 47 :: (cstr " Symbols:" ++ [10])) by decide]
    simpa using this
  refine h1.append (wc_flatMap _ _ fun i _ => ?_)
  rw [show cstr "//" = [47, 47] by decide]
  refine wc_line ?_
  intro hc
  obtain ⟨y, hy, hc⟩ := List.mem_flatMap.1 hc
  have hy' := hn _ (List.fst_mem_of_mem_zipIdx (List.mem_filter.1 hy).1)
  simp [padLeft, padRight, hy'] at hc
  exact decimal_not (by omega) hc

theorem wv_reprintName {x : Word} (hx : NameOK x) (b : Nat) : Wv (reprintName b x) [x] := by
  unfold reprintName
  have : Wv (if (b + 1) % 6 = 0 then [10, 32] else []) [] := by
    split
    · exact wv_blanks (by simp [blank])
    · exact wv_nil
  simpa using (wv_name hx).append this

theorem wv_reprintNames : ∀ (l : List Word) (b : Nat), (∀ x ∈ l, NameOK x) → b > 0 → Wv (reprintNames b l) l
  | [], _, _, _ => wv_nil
  | x :: l, b, h, hb => by
    have := (wv_reprintName (h x (by simp)) b).append (wv_reprintNames l (b + 1) (fun y hy => h y (by simp [hy])) (by omega))
    rw [reprintNames, if_neg (by omega)]
    simpa using this

theorem nameOK_text {x : Word} (h : Verif.Spec.GFile.Letter x) (h' : ∀ c ∈ x, inName c) : NameOK x := ⟨h, h'⟩

instance (c : Nat) : Decidable (inName c) := by unfold inName letter digit; infer_instance
instance (x : Word) : Decidable (NameOK x) := by unfold NameOK; infer_instance

theorem terminals_eq (hv : Valid o items) (hh : Holds o items s) : s.terminals = (tokens o items).map (symOf o items) := by
  have h1 : s.symbols.take s.nsymbol = (text "$" :: (tokens o items ++ nonterminals o items)).map (symOf o items) := by
    have := congrArg (List.map Prod.fst) (low_zip hv hh)
    rw [List.zipIdx_map_fst, List.map_map] at this
    exact this
  unfold RState.terminals
  rw [h1, List.map_cons, List.map_append, List.filter_cons_of_neg, List.filter_append, List.filter_eq_self.2, List.filter_eq_nil_iff.2, List.append_nil]
  · intro y hy
    obtain ⟨x, hx, rfl⟩ := List.mem_map.1 hy
    have := ((mem_nonterminals x).1 hx).2
    simp [symOf, this.1, this.2.2]
  · intro y hy
    obtain ⟨x, hx, rfl⟩ := List.mem_map.1 hy
    have := ((mem_tokens x).1 hx).2
    simp [symOf, this, upper_not_class hv this]
  · have : ¬ Upper (text "$") := by decide
    simp only [symOf, this, if_false]
    split <;> simp

theorem wv_decls (hv : Valid o items) (hh : Holds o items s) (hn : ∀ x ∈ tokens o items, NameOK x) :
    Wv s.reprintDecl (fileWords (if tokens o items = [] then [] else [.token (tokens o items)])) := by
  unfold RState.reprintDecl
  rw [terminals_eq hv hh, List.map_map, show (Sym.name ∘ symOf o items) = id from rfl, List.map_id]
  revert hn
  generalize tokens o items = l
  intro hn
  cases l with
  | nil => simpa [reprintNames, fileWords] using wv_nl
  | cons x l =>
    have h1 := (wv_decl (x := text "token") (by decide)).append (wv_sp.append (wv_reprintName (hn x (by simp)) 0))
    have h2 := h1.append ((wv_reprintNames l 1 (fun y hy => hn y (by simp [hy])) (by omega)).append (wv_sp.append (wv_dot.append (wv_nl.append wv_nl))))
    rw [reprintNames, if_pos rfl, if_neg (by simp), show cstr "%token " = 37 :: text "token" ++ [32] by decide, show cstr " .\n" = [32, 46, 10] by decide]
    have e : fileWords (if x :: l = [] then [] else [Item.token (x :: l)]) = [37] :: text "token" :: x :: (l ++ [[46]]) := by
      simp [fileWords, Item.words, any, Function.comp_def, show text "%" = [37] by decide, show text "." = [46] by decide]
    rw [e]
    simpa using h2

/-- the words behind a fallback `F` -/
def moreWords (F : Word) (gs : List (Word × List Word)) : List Word :=
  match gs with
  | (F', Ys) :: gs => if F' = F then Ys ++ [46] :: fileWords (gs.map fun g => .fallback (g.1 :: g.2)) else [46] :: fileWords (((F', Ys) :: gs).map fun g => .fallback (g.1 :: g.2))
  | [] => [[46]]

theorem fileWords_fallback (F : Word) (Ys : List Word) (gs : List Verif.Spec.GFile.Item) : fileWords (.fallback (F :: Ys) :: gs) = [37] :: text "fallback" :: F :: (Ys ++ [46] :: fileWords gs) := by
  simp [fileWords, Item.words, any, Function.comp_def, show text "%" = [37] by decide, show text "." = [46] by decide]

theorem wv_fallback {F : Word} (hF : NameOK F) : Wv (cstr "\n%fallback " ++ F ++ cstr "\n ") [[37], text "fallback", F] := by
  have := wv_nl.append ((wv_decl (x := text "fallback") (by decide)).append ((wv_name hF).append (wv_nl.append wv_sp)))
  rw [show cstr "\n%fallback " = [10] ++ (37 :: text "fallback" ++ [32]) by decide, show cstr "\n " = [10] ++ [32] by decide]
  simpa using this

theorem wv_fallbacks_more (hn : ∀ x ∈ names o items, fallbackOf items x ≠ none → NameOK ((fallbackOf items x).getD [])) :
    ∀ (l : List Word) (b : Nat) (F : Word), (∀ x ∈ l, NameOK x ∧ x ∈ names o items) → b > 0 →
      Wv (reprintFallbacks b (some F) (l.map (symOf o items))) (moreWords F (fallbackRuns (fallbackOf items) l))
  | [], b, F, _, hb => by
    have := wv_sp.append (wv_dot.append (wv_nl.append wv_nl))
    rw [List.map_nil, reprintFallbacks, if_pos hb, show cstr " .\n" = [32, 46, 10] by decide]
    simpa [fallbackRuns, moreWords] using this
  | x :: l, b, F, hl, hb => by
    have hx := hl x (by simp)
    have hl' : ∀ y ∈ l, NameOK y ∧ y ∈ names o items := fun y hy => hl y (by simp [hy])
    rw [List.map_cons, reprintFallbacks, show (symOf o items x).fallback = fallbackOf items x from rfl, show (symOf o items x).name = x from rfl, fallbackRuns]
    cases hf : fallbackOf items x with
    | none => exact wv_fallbacks_more hn l b F hl' hb
    | some G =>
      have hG : NameOK G := by simpa [hf] using hn x hx.2 (by simp [hf])
      have h1 := (wv_reprintName hx.1 b).append (wv_fallbacks_more hn l (b + 1) G hl' (by omega))
      have h2 := wv_sp.append (wv_dot.append ((wv_fallback hG).append h1))
      by_cases e : G = F
      · subst e
        simp only [if_true, List.nil_append]
        convert h1 using 1
        cases fallbackRuns (fallbackOf items) l with
        | nil => simp [moreWords, fileWords]
        | cons g gs =>
          obtain ⟨F', Ys⟩ := g
          by_cases e' : F' = G
          · simp [e', moreWords]
          · simp [e', moreWords, fileWords]
      · simp only [Option.some.injEq, if_neg (Ne.symm e), if_pos hb, show cstr " ." = [32, 46] by decide]
        convert h2 using 1
        · simp
        · cases fallbackRuns (fallbackOf items) l with
          | nil => simp [moreWords, fileWords_fallback, e]; simp [fileWords]
          | cons g gs =>
            obtain ⟨F', Ys⟩ := g
            by_cases e' : F' = G
            · simp [e', moreWords, e, fileWords_fallback]
            · simp [e', moreWords, e, fileWords_fallback]

theorem wv_fallbacks (hn : ∀ x ∈ names o items, fallbackOf items x ≠ none → NameOK ((fallbackOf items x).getD [])) :
    ∀ (l : List Word), (∀ x ∈ l, NameOK x ∧ x ∈ names o items) →
      Wv (reprintFallbacks 0 none (l.map (symOf o items))) (fileWords ((fallbackRuns (fallbackOf items) l).map fun g => .fallback (g.1 :: g.2)))
  | [], _ => by simpa [reprintFallbacks, fallbackRuns, fileWords] using wv_nl
  | x :: l, hl => by
    have hx := hl x (by simp)
    have hl' : ∀ y ∈ l, NameOK y ∧ y ∈ names o items := fun y hy => hl y (by simp [hy])
    rw [List.map_cons, reprintFallbacks, show (symOf o items x).fallback = fallbackOf items x from rfl, show (symOf o items x).name = x from rfl, fallbackRuns]
    cases hf : fallbackOf items x with
    | none => exact wv_fallbacks hn l hl'
    | some G =>
      have hG : NameOK G := by simpa [hf] using hn x hx.2 (by simp [hf])
      have h1 := (wv_fallback hG).append ((wv_reprintName hx.1 0).append (wv_fallbacks_more hn l 1 G hl' (by omega)))
      simp only [reduceCtorEq, if_false, Nat.lt_irrefl, gt_iff_lt, List.nil_append]
      convert h1 using 1
      · simp
      · cases fallbackRuns (fallbackOf items) l with
        | nil => simp [moreWords, fileWords_fallback]; simp [fileWords]
        | cons g gs =>
          obtain ⟨F', Ys⟩ := g
          by_cases e' : F' = G
          · simp [e', moreWords, fileWords_fallback]
          · simp [e', moreWords, fileWords_fallback]

theorem fileWords_append (a b : List Verif.Spec.GFile.Item) : fileWords (a ++ b) = fileWords a ++ fileWords b := by simp [fileWords]

theorem wv_flatMap {α : Type} (f : α → List Nat) (g : α → List Word) : ∀ (l : List α), (∀ x ∈ l, Wv (f x) (g x)) → Wv (l.flatMap f) (l.flatMap g)
  | [], _ => wv_nil
  | x :: l, h => by
    rw [List.flatMap_cons, List.flatMap_cons]
    exact (h x (by simp)).append (wv_flatMap f g l fun y hy => h y (by simp [hy]))

theorem fileWords_filterMap {α : Type} (f : α → Option Verif.Spec.GFile.Item) : ∀ l : List α, fileWords (l.filterMap f) = l.flatMap fun x => fileWords (f x).toList
  | [] => rfl
  | x :: l => by
    rw [List.flatMap_cons, ← fileWords_filterMap f l, ← fileWords_append, List.filterMap_cons]
    cases f x <;> rfl

theorem precOf_declared (hv : Valid o items) {x : Word} {p : Nat × Assoc} (h : precOf o items x = some p) : p.2 ≠ .UNK := by
  unfold precOf at h
  split at h
  · cases h
  · obtain ⟨d, hd, h⟩ := List.exists_of_findSome?_eq_some h
    have hm := List.fst_mem_of_mem_zipIdx hd
    unfold precs at hm
    obtain ⟨it, hi, hm⟩ := List.mem_filterMap.1 hm
    have := valid_form hv it hi
    cases it <;> simp at hm
    next a Xs =>
    split at h
    · simp at h
      subst h
      rw [← hm]
      exact this.1
    · cases h

theorem assoc_word {a : Assoc} (h : a ≠ .UNK) : reprintAssoc a = text (precKeyword a) ∧ NameOK (text (precKeyword a)) := by
  cases a <;> first | exact absurd rfl h | exact ⟨by decide, by decide⟩

theorem wv_level (hv : Valid o items) (hh : Holds o items s) (hn : ∀ x ∈ tokens o items, NameOK x) (j : Nat) : Wv (s.reprintPrec j) (fileWords (level o items j).toList) := by
  have e : (s.terminals.filter fun y => y.prec == (j : Int)) = ((tokens o items).filter fun X => (precOf o items X).map Prod.fst = some j).map (symOf o items) := by
    rw [terminals_eq hv hh, List.filter_map]
    congr 1
    refine List.filter_congr fun X _ => ?_
    simp only [Function.comp, symOf]
    cases precOf o items X with
    | none => simp
    | some p => simp only [Option.map_some, Option.some.injEq]; rw [Bool.eq_iff_iff]; simp
  unfold RState.reprintPrec level
  rw [e]
  have hm : ∀ X ∈ (tokens o items).filter (fun X => (precOf o items X).map Prod.fst = some j), NameOK X ∧ (precOf o items X).map Prod.fst = some j := by
    intro X hX
    have := List.mem_filter.1 hX
    exact ⟨hn X this.1, by simpa using this.2⟩
  revert hm
  generalize (tokens o items).filter (fun X => (precOf o items X).map Prod.fst = some j) = l
  intro hm
  cases l with
  | nil => exact wv_nil
  | cons X l =>
    obtain ⟨p, hp, -⟩ := Option.map_eq_some_iff.1 (hm X (by simp)).2
    have ha : (symOf o items X).assoc = p.2 := by simp [symOf, hp]
    obtain ⟨h1, h2⟩ := assoc_word (precOf_declared hv hp)
    have h3 := (wv_decl h2).append ((wv_comment (b := decimal j) (decimal_not (by omega))).append
      ((wv_flatMap (fun x => 32 :: x) (fun x => [x]) (X :: l) fun x hx => wv_name (hm x hx).1).append (wv_sp.append (wv_dot.append wv_nl))))
    simp only [List.map_cons, hp, Option.map_some, ha, h1]
    rw [show cstr " /*" = [32, 47, 42] by decide, show cstr "*/" = [42, 47] by decide, show cstr " .\n" = [32, 46, 10] by decide]
    convert h3 using 1
    · rw [← List.map_cons, List.flatMap_map]
      simp [symOf]
    · simp [fileWords, Item.words, any, Function.comp_def, show text "%" = [37] by decide, show text "." = [46] by decide]

theorem wv_note (y : Sym) : Wv (precNote y) [] := by
  unfold precNote
  split
  · have : 42 ∉ decimal y.prec.toNat ++ [precChr y] := by
      intro h
      rcases List.mem_append.1 h with h | h
      · exact decimal_not (by omega) h
      · rw [List.mem_singleton] at h
        unfold precChr at h
        split at h
        · cases hy : y.assoc <;> simp [hy] at h
        · simp at h
    have := wv_comment this
    rw [show cstr " /*" = [32, 47, 42] by decide, show cstr "*/" = [42, 47] by decide]
    simpa using this
  · exact wv_nil

theorem wv_elem (e : RhsRef) {x : Word} {l : List Word} (he : s.sqlSyms e = x :: l) (hn : ∀ y ∈ x :: l, NameOK y) :
    ∃ z, s.printElem e = some z ∧ Wv z (x :: l.map fun y => 124 :: y) := by
  refine ⟨_, by rw [RState.printElem, he], ?_⟩
  have h1 := ((wv_name (hn x (by simp))).append (wv_note (s.sym x))).append
    (wv_flatMap (fun y => 124 :: y ++ precNote (s.sym y)) (fun y => [124 :: y]) l fun y hy => by
      simpa using (wv_alt (hn y (by simp [hy]))).append (wv_note (s.sym y)))
  convert h1 using 1
  · simp [RState.printSym]
  · rw [List.map_eq_flatMap]; simp

theorem plain_words {e : Elem} {x : Word} {l : List Word} (h : choices items e = x :: l) : (writtenOut items e).words.map Prod.snd = x :: l.map fun y => 124 :: y := by
  simp only [writtenOut, h, Elem.words, any, List.headD_cons, List.tail_cons, List.map_cons, List.flatMap_map]
  congr 1
  clear h
  induction l with
  | nil => rfl
  | cons y l ih => simpa [Post.words, any] using ih

theorem wv_rhs (hv : Valid o items) (hh : Holds o items s) (hn : ∀ x ∈ tokens o items ++ nonterminals o items, NameOK x) {l : Word} {a : Option Word} {rhs : List Elem} {line : Nat}
    (hr : .rule l a rhs line ∈ items) : ∀ (es : List Elem), (∀ e ∈ es, e ∈ rhs ∧ choices items e ≠ []) →
    ∃ zs, ((es.map fun e => (refOf (isClass items) e, e.label)).mapM fun e => s.printElem e.1) = some zs ∧ Wv zs.flatten ((es.map (writtenOut items)).flatMap Elem.words |>.map Prod.snd)
  | [], _ => ⟨[], rfl, wv_nil⟩
  | e :: es, h => by
    obtain ⟨zs, h1, h2⟩ := wv_rhs hv hh hn hr es fun e he => h e (by simp [he])
    obtain ⟨h3, h4⟩ := sqlSyms_choices hv hh hr (h e (by simp)).1
    have h5 := (h e (by simp)).2
    cases hc : choices items e with
    | nil => exact absurd hc h5
    | cons x xs =>
      rw [hc] at h3 h4
      obtain ⟨z, h6, h7⟩ := wv_elem _ h3 fun y hy => hn y (List.mem_append.2 (h4 y hy))
      refine ⟨z :: zs, ?_, ?_⟩
      · rw [List.map_cons, List.mapM_cons, h6, h1]
        rfl
      · rw [List.flatten_cons, List.map_cons, List.flatMap_cons, List.map_append, plain_words hc]
        exact h7.append h2

theorem wc_rule (hv : Valid o items) (hh : Holds o items s) (hn : ∀ x ∈ tokens o items ++ nonterminals o items, NameOK x)
    (hm : ∀ it ∈ items, ∀ x ∈ mentions o it, NameOK x)
    {p : Verif.Spec.GFile.Item × List Verif.Spec.GFile.Item} (hp : p ∈ parts items) (hc : ∀ e ∈ rhsOf p.1, choices items e ≠ []) :
    ∃ z, s.reprintRule (ruleOf o (isClass items) p) = some z ∧ Wc z (fileWords (bare o items p)) := by
  have hr := parts_isRule _ _ hp
  have hsub := parts_sub _ _ hp
  have hmem := parts_mem hp
  obtain ⟨it, rest⟩ := p
  cases it <;> simp [Item.isRule] at hr
  next l a rhs line =>
  simp only at hmem hsub
  have hl : NameOK l := hm _ hmem l (by simp [mentions])
  obtain ⟨zs, h1, h2⟩ := wv_rhs hv hh hn hmem rhs fun e he => ⟨he, hc e he⟩
  have h3 : Wv (if (rhs.map fun e => (refOf (isClass items) e, e.label)) = [] then cstr " /*empty*/" else zs.flatten) ((rhs.map (writtenOut items)).flatMap Elem.words |>.map Prod.snd) := by
    cases rhs with
    | nil => exact wv_comment (b := text "empty") (by decide)
    | cons e es => simpa using h2
  have h4 : Wv (match (ruleOf o (isClass items) (.rule l a rhs line, rest)).precsym with | some x => cstr " [" ++ x ++ cstr "]" ++ precNote (s.sym x) | none => [])
      (fileWords ((if o.ignorePrec then none else rest.findSome? Item.markOf).map Item.mark).toList) := by
    simp only [ruleOf]
    by_cases hi : o.ignorePrec = true
    · simpa [hi, fileWords] using wv_nil
    · rw [if_neg hi]
      cases hx : rest.findSome? Item.markOf with
      | none => exact wv_nil
      | some x =>
        obtain ⟨it, hit, hx⟩ := List.exists_of_findSome?_eq_some hx
        have hx' : NameOK x := by
          refine hm it (hsub it hit) x ?_
          cases it <;> simp [Item.markOf] at hx
          simp [mentions, hi, hx]
        have hb : ∀ c, c = 91 ∨ c = 93 → ¬ blank c ∧ ¬ letter c ∧ ¬ digit c ∧ c ≠ 34 ∧ c ≠ 123 := by
          unfold blank letter digit
          omega
        have := wv_sp.append ((wv_word (c := 91) (hb _ (.inl rfl)) (by omega) hx').append ((wv_char (c := 93) (hb _ (.inr rfl)) (by omega)).append (wv_note (s.sym x))))
        convert this using 1
        · simp [show cstr " [" = [32, 91] by decide, show cstr "]" = [93] by decide]
        · simp [fileWords, Item.words, any, show text "[" = [91] by decide, show text "]" = [93] by decide]
  have h5 : Wc (l ++ cstr " ::=") [l, text "::="] := by
    have h6 : Wc (32 :: [58, 58, 61]) [[58, 58, 61]] := (wc_blank (c := 32) (.inl rfl)).append Verif.Byacc.ToLemon.wc_arrow
    have := (wd_name hl.1 hl.2).append (z' := 32 :: [58, 58, 61]) (by intro d hd; simp at hd; subst hd; unfold inName letter digit; omega) (by simp) h6
    rw [show cstr " ::=" = 32 :: [58, 58, 61] by decide, show text "::=" = [58, 58, 61] by decide]
    exact this
  refine ⟨_, by rw [RState.reprintRule, RState.printRule, show (ruleOf o (isClass items) (.rule l a rhs line, rest)).rhs = rhs.map fun e => (refOf (isClass items) e, e.label) from rfl, h1, Option.map_some, Option.map_some], ?_⟩
  have h7 := h5.append (h3.append (wv_sp.append (wv_dot.append h4))).nl
  convert h7 using 1
  · simp [show cstr " ." = [32, 46] by decide, ruleOf]
    rfl
  · simp [bare, fileWords, Item.words, any, lhsOf, rhsOf, show text "." = [46] by decide]

theorem wc_rules (hv : Valid o items) (hh : Holds o items s) (hn : ∀ x ∈ tokens o items ++ nonterminals o items, NameOK x)
    (hm : ∀ it ∈ items, ∀ x ∈ mentions o it, NameOK x) :
    ∀ (ps : List (Verif.Spec.GFile.Item × List Verif.Spec.GFile.Item)) (prev : Option Word), (∀ p ∈ ps, p ∈ parts items ∧ ∀ e ∈ rhsOf p.1, choices items e ≠ []) →
    ∃ z, s.reprintRules prev (ps.map (ruleOf o (isClass items))) = some z ∧ Wc z (fileWords (ps.flatMap (bare o items)))
  | [], _, _ => ⟨[10], rfl, wc_blank (.inr (by omega))⟩
  | p :: ps, prev, h => by
    obtain ⟨z, h1, h2⟩ := wc_rule hv hh hn hm (h p (by simp)).1 (h p (by simp)).2
    obtain ⟨u, h3, h4⟩ := wc_rules hv hh hn hm ps (some (ruleOf o (isClass items) p).lhs) fun q hq => h q (by simp [hq])
    have h5 : Wc (if prev.isSome ∧ prev ≠ some (ruleOf o (isClass items) p).lhs then [10] else []) [] := by
      split
      · exact wc_blank (.inr (by omega))
      · exact wc_nil
    refine ⟨_, by rw [List.map_cons, RState.reprintRules, h1, Option.bind_some, h3, Option.map_some], ?_⟩
    rw [List.flatMap_cons, fileWords_append]
    simpa using (h5.append h2).append h4

end Verif.Lemon
