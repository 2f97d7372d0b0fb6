import Verif.Lemon.HFile
import Verif.Spec.LemonHFile
import Verif.Proofs.LemonUsable
import Verif.Proofs.LemonTextAll
/-
The header file and the names of files, for C112 and C113.
-/
set_option autoImplicit false
namespace Verif.Lemon
open Verif.Spec.GFile Verif.Spec.HFile
open Verif.Spec.LText (left right)
open Verif.Spec.RuleCode (num)

theorem strrchr_none {c : Nat} : ∀ {l : List Nat}, c ∉ l → strrchr c l = none
  | [], _ => rfl
  | a :: l, h => by
    simp only [List.mem_cons, not_or] at h
    rw [strrchr, strrchr_none h.2]
    exact if_neg (fun e => h.1 e.symm)

theorem strrchr_append {c : Nat} {e : List Nat} (he : c ∉ e) : ∀ a : List Nat, strrchr c (a ++ c :: e) = some (a, e)
  | [] => by rw [List.nil_append, strrchr, strrchr_none he]; exact if_pos rfl
  | x :: a => by rw [List.cons_append, strrchr, strrchr_append he a]

theorem base_name {f dir stem ext : List Nat} (h : IsPath f dir stem ext) : ((strrchr 47 f).map Prod.snd).getD f = stem ++ ext := by
  have hn : 47 ∉ stem ++ ext := by
    rcases h.isExt with ⟨e, -⟩ | ⟨e, rfl, -, he⟩
    · simp [e, h.noSlash]
    · simp [h.noSlash, he]
  rw [h.eq, List.append_assoc]
  rcases h.isDir with rfl | hd
  · rw [List.nil_append, strrchr_none hn]; rfl
  · obtain ⟨d, rfl⟩ := List.getLast?_eq_some_iff.1 hd
    rw [List.append_assoc, List.singleton_append, strrchr_append hn]; rfl

theorem fgets_flatten (n : Nat) : ∀ (t cur : List Nat), (fgetsGo n cur t).flatten = cur ++ t
  | [], cur => by
    rw [fgetsGo]
    split
    · rename_i h; rw [h]; rfl
    · simp
  | c :: t, cur => by
    rw [fgetsGo]
    split
    · rw [List.flatten_cons, fgets_flatten n t []]; simp
    · rw [fgets_flatten n t]; simp

theorem fgets_newline (n : Nat) : ∀ (t cur : List Nat), 10 ∉ cur → ∀ l ∈ fgetsGo n cur t, 10 ∉ l.dropLast
  | [], cur, h, l, hl => by
    rw [fgetsGo] at hl
    split at hl
    · simp at hl
    · simp only [List.mem_singleton] at hl
      subst hl
      exact fun hm => h (List.dropLast_subset _ hm)
  | c :: t, cur, h, l, hl => by
    rw [fgetsGo] at hl
    split at hl
    · rcases List.mem_cons.1 hl with rfl | hl
      · rwa [List.dropLast_concat]
      · exact fgets_newline n t [] (by simp) l hl
    · rename_i hc
      refine fgets_newline n t _ ?_ l hl
      simp only [List.mem_append, List.mem_singleton, not_or]
      exact ⟨h, fun e => hc (.inl e.symm)⟩

theorem piece_eq {l p : List Nat} (h : 10 ∉ l.dropLast) (hp : 10 ∈ p) (e : l.takeWhile (· ≠ 0) = p) : l = p := by
  obtain ⟨q, hq⟩ := List.takeWhile_prefix (l := l) (fun x : Nat => decide (x ≠ 0))
  rw [e] at hq
  cases hq' : q with
  | nil => rw [hq', List.append_nil] at hq; exact hq.symm
  | cons a q' =>
    exfalso
    apply h
    rw [← hq, List.dropLast_append_of_ne_nil (by simp [hq'])]
    exact List.mem_append_left _ hp

theorem mem_pattern (s : RState) (i : Nat) : 10 ∈ s.hdrPattern i := by simp [RState.hdrPattern]

/-- the loop ends with success exactly if the lines are the patterns -/
theorem hdrLoop_iff (s : RState) (hs : ∀ i, 0 < i → i < s.nterminal → (s.hdrPattern i).length ≤ 999 ∧ 0 ∉ s.hdrPattern i) :
    ∀ (ls : List (List Nat)) (i : Nat), 0 < i → i ≤ s.nterminal → (∀ l ∈ ls, 10 ∉ l.dropLast) →
    ∃ r, s.hdrLoop i ls = some r ∧ (r = (s.nterminal, true) ↔ ls = ((List.range s.nterminal).drop i).map s.hdrPattern)
  | [], i, h0, hi, _ => by
    refine ⟨_, rfl, ?_⟩
    rw [Prod.mk.injEq]
    constructor
    · rintro ⟨rfl, -⟩
      rw [List.drop_of_length_le (by simp)]; rfl
    · intro h
      have := congrArg List.length h
      simp only [List.length_nil, List.length_map, List.length_drop, List.length_range] at this
      exact ⟨by omega, rfl⟩
  | l :: ls, i, h0, hi, hl => by
    rw [RState.hdrLoop]
    by_cases hn : s.nterminal ≤ i
    · rw [if_pos hn]
      refine ⟨_, rfl, ?_⟩
      rw [List.drop_of_length_le (by simpa using hn)]
      simp
    · have hin : i < s.nterminal := by omega
      obtain ⟨hlen, hnul⟩ := hs i h0 hin
      rw [if_neg hn, if_neg (by omega)]
      have hdrop : (List.range s.nterminal).drop i = i :: (List.range s.nterminal).drop (i + 1) := by
        rw [List.drop_eq_getElem_cons (by simpa using hin)]
        simp
      rw [hdrop, List.map_cons, List.cons.injEq]
      by_cases hm : l.takeWhile (· ≠ 0) = s.hdrPattern i
      · rw [if_neg (by simpa using hm)]
        obtain ⟨r, h1, h2⟩ := hdrLoop_iff s hs ls (i + 1) (by omega) (by omega) (fun l h => hl l (by simp [h]))
        refine ⟨r, h1, h2.trans ?_⟩
        have := piece_eq (hl l (by simp)) (mem_pattern s i) hm
        simp [this]
      · rw [if_pos hm]
        refine ⟨_, rfl, ?_⟩
        constructor
        · intro h
          rw [Prod.mk.injEq] at h
          omega
        · rintro ⟨rfl, -⟩
          exact absurd (List.takeWhile_eq_self_iff.2 fun x hx => by simpa using fun e : x = 0 => hnul (e ▸ hx)) hm

theorem fgets_lines (n : Nat) : ∀ (ps : List (List Nat)), (∀ p ∈ ps, ∃ l, p = l ++ [10] ∧ 10 ∉ l ∧ p.length ≤ n) → fgetsGo n [] ps.flatten = ps
  | [], _ => by simp [fgetsGo]
  | p :: ps, h => by
    obtain ⟨l, rfl, h1, h2⟩ := h p (by simp)
    rw [List.flatten_cons, List.append_assoc, List.singleton_append, LT.fgetsGo_line n _ [] l h1 (by simpa using h2), fgets_lines n ps (fun p hp => h p (by simp [hp]))]
    simp

/-- which headers are kept -/
theorem reportHeader_eq (s : RState) (hn : 0 < s.nterminal)
    (hs : ∀ i, 0 < i → i < s.nterminal → (s.hdrPattern i).length ≤ 999 ∧ 0 ∉ s.hdrPattern i ∧ 10 ∉ (s.hdrPattern i).dropLast) (old : Option (List Nat)) :
    s.reportHeader old = if old = some (((List.range s.nterminal).drop 1).flatMap s.hdrPattern) then .kept else .wrote s.hdrText := by
  cases old with
  | none => rfl
  | some t =>
    rw [RState.reportHeader]
    obtain ⟨r, h1, h2⟩ := hdrLoop_iff s (fun i a b => ⟨(hs i a b).1, (hs i a b).2.1⟩) (fgetsGo 999 [] t) 1 (by omega) hn (fgets_newline _ _ _ (by simp))
    rw [h1]
    simp only
    have hp : ∀ p ∈ ((List.range s.nterminal).drop 1).map s.hdrPattern, ∃ l, p = l ++ [10] ∧ 10 ∉ l ∧ p.length ≤ 999 := by
      intro p hp
      obtain ⟨i, hi, rfl⟩ := List.mem_map.1 hp
      obtain ⟨j, hj, e⟩ := List.mem_iff_getElem.1 hi
      simp at hj e
      obtain ⟨k1, -, k3⟩ := hs i (by omega) (by omega)
      refine ⟨(s.hdrPattern i).dropLast, ?_, k3, k1⟩
      unfold RState.hdrPattern
      rw [List.dropLast_concat]
    have hiff : r = (s.nterminal, true) ↔ some t = some (((List.range s.nterminal).drop 1).flatMap s.hdrPattern) := by
      rw [h2, Option.some.injEq, List.flatMap_def]
      constructor
      · intro h
        have := congrArg List.flatten h
        rwa [fgets_flatten, List.nil_append] at this
      · intro h
        rw [h, fgets_lines _ _ hp]
    by_cases h : r = (s.nterminal, true)
    · rw [if_pos (by rw [h]; exact ⟨rfl, rfl⟩), if_pos (hiff.1 h)]
    · rw [if_neg (fun hr => h (Prod.ext hr.1 hr.2)), if_neg (fun e => h (hiff.2 e))]

variable {o : Opts} {items : List Verif.Spec.GFile.Item} {s : RState}

theorem hdr_numbers (hv : Valid o items) (hh : Holds o items s) : ((List.range s.nterminal).drop 1).map (fun i => (s.hdrName i, i)) = tokenNumbers o items := by
  have hn := nterminal_eq hv hh
  refine List.ext_getElem (by simp [tokenNumbers, hn]) ?_
  intro k h1 h2
  simp [tokenNumbers] at h1 h2
  rcases symbols_token hv hh (1 + k) (by omega) with ⟨h, _⟩ | ⟨Y, hY, e1, e2⟩
  · omega
  · have hk : (tokens o items)[k] = Y := by
      unfold tokenNumber at e1
      have : (tokens o items).idxOf Y = k := by omega
      subst this
      exact List.getElem_idxOf _
    simp only [tokenNumbers, List.getElem_map, List.getElem_drop, List.getElem_range, hk, RState.hdrName, e2, Prod.mk.injEq]
    exact ⟨rfl, e1⟩

theorem hdr_prefix (hh : Holds o items s) : s.hdrPrefix = (argOf o items ("token_prefix", false)).getD [] := by
  unfold RState.hdrPrefix
  rw [hh.args]; rfl

theorem hdr_pattern (s : RState) (i : Nat) : s.hdrPattern i = macroLine s.hdrPrefix (s.hdrName i, i) ++ [10] := by
  unfold RState.hdrPattern macroLine
  rw [decimal_num]; rfl

theorem hdr_macros (hv : Valid o items) (hh : Holds o items s) : ((List.range s.nterminal).drop 1).flatMap s.hdrPattern = macros s.hdrPrefix (tokenNumbers o items) := by
  rw [← hdr_numbers hv hh, macros, List.flatMap_map]
  exact List.flatMap_congr fun i _ => hdr_pattern s i

theorem hdr_text (hv : Valid o items) (hh : Holds o items s) : s.hdrText = header o items s.hdrPrefix := by
  have hn := nterminal_eq hv hh
  rw [header, enumeration, ← hdr_numbers hv hh, List.flatMap_map, RState.hdrText, show max 1 s.nterminal = (tokens o items).length + 1 by omega]
  unfold constant
  simp only [decimal_num]
  simp only [List.append_assoc]
  rfl

end Verif.Lemon
