import Verif.Lemon.Tplt
import Verif.Spec.LemonTplt
import Verif.Proofs.LemonHFile
/-
C116: which template lemon uses for the parser (violated for files in PATH that can not be read, long names, and an empty PATH).
-/
set_option autoImplicit false
namespace Verif.Lemon
open Verif.Spec.HFile Verif.Spec.Tplt
open Verif.Spec.GFile (text)

theorem pathDirs_word : ∀ (d cur t : List Nat), 58 ∉ d → pathDirs cur (d ++ 58 :: t) = (cur ++ d) :: pathDirs [] t
  | [], cur, t, _ => by simp [pathDirs]
  | c :: d, cur, t, h => by
    simp only [List.mem_cons, not_or] at h
    rw [List.cons_append, pathDirs, if_neg (fun e => h.1 e.symm), pathDirs_word d _ t h.2]
    simp

theorem pathDirs_last : ∀ (d cur : List Nat), 58 ∉ d → cur ++ d ≠ [] → pathDirs cur d = [cur ++ d]
  | [], cur, _, h => by
    rw [List.append_nil] at h
    simp [pathDirs, h]
  | c :: d, cur, h, _ => by
    simp only [List.mem_cons, not_or] at h
    rw [pathDirs, if_neg (fun e => h.1 e.symm), pathDirs_last d _ h.2 (by simp)]
    simp

theorem pathDirs_join : ∀ (ds : List (List Nat)), ds ≠ [] → (∀ d ∈ ds, d ≠ [] ∧ 58 ∉ d) → pathDirs [] (List.intercalate [58] ds) = ds
  | [], h, _ => absurd rfl h
  | [d], _, h => by
    have := h d (by simp)
    rw [show List.intercalate [58] [d] = d by simp [List.intercalate], pathDirs_last d [] this.2 (by simpa using this.1)]
    rfl
  | d :: e :: ds, _, h => by
    have := h d (by simp)
    rw [show List.intercalate [58] (d :: e :: ds) = d ++ 58 :: List.intercalate [58] (e :: ds) by simp [List.intercalate],
      pathDirs_word d [] _ this.2, pathDirs_join (e :: ds) (by simp) (fun x hx => h x (by simp [hx]))]
    rfl

/-- C116, template given.  With `-T` the template is the one given and no other. -/
theorem C116_user (D : Disk) (u filename argv0 : List Nat) (path : Option (List Nat)) :
    tpltOpen D (some u) filename argv0 path = if D.readable u then .opened u else .failed := rfl

/-- C116.  The template is the first one of the candidates that can be read; if there is none, lemon says so.  (Full statement: without the hypotheses on the name of the
grammar file and that files that exist can be read, see the violations below.) -/
theorem C116_search_partial (D : Disk) (filename argv0 dir stem ext : List Nat) (path : Option (List Nat)) (h : Home) (hh : IsHome argv0 path h)
    (hp : IsPath filename dir stem ext) (hd : ext ≠ [] ∨ 46 ∉ dir) (hl : (dir ++ stem).length ≤ 996) (hD : ∀ p, D.present p = D.readable p) :
    tpltOpen D none filename argv0 path = match (candidates dir stem h).find? D.readable with | some p => .opened p | none => .failed := by
  have hlt : ((strrchr 46 filename).map Prod.fst).getD filename = dir ++ stem := by
    rcases hp.isExt with ⟨rfl, hs⟩ | ⟨e, rfl, he, -⟩
    · have : 46 ∉ filename := by
        rw [hp.eq]
        rcases hd with hd | hd
        · exact absurd rfl hd
        · simp [hd, hs]
      rw [strrchr_none this, hp.eq]
      simp
    · rw [hp.eq, strrchr_append he]
      rfl
  have hpr : D.present = D.readable := funext hD
  have hsearch : (∃ p, pathSearch D argv0 path (cstr "lempar.c") = some p ∧
      (if D.readable p then TpltOut.opened p else .failed) =
        match (match h with | .directory d => [d ++ text "/lempar.c"] | .search ds => ds.map fun d => d ++ text "/lempar.c").find? D.readable with
          | some p => .opened p | none => .failed) := by
    have hs : ∀ (name : List Nat) (pa : Option (List Nat)) (ds : List (List Nat)), 47 ∉ name → ds ≠ [] →
        pathDirs [] (pa.getD (cstr ".:/bin:/usr/bin")) = ds →
        ∃ p, pathSearch D name pa (cstr "lempar.c") = some p ∧ (if D.readable p then TpltOut.opened p else .failed) =
          match (ds.map fun d => d ++ text "/lempar.c").find? D.readable with | some p => .opened p | none => .failed := by
      intro name pa ds hn hne hds
      unfold pathSearch
      rw [strrchr_none hn]
      simp only [hds, hpr]
      have e : (ds.map fun d => d ++ [47] ++ cstr "lempar.c") = ds.map fun d => d ++ text "/lempar.c" := List.map_congr_left fun d _ => by
        rw [List.append_assoc]; rfl
      rw [e]
      generalize hg : (ds.map fun d => d ++ text "/lempar.c") = l
      cases hf : l.find? D.readable with
      | some p => exact ⟨p, rfl, by rw [if_pos (List.find?_some hf)]⟩
      | none =>
        have hl : l ≠ [] := by rw [← hg]; simpa using hne
        refine ⟨l.getLast hl, List.getLast?_eq_some_getLast hl, ?_⟩
        rw [if_neg]
        rw [List.find?_eq_none] at hf
        exact hf _ (List.getLast_mem hl)
    cases hh with
    | called d base path hb =>
      refine ⟨d ++ text "/lempar.c", ?_, ?_⟩
      · unfold pathSearch
        rw [List.append_assoc, List.singleton_append, strrchr_append hb]
        simp only [List.append_assoc]
        rfl
      · simp only [List.find?_cons, List.find?_nil]
        cases D.readable (d ++ text "/lempar.c") <;> rfl
    | path name ds hn hne hds => exact hs _ _ ds hn hne (pathDirs_join ds hne hds)
    | noPath name hn => exact hs _ _ _ hn (by simp) (by decide)
  obtain ⟨p, h1, h2⟩ := hsearch
  have e1 : cstr ".lt" = text ".lt" := rfl
  have e2 : cstr "lempar.c" = text "lempar.c" := rfl
  have e3 : (text ".lt").length = 3 := rfl
  unfold tpltOpen
  simp only [hlt, h1, e1]
  rw [if_neg (by rw [List.length_append, e3]; omega)]
  unfold candidates
  simp only [List.cons_append, List.nil_append, List.find?_cons]
  rw [h2]
  simp only [e2]
  cases D.readable (dir ++ stem ++ text ".lt") with
  | true => rfl
  | false =>
    cases D.readable (text "lempar.c") with
    | true => rfl
    | false => rfl

/-- C116 is violated: a file `lempar.c` in `PATH` that can not be read hides the one in a later directory. -/
theorem C116_hidden_violated : ∃ (D : Disk) (path : List Nat) (h : Home), (∀ p, D.readable p = true → D.present p = true) ∧ IsHome (text "lemon") (some path) h ∧
    (candidates [] (text "g") h).find? D.readable = some (text "/b/lempar.c") ∧ tpltOpen D none (text "g.y") (text "lemon") (some path) = .failed := by
  refine ⟨⟨fun p => p == text "/b/lempar.c", fun p => p == text "/a/lempar.c" || p == text "/b/lempar.c"⟩, List.intercalate [58] [text "/a", text "/b"],
    .search [text "/a", text "/b"], ?_, .path _ _ (by decide) (by simp) (by decide), by decide, by decide⟩
  intro p hp
  simp only [beq_iff_eq] at hp
  simp [hp]

/-- C116 is violated: the buffer for the name `stem.lt` overflows if the path of the grammar file is long, whatever files there are. -/
theorem C116_overflow_violated (D : Disk) (filename argv0 dir stem ext : List Nat) (path : Option (List Nat)) (hp : IsPath filename dir stem ext)
    (he : ext ≠ []) (hl : 997 ≤ (dir ++ stem).length) : tpltOpen D none filename argv0 path = .undefined := by
  rcases hp.isExt with ⟨rfl, -⟩ | ⟨e, rfl, hne, -⟩
  · exact absurd rfl he
  · have : ((strrchr 46 filename).map Prod.fst).getD filename = dir ++ stem := by
      rw [hp.eq, strrchr_append hne]
      rfl
    unfold tpltOpen
    simp only [this]
    rw [if_pos]
    rw [List.length_append, show (cstr ".lt").length = 3 from rfl]
    omega

/-- C116 is violated: if `PATH` is empty and no other template can be read, memory that was never written is taken for the name. -/
theorem C116_empty_violated (D : Disk) (filename argv0 : List Nat) (h1 : 47 ∉ argv0) (h2 : D.readable (text "lempar.c") = false)
    (h3 : D.readable (((strrchr 46 filename).map Prod.fst).getD filename ++ text ".lt") = false) :
    tpltOpen D none filename argv0 (some []) = .undefined := by
  have hs : pathSearch D argv0 (some []) (cstr "lempar.c") = none := by
    unfold pathSearch
    rw [strrchr_none h1]
    rfl
  have e1 : cstr ".lt" = text ".lt" := rfl
  have e2 : cstr "lempar.c" = text "lempar.c" := rfl
  rw [e2] at hs
  unfold tpltOpen
  simp only [e1, e2, h2, h3, hs]
  simp

/-! ### examples -/

example : IsHome (text "/opt/bin/lemon") (some (text "/bin")) (.directory (text "/opt/bin")) := .called (text "/opt/bin") (text "lemon") _ (by decide)
example : candidates (text "src/") (text "g") (.directory (text "/opt/bin")) = [text "src/g.lt", text "lempar.c", text "/opt/bin/lempar.c"] := by decide
example : tpltOpen ⟨fun p => p == text "/usr/bin/lempar.c", fun p => p == text "/usr/bin/lempar.c"⟩ none (text "src/g.y") (text "lemon") none = .opened (text "/usr/bin/lempar.c") := by decide
example : tpltOpen ⟨fun p => p == text "src/g.lt", fun p => p == text "src/g.lt"⟩ none (text "src/g.y") (text "lemon") none = .opened (text "src/g.lt") := by decide

end Verif.Lemon
