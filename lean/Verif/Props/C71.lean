import Verif.Proofs.LemonScan
/-
C71: lemon divides grammar files into words correctly.
-/
set_option autoImplicit false
namespace Verif.Lemon
open Verif.Spec.Words

/-- the words as calls of `parseonetoken` -/
def given (ws : List (Nat × List Nat)) : List ScanEv := ws.map fun w => .tok w.1 w.2

/-- C71.  The scanner passes exactly the words of the text on, each with the number of its line, and
reports no error, if and only if the text can be divided into words. -/
theorem C71_words (z : List Nat) (ws : List (Nat × List Nat)) : scan z = some (given ws) ↔ HasWords z ws := by
  have hconv : ∀ ws', HasWords z ws' → scan z = some (given ws') := by
    intro ws' h
    obtain ⟨f, p, _, h2, h3⟩ := scanGo_reads h (z.length + 1) (by omega)
    unfold scan
    rw [h3]
    obtain ⟨f, rfl⟩ : ∃ f', f = f' + 1 := ⟨f - 1, by omega⟩
    rw [scanGo]
    simp [given]
  refine ⟨fun h => ?_, hconv ws⟩
  have hinj : ∀ a b : List (Nat × List Nat), given a = given b → a = b := by
    intro a b hab
    refine List.map_injective_iff.mpr ?_ hab
    rintro ⟨a1, a2⟩ ⟨b1, b2⟩ h
    simpa using h
  have hno : ∀ l : Nat, ∀ ws : List (Nat × List Nat), ScanEv.noString ∉ given ws ∧ ScanEv.noCode l ∉ given ws := by
    intro l ws; constructor <;> simp [given]
  obtain ⟨ws', e, h1, h2⟩ := words_cases _ z 1 le_rfl
  obtain ⟨f, p, _, h3, h4⟩ := scanGo_reads h1 (z.length + 1) (by omega)
  obtain ⟨f, rfl⟩ : ∃ f', f = f' + 1 := ⟨f - 1, by omega⟩
  have h : scanGo (z.length + 1) z 1 = some (given ws) := h
  rcases h2 with rfl | ⟨b, rfl, hb⟩ | ⟨b, rfl, hb | hb⟩
  · have := hconv ws' h1
    unfold scan at this
    rw [h, Option.some.injEq] at this
    rw [hinj _ _ this]
    exact h1
  · rw [h, scanGo_openString hb f _ (by simp at h3; omega)] at h4
    simp only [Option.map_some, Option.some.injEq] at h4
    exact absurd (by rw [h4]; simp) (hno 0 ws).1
  · rw [h, scanGo_openCode hb f _ (by simp at h3; omega)] at h4
    simp only [Option.map_some, Option.some.injEq] at h4
    exact absurd (by rw [h4]; simp) (hno (1 + p.count 10) ws).2
  · rw [h, scanGo_stuckCode hb f _] at h4
    simp at h4

/-- There is at most one way to divide a text into words. -/
theorem C71_unique (z : List Nat) (ws ws' : List (Nat × List Nat)) (h : HasWords z ws) (h' : HasWords z ws') : ws = ws' := by
  have h1 := (C71_words z ws).mpr h
  rw [(C71_words z ws').mpr h', Option.some.injEq] at h1
  refine (List.map_injective_iff.mpr ?_ h1).symm
  rintro ⟨a1, a2⟩ ⟨b1, b2⟩ h
  simpa using h

/-- C71, words that are not ended.  Every text is one of these:

* it is divided into words;
* it is divided into words up to a string that is not ended; this is reported (with line number 0);
* it is divided into words up to code in which a brace is not closed; this is reported, with the number of the line on
  which the code begins;
* it is divided into words up to code in which a comment or literal is not ended.  The claim that this is reported
  too does not hold: the scanner leaves the text (`scan` has no result), see `C71_violated`. -/
theorem C71_open (z : List Nat) : ∃ (ws : List (Nat × List Nat)) (p e : List Nat), Reads 1 z ws e ∧ z = p ++ e ∧
    ((e = [] ∧ scan z = some (given ws)) ∨
    (∃ b, e = 34 :: b ∧ 34 ∉ b ∧ scan z = some (given ws ++ [.noString, .tok (1 + p.count 10) e])) ∨
    (∃ b, e = 123 :: b ∧ OpenCode b ∧ scan z = some (given ws ++ [.noCode (1 + p.count 10), .tok (1 + p.count 10) e])) ∨
    ∃ b, e = 123 :: b ∧ StuckCode b ∧ scan z = none) := by
  obtain ⟨ws, e, h1, h2⟩ := words_cases _ z 1 le_rfl
  obtain ⟨f, p, h5, h3, h4⟩ := scanGo_reads h1 (z.length + 1) (by omega)
  obtain ⟨f, rfl⟩ : ∃ f', f = f' + 1 := ⟨f - 1, by omega⟩
  refine ⟨ws, p, e, h1, h5, ?_⟩
  unfold scan
  rcases h2 with rfl | ⟨b, rfl, hb⟩ | ⟨b, rfl, hb | hb⟩
  · exact .inl ⟨rfl, by rw [h4, scanGo]; simp [given]⟩
  · exact .inr (.inl ⟨b, rfl, hb, by rw [h4, scanGo_openString hb f _ (by simp at h3; omega)]; rfl⟩)
  · exact .inr (.inr (.inl ⟨b, rfl, hb, by rw [h4, scanGo_openCode hb f _ (by simp at h3; omega)]; rfl⟩))
  · exact .inr (.inr (.inr ⟨b, rfl, hb, by rw [h4, scanGo_stuckCode hb]; rfl⟩))

/-- The line numbers are right: the line of a word is one more than the number of line ends before the word in the
text. -/
theorem C71_lines (z : List Nat) (evs : List ScanEv) (h : scan z = some evs) (line : Nat) (x : List Nat) (hx : ScanEv.tok line x ∈ evs) :
    ∃ p t, z = p ++ x ++ t ∧ line = 1 + p.count 10 := by
  have key : ∀ (l : Nat) (z e : List Nat) (ws : List (Nat × List Nat)), Reads l z ws e → ∀ w ∈ ws, ∃ p t, z = p ++ w.2 ++ t ∧ w.1 = l + p.count 10 := by
    intro l z e ws h
    induction h with
    | nil => intro w hw; cases hw
    | @skip line w rest e ws hw h ih =>
      intro v hv
      obtain ⟨p, t, rfl, h2⟩ := ih v hv
      exact ⟨w ++ p, t, by simp, by rw [h2, List.count_append]; omega⟩
    | @word line w x rest e ws hw h ih =>
      intro v hv
      rcases List.mem_cons.mp hv with rfl | hv
      · have : ∃ t, w = x ++ t := by
          cases hw with
          | string h => exact ⟨[34], by simp⟩
          | code h => exact ⟨[125], by simp⟩
          | name => exact ⟨[], by simp⟩
          | arrow => exact ⟨[], by simp⟩
          | alternative => exact ⟨[], by simp⟩
          | char => exact ⟨[], by simp⟩
        obtain ⟨t, rfl⟩ := this
        exact ⟨[], t ++ rest, by simp, by simp⟩
      · obtain ⟨p, t, rfl, h2⟩ := ih v hv
        exact ⟨w ++ p, t, by simp, by rw [h2, List.count_append]; omega⟩
  obtain ⟨ws, p, e, h1, h2, h3⟩ := C71_open z
  have hgiven : ScanEv.tok line x ∈ given ws → ∃ p t, z = p ++ x ++ t ∧ line = 1 + p.count 10 := by
    intro hg
    obtain ⟨w, hw, he⟩ := List.mem_map.mp hg
    simp only [ScanEv.tok.injEq] at he
    obtain ⟨p, t, h4, h5⟩ := key 1 z e ws h1 w hw
    rw [he.2] at h4
    exact ⟨p, t, h4, by rw [← he.1, h5]⟩
  rcases h3 with ⟨_, h3⟩ | ⟨b, _, _, h3⟩ | ⟨b, _, _, h3⟩ | ⟨b, _, _, h3⟩
  · rw [h, Option.some.injEq] at h3
    subst h3
    exact hgiven hx
  all_goals rw [h] at h3
  · rw [Option.some.injEq] at h3
    subst h3
    rcases List.mem_append.mp hx with hx | hx
    · exact hgiven hx
    · simp only [List.mem_cons, reduceCtorEq, ScanEv.tok.injEq, List.not_mem_nil, or_false, false_or] at hx
      exact ⟨p, [], by rw [h2, hx.2, List.append_nil], hx.1⟩
  · rw [Option.some.injEq] at h3
    subst h3
    rcases List.mem_append.mp hx with hx | hx
    · exact hgiven hx
    · simp only [List.mem_cons, reduceCtorEq, ScanEv.tok.injEq, List.not_mem_nil, or_false, false_or] at hx
      exact ⟨p, [], by rw [h2, hx.2, List.append_nil], hx.1⟩
  · cases h3

/-- Two lines: `a ::= B(x)./*.*/` and `{ f("}"); /*}*/ }`. -/
example : HasWords [97, 32, 58, 58, 61, 32, 66, 40, 120, 41, 46, 47, 42, 46, 42, 47, 10, 123, 32, 102, 40, 34, 125, 34, 41, 59, 32, 47, 42, 125, 42, 47, 32, 125]
    [(1, [97]), (1, [58, 58, 61]), (1, [66]), (1, [40]), (1, [120]), (1, [41]), (1, [46]),
      (2, [123, 32, 102, 40, 34, 125, 34, 41, 59, 32, 47, 42, 125, 42, 47, 32])] :=
  (C71_words _ _).mp (by decide +kernel)

/-- `{ "` and `"` on line 2 -/
example : scan [10, 123, 32] = some [.noCode 2, .tok 2 [123, 32]] ∧ scan [10, 34] = some [.noString, .tok 2 [34]] := by decide +kernel

/-- C71 is violated by the file `{ /*`: the scanner leaves the text. -/
theorem C71_violated : StuckCode [32, 47, 42] ∧ scan [123, 32, 47, 42] = none :=
  ⟨.comment (.char (by decide) (by decide) (.nil _)) (by decide), by decide +kernel⟩

/-- A comment that is not ended is not reported: the rest of the file is ignored. -/
theorem C71_comment_violated (b : List Nat) (h : ¬ [42, 47] <:+: b) : scan (47 :: 42 :: b) = some [] := by
  have := (C71_words (47 :: 42 :: b) []).mpr (by
    have := Reads.skip (line := 1) (.openComment h) (.nil _ [])
    rw [List.append_nil] at this
    exact this)
  exact this

/-- `/*` and a rule -/
example : ¬ [42, 47] <:+: [97, 58, 58, 61, 66, 46] := by decide

end Verif.Lemon
