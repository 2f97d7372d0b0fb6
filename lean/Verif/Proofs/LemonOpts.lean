import Verif.Lemon.OptArgs
import Verif.Spec.LemonOpts
/-
The command line of lemon, for C114.
-/
set_option autoImplicit false
namespace Verif.Lemon
open Verif.Spec.LemonOpts
open Verif.Spec.GFile (text)

def kindOf : TextOpt → OptKind
  | .outputDir => .dir
  | .define => .define
  | .template => .template

/-- the settings after an argument -/
def applyM (S : CmdSet) : Meaning → CmdSet
  | .flag c v => { S with flags := Function.update S.flags c v }
  | .text t z => S.handle (kindOf t) z
  | .nothing => S
  | .file _ => S

theorem find_flag : ∀ c ∈ flagLetters, optTable.find? (fun e => e.1 == c) = some (c, .flag) := by decide
theorem find_ignored : ∀ c ∈ ignoredLetters, optTable.find? (fun e => e.1 == c) = some (c, .ignored) := by decide
theorem find_text (t : TextOpt) : optTable.find? (fun e => e.1 == t.letter) = some (t.letter, kindOf t) := by cases t <;> decide

theorem find_cases (c : Nat) : optTable.find? (fun e => e.1 == c) = none ∨ c ∈ flagLetters ∨ c ∈ ignoredLetters ∨ ∃ t : TextOpt, c = t.letter := by
  cases h : optTable.find? (fun e => e.1 == c) with
  | none => exact .inl rfl
  | some e =>
    have hm := List.mem_of_find?_eq_some h
    have he := List.find?_some h
    simp only [beq_iff_eq] at he
    have : ∀ e ∈ optTable, e.1 ∈ flagLetters ∨ e.1 ∈ ignoredLetters ∨ e.1 = 100 ∨ e.1 = 68 ∨ e.1 = 84 := by decide
    rcases this e hm with h | h | h | h | h
    · exact .inr (.inl (he ▸ h))
    · exact .inr (.inr (.inl (he ▸ h)))
    · exact .inr (.inr (.inr ⟨.outputDir, by rw [← he, h]; rfl⟩))
    · exact .inr (.inr (.inr ⟨.define, by rw [← he, h]; rfl⟩))
    · exact .inr (.inr (.inr ⟨.template, by rw [← he, h]; rfl⟩))

theorem find_flags (x c : Nat) (rest : List Nat) : (optTable.find? fun e => [e.1].isPrefixOf ((x :: c :: rest).drop 1)) = optTable.find? (fun e => e.1 == c) := by
  simp [List.isPrefixOf]

theorem handleFlags_kind (R : OptRun) (x : Nat) (t : TextOpt) (z : List Nat) : handleFlags R (x :: t.letter :: z) = { R with set := R.set.handle (kindOf t) z } := by
  unfold handleFlags
  rw [find_flags, find_text]
  cases t <;> rfl

theorem handleSwitch_kind (R : OptRun) (t : TextOpt) (z : List Nat) : handleSwitch R (t.letter :: 61 :: z) = { R with set := R.set.handle (kindOf t) z } := by
  cases t <;> rfl

theorem optStep_means {a : List Nat} {m : Meaning} (h : Means a m) (R : OptRun) (hR : R.crash = false) : optStep R a = { R with set := applyM R.set m } := by
  obtain ⟨S, ec, cr⟩ := R
  simp only at hR
  subst hR
  unfold optStep
  simp only [Bool.false_eq_true, if_false]
  cases h with
  | on c rest hc =>
    rw [if_pos (by simp)]
    unfold handleFlags
    rw [find_flags, find_flag c hc]
    rfl
  | off c rest hc =>
    rw [if_pos (by simp)]
    unfold handleFlags
    rw [find_flags, find_flag c hc]
    rfl
  | sign sg t z hs =>
    rw [if_pos (by simpa using hs.symm), handleFlags_kind]
    rfl
  | assign t z =>
    rw [if_neg (by cases t <;> simp [TextOpt.letter]), if_pos (by simp), handleSwitch_kind]
    rfl
  | ignored sg c rest hs hc =>
    rw [if_pos (by simpa using hs.symm)]
    unfold handleFlags
    rw [find_flags, find_ignored c hc]
    rfl
  | file f h1 h2 h3 =>
    rw [if_neg (by simp [h1, h2]), if_neg h3]
    rfl

/-- `c=…` with a letter that is ignored -/
def Deadly (a : List Nat) : Prop := ∃ c z, c ∈ ignoredLetters ∧ a = c :: 61 :: z

theorem optStep_deadly {a : List Nat} (h : Deadly a) (R : OptRun) : (optStep R a).crash = true := by
  obtain ⟨c, z, hc, rfl⟩ := h
  unfold optStep
  split
  · assumption
  · have : ∀ c ∈ ignoredLetters, c ≠ 43 ∧ c ≠ 45 ∧ c ≠ 61 ∧ optTable.find? (fun e => [e.1] == [c]) = some (c, .ignored) := by decide
    obtain ⟨h1, h2, h3, h4⟩ := this c hc
    rw [if_neg (by simp [h1, h2]), if_pos (by simp)]
    unfold handleSwitch
    rw [show (c :: 61 :: z).takeWhile (· ≠ 61) = [c] by simp [List.takeWhile, h3], h4]

theorem optStep_cases (a : List Nat) (R : OptRun) (hR : R.crash = false) :
    (∃ m, Means a m) ∨ optStep R a = { R with errcnt := R.errcnt + 1 } ∨ Deadly a := by
  by_cases hsg : a.head? = some 43 ∨ a.head? = some 45
  · obtain ⟨x, a', rfl⟩ : ∃ x a', a = x :: a' := by
      cases a with
      | nil => simp at hsg
      | cons x a' => exact ⟨x, a', rfl⟩
    have hx : x = 45 ∨ x = 43 := by simpa using hsg.symm
    have e : optStep R (x :: a') = handleFlags R (x :: a') := by
      unfold optStep
      rw [hR, if_neg (by simp), if_pos hsg]
    cases a' with
    | nil =>
      right; left
      rw [e]
      unfold handleFlags
      rw [show (optTable.find? fun e => [e.1].isPrefixOf ([x].drop 1)) = none from rfl]
    | cons c rest =>
      rcases find_cases c with h | h | h | ⟨t, rfl⟩
      · right; left
        rw [e]
        unfold handleFlags
        rw [find_flags, h]
      · rcases hx with rfl | rfl
        · exact .inl ⟨_, .on c rest h⟩
        · exact .inl ⟨_, .off c rest h⟩
      · exact .inl ⟨_, .ignored x c rest hx h⟩
      · exact .inl ⟨_, .sign x t rest hx⟩
  · by_cases he : 61 ∈ a
    · have e : optStep R a = handleSwitch R a := by
        unfold optStep
        rw [hR, if_neg (by simp), if_neg hsg, if_pos he]
      have hsplit : a = a.takeWhile (· ≠ 61) ++ a.dropWhile (· ≠ 61) := (List.takeWhile_append_dropWhile).symm
      have hd : ∃ z, a.dropWhile (· ≠ 61) = 61 :: z := by
        cases hdw : a.dropWhile (· ≠ 61) with
        | nil =>
          rw [hdw, List.append_nil] at hsplit
          rw [hsplit] at he
          exact absurd (List.all_eq_true.1 List.all_takeWhile 61 he) (by simp)
        | cons y z =>
          have := List.head?_dropWhile_not (fun x : Nat => decide (x ≠ 61)) a
          rw [hdw] at this
          simp at this
          exact ⟨z, by rw [this]⟩
      obtain ⟨z, hz⟩ := hd
      rw [hz] at hsplit
      cases hf : optTable.find? (fun e => [e.1] == a.takeWhile (· ≠ 61)) with
      | none =>
        right; left
        rw [e]
        unfold handleSwitch
        rw [hf]
      | some e' =>
        have h1 := List.find?_some hf
        have h2 := List.mem_of_find?_eq_some hf
        simp only [beq_iff_eq] at h1
        rw [← h1, List.singleton_append] at hsplit
        obtain ⟨c, k⟩ := e'
        have : ∀ e ∈ optTable, e.2 = .flag ∨ (e.2 = .ignored ∧ e.1 ∈ ignoredLetters) ∨ e = (100, .dir) ∨ e = (68, .define) ∨ e = (84, .template) := by decide
        rcases this _ h2 with h | ⟨h, hm⟩ | h | h | h
        · right; left
          rw [e]
          unfold handleSwitch
          rw [hf]
          simp only at h
          subst h
          rfl
        · exact .inr (.inr ⟨c, z, hm, hsplit⟩)
        · cases h; exact .inl ⟨_, by rw [hsplit]; exact Means.assign .outputDir z⟩
        · cases h; exact .inl ⟨_, by rw [hsplit]; exact Means.assign .define z⟩
        · cases h; exact .inl ⟨_, by rw [hsplit]; exact Means.assign .template z⟩
    · rw [not_or] at hsg
      exact .inl ⟨_, .file a hsg.2 hsg.1 he⟩

theorem crash_stays (R : OptRun) (h : R.crash = true) : ∀ args : List (List Nat), (args.foldl optStep R).crash = true := by
  intro args
  induction args generalizing R with
  | nil => exact h
  | cons a l ih => exact ih _ (by unfold optStep; rw [h]; exact h)

theorem optStep_mono (a : List Nat) (R : OptRun) (hR : R.crash = false) (hc : (optStep R a).crash = false) : R.errcnt ≤ (optStep R a).errcnt := by
  rcases optStep_cases a R hR with ⟨m, h⟩ | h | h
  · rw [optStep_means h R hR]; exact Nat.le_refl _
  · rw [h]; exact Nat.le_succ _
  · rw [optStep_deadly h R] at hc; cases hc

theorem fold_mono : ∀ (args : List (List Nat)) (R : OptRun), R.crash = false → (args.foldl optStep R).crash = false → R.errcnt ≤ (args.foldl optStep R).errcnt
  | [], R, _, _ => Nat.le_refl _
  | a :: l, R, hR, hc => by
    rw [List.foldl_cons] at hc ⊢
    cases h : (optStep R a).crash with
    | true => rw [crash_stays _ h] at hc; cases hc
    | false => exact Nat.le_trans (optStep_mono a R hR h) (fold_mono l _ h hc)

theorem fold_crash : ∀ (args : List (List Nat)) (R : OptRun), R.crash = false → ((args.foldl optStep R).crash = true ↔ ∃ a ∈ args, Deadly a)
  | [], R, hR => by simp [hR]
  | a :: l, R, hR => by
    rw [List.foldl_cons]
    by_cases hd : Deadly a
    · rw [crash_stays _ (optStep_deadly hd R)]
      simp [hd]
    · have hc : (optStep R a).crash = false := by
        rcases optStep_cases a R hR with ⟨m, h⟩ | h | h
        · rw [optStep_means h R hR]; exact hR
        · rw [h]; exact hR
        · exact absurd h hd
      rw [fold_crash l _ hc]
      simp [hd]

theorem fold_good : ∀ (args : List (List Nat)) (R : OptRun), R.crash = false → R.errcnt = 0 →
    ((args.foldl optStep R).crash = false ∧ (args.foldl optStep R).errcnt = 0 ↔ ∃ ms, List.Forall₂ Means args ms)
  | [], R, hR, hE => by simp [hR, hE]
  | a :: l, R, hR, hE => by
    rw [List.foldl_cons]
    constructor
    · rintro ⟨h1, h2⟩
      have hc : (optStep R a).crash = false := by
        cases h : (optStep R a).crash with
        | true => rw [crash_stays _ h] at h1; cases h1
        | false => rfl
      rcases optStep_cases a R hR with ⟨m, h⟩ | h | h
      · have e := optStep_means h R hR
        obtain ⟨ms, hms⟩ := (fold_good l (optStep R a) hc (by rw [e]; exact hE)).1 ⟨h1, h2⟩
        exact ⟨m :: ms, .cons h hms⟩
      · have := fold_mono l _ hc h1
        rw [h] at this h2
        simp only at this
        omega
      · rw [optStep_deadly h R] at hc; cases hc
    · rintro ⟨_, h⟩
      cases h with
      | cons h hs =>
        have e := optStep_means h R hR
        exact (fold_good l (optStep R a) (by rw [e]; exact hR) (by rw [e]; exact hE)).2 ⟨_, hs⟩

theorem fold_set : ∀ {args : List (List Nat)} {ms : List Meaning}, List.Forall₂ Means args ms → ∀ R : OptRun, R.crash = false →
    (args.foldl optStep R).set = ms.foldl applyM R.set
  | _, _, .nil, _, _ => rfl
  | _, _, .cons h hs, R, hR => by
    rw [List.foldl_cons, List.foldl_cons, fold_set hs _ (by rw [optStep_means h R hR]; exact hR), optStep_means h R hR]

theorem getLast_cons_getD {α : Type} (l : List α) (a d : α) : ((a :: l).getLast?).getD d = (l.getLast?).getD a := by
  cases l with
  | nil => rfl
  | cons b l => rw [List.getLast?_cons_cons]; simp [List.getLast?_cons]

theorem applyM_flags (c : Nat) : ∀ (ms : List Meaning) (S : CmdSet),
    (ms.foldl applyM S).flags c = ((ms.filterMap fun | .flag c' v => if c' = c then some v else none | _ => none).getLast?).getD (S.flags c)
  | [], S => rfl
  | m :: ms, S => by
    rw [List.foldl_cons, applyM_flags c ms]
    cases m with
    | flag c' v =>
      by_cases h : c' = c
      · subst h
        rw [List.filterMap_cons]
        simp only [if_true]
        rw [getLast_cons_getD, applyM]
        simp
      · rw [List.filterMap_cons]
        simp only [if_neg h]
        rw [applyM]
        simp [Function.update_of_ne (Ne.symm h)]
    | text t z => cases t <;> rfl
    | nothing => rfl
    | file f => rfl

theorem applyM_dir : ∀ (ms : List Meaning) (S : CmdSet), (ms.foldl applyM S).outputDir = ((texts .outputDir ms).getLast?).or S.outputDir
  | [], S => rfl
  | m :: ms, S => by
    rw [List.foldl_cons, applyM_dir ms]
    unfold texts
    cases m with
    | text t z =>
      cases t with
      | outputDir =>
        rw [List.filterMap_cons]
        simp only [if_true]
        rw [List.getLast?_cons]
        generalize List.filterMap _ ms = l
        cases l.getLast? <;> rfl
      | define => rfl
      | template => rfl
    | flag c v => rfl
    | nothing => rfl
    | file f => rfl

theorem applyM_template : ∀ (ms : List Meaning) (S : CmdSet), (ms.foldl applyM S).template = ((texts .template ms).getLast?).or S.template
  | [], S => rfl
  | m :: ms, S => by
    rw [List.foldl_cons, applyM_template ms]
    unfold texts
    cases m with
    | text t z =>
      cases t with
      | template =>
        rw [List.filterMap_cons]
        simp only [if_true]
        rw [List.getLast?_cons]
        generalize List.filterMap _ ms = l
        cases l.getLast? <;> rfl
      | define => rfl
      | outputDir => rfl
    | flag c v => rfl
    | nothing => rfl
    | file f => rfl

theorem applyM_defines : ∀ (ms : List Meaning) (S : CmdSet), (ms.foldl applyM S).defines = S.defines ++ (texts .define ms).map fun z => z.takeWhile (· ≠ 61)
  | [], S => by simp [texts]
  | m :: ms, S => by
    rw [List.foldl_cons, applyM_defines ms]
    unfold texts
    cases m with
    | text t z =>
      cases t with
      | define =>
        rw [List.filterMap_cons]
        simp [applyM, kindOf, CmdSet.handle]
      | template => rfl
      | outputDir => rfl
    | flag c v => rfl
    | nothing => rfl
    | file f => rfl

theorem optArgs_files : ∀ {args : List (List Nat)} {ms : List Meaning}, List.Forall₂ Means args ms → optArgs false args = files ms
  | _, _, .nil => rfl
  | _, _, .cons (a := a) (b := m) (l₁ := l) (l₂ := ms) h hs => by
    have hd : (a == [45, 45]) = false := by
      rw [beq_eq_false_iff_ne]
      rintro rfl
      revert h
      generalize hg : ([45, 45] : List Nat) = g
      intro h
      cases h with
      | on c rest hc => cases hg; exact absurd hc (by decide)
      | off c rest hc => cases hg
      | sign sg t z hs => cases t <;> cases hg
      | assign t z => cases t <;> cases hg
      | ignored sg c rest hs hc => cases hg; exact absurd hc (by decide)
      | file f h1 h2 h3 => cases hg; exact absurd rfl h1
    rw [optArgs, hd, Bool.or_false, optArgs_files hs]
    unfold files
    have key : (if false || !isOpt a then [a] else []) = (match m with | .file f => [f] | _ => []) := by
      cases h with
      | on c rest hc => rfl
      | off c rest hc => rfl
      | sign sg t z hs => rcases hs with rfl | rfl <;> rfl
      | assign t z => cases t <;> simp [isOpt, TextOpt.letter]
      | ignored sg c rest hs hc => rcases hs with rfl | rfl <;> rfl
      | file f h1 h2 h3 => simp [isOpt, h1, h2, h3]
    rw [key]
    cases m <;> rfl

end Verif.Lemon
