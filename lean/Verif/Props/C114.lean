import Verif.Proofs.LemonOpts
import Verif.Lemon.HFile
/-
C114: the command line of lemon (violated: joined flags, `--`, arguments in the next word, ignored options in the form `W=…`).
-/
set_option autoImplicit false
namespace Verif.Lemon
open Verif.Spec.LemonOpts
open Verif.Spec.GFile (text)

/-- C114.  A grammar file is processed exactly if every argument has a meaning, the version is not asked for and there is one file; then it is this file, a flag has the
value of its last mention, the output directory and the template are those given last, and all macros are defined, in order, without their values. -/
theorem C114_run (args : List (List Nat)) (S : CmdSet) (f : List Nat) : cmdLine args = .run S f ↔
    ∃ ms, List.Forall₂ Means args ms ∧ isOn 120 ms = false ∧ files ms = [f] ∧ (∀ c, S.flags c = isOn c ms) ∧ S.outputDir = (texts .outputDir ms).getLast? ∧
      S.defines = (texts .define ms).map (fun z => z.takeWhile (· ≠ 61)) ∧ S.template = (texts .template ms).getLast? := by
  have hg := fold_good args ⟨.init, 0, false⟩ rfl rfl
  have hset : ∀ ms, List.Forall₂ Means args ms → ∃ R, args.foldl optStep ⟨.init, 0, false⟩ = R ∧ R.crash = false ∧ R.errcnt = 0 ∧
      (∀ c, R.set.flags c = isOn c ms) ∧ R.set.outputDir = (texts .outputDir ms).getLast? ∧
      R.set.defines = (texts .define ms).map (fun z => z.takeWhile (· ≠ 61)) ∧ R.set.template = (texts .template ms).getLast? := by
    intro ms hms
    obtain ⟨h1, h2⟩ := hg.2 ⟨ms, hms⟩
    have hs := fold_set hms ⟨.init, 0, false⟩ rfl
    refine ⟨_, rfl, h1, h2, ?_, ?_, ?_, ?_⟩
    · intro c
      rw [hs, applyM_flags]
      rfl
    · rw [hs, applyM_dir]
      exact Option.or_none
    · rw [hs, applyM_defines]
      rfl
    · rw [hs, applyM_template]
      exact Option.or_none
  unfold cmdLine
  constructor
  · intro h
    simp only at h
    split at h
    · cases h
    rename_i h1
    split at h
    · cases h
    rename_i h2
    split at h
    · cases h
    rename_i h3
    obtain ⟨ms, hms⟩ := hg.1 ⟨by simpa using h1, by omega⟩
    obtain ⟨R, hR, -, -, k1, k2, k3, k4⟩ := hset ms hms
    rw [hR, optArgs_files hms] at h
    rw [hR] at h3
    refine ⟨ms, hms, by rw [← k1]; simpa using h3, ?_⟩
    split at h
    · rename_i f' hf
      cases h
      exact ⟨hf, k1, k2, k3, k4⟩
    · cases h
  · rintro ⟨ms, hms, hx, hf, k1, k2, k3, k4⟩
    obtain ⟨R, hR, c1, c2, j1, j2, j3, j4⟩ := hset ms hms
    simp only
    rw [hR, if_neg (by simp [c1]), if_neg (by omega), if_neg (by rw [j1, hx]; simp), optArgs_files hms, hf]
    simp only [CmdOut.run.injEq, and_true]
    obtain ⟨S1, S2, S3, S4⟩ := S
    obtain ⟨⟨T1, T2, T3, T4⟩, e, c⟩ := R
    simp only at *
    subst k2 k3 k4 j2 j3 j4
    congr
    funext c
    rw [k1, j1]

/-- C114, no file.  If every argument has a meaning, the version is printed if asked for, and otherwise a command line without exactly one file is refused. -/
theorem C114_files (args : List (List Nat)) (ms : List Meaning) (h : List.Forall₂ Means args ms) :
    (isOn 120 ms = true → cmdLine args = .version) ∧ (isOn 120 ms = false → (files ms).length ≠ 1 → cmdLine args = .notOneFile) := by
  obtain ⟨h1, h2⟩ := (fold_good args ⟨.init, 0, false⟩ rfl rfl).2 ⟨ms, h⟩
  have hs : (args.foldl optStep ⟨.init, 0, false⟩).set.flags 120 = isOn 120 ms := by
    rw [fold_set h ⟨.init, 0, false⟩ rfl, applyM_flags]
    rfl
  unfold cmdLine
  simp only
  rw [if_neg (by simp [h1]), if_neg (by omega), hs, optArgs_files h]
  constructor
  · intro hx
    rw [if_pos hx]
  · intro hx hf
    rw [if_neg (by simp [hx])]
    split
    · rename_i f e
      rw [e] at hf
      exact absurd rfl hf
    · rfl

/-- C114, refused command lines.  The list of options is printed exactly if there is an argument without a meaning (and none for which lemon crashes). -/
theorem C114_usage (args : List (List Nat)) : cmdLine args = .usage ↔
    (∃ a ∈ args, ∀ m, ¬ Means a m) ∧ ∀ a ∈ args, ¬ ∃ c z, c ∈ ignoredLetters ∧ a = c :: 61 :: z := by
  have hg := fold_good args ⟨.init, 0, false⟩ rfl rfl
  have hc := fold_crash args ⟨.init, 0, false⟩ rfl
  have hall : (∃ ms, List.Forall₂ Means args ms) ↔ ¬ ∃ a ∈ args, ∀ m, ¬ Means a m := by
    clear hg hc
    induction args with
    | nil => simp
    | cons a l ih =>
      constructor
      · rintro ⟨_, h⟩
        cases h with
        | cons h hs =>
          have := ih.1 ⟨_, hs⟩
          rintro ⟨b, hb, hn⟩
          rcases List.mem_cons.1 hb with rfl | hb
          · exact hn _ h
          · exact this ⟨b, hb, hn⟩
      · intro h
        obtain ⟨ms, hms⟩ := ih.2 (fun ⟨b, hb, hn⟩ => h ⟨b, by simp [hb], hn⟩)
        by_cases ha : ∃ m, Means a m
        · obtain ⟨m, ha⟩ := ha
          exact ⟨m :: ms, .cons ha hms⟩
        · exact absurd ⟨a, by simp, fun m hm => ha ⟨m, hm⟩⟩ h
  have hd : (∃ a ∈ args, Deadly a) ↔ ¬ ∀ a ∈ args, ¬ ∃ c z, c ∈ ignoredLetters ∧ a = c :: 61 :: z := by
    unfold Deadly
    constructor
    · rintro ⟨a, ha, h⟩ hn
      exact hn a ha h
    · intro h
      by_contra hn
      exact h fun a ha hd => hn ⟨a, ha, hd⟩
  rw [hall] at hg
  rw [hd] at hc
  unfold cmdLine
  simp only
  constructor
  · intro h
    split at h
    · cases h
    rename_i h1
    split at h
    · rename_i h2
      refine ⟨by_contra fun hn => ?_, by_contra fun hn => h1 (hc.2 hn)⟩
      have := (hg.2 hn).2
      omega
    · split at h
      · cases h
      · split at h <;> cases h
  · rintro ⟨h1, h2⟩
    have k1 : (args.foldl optStep ⟨.init, 0, false⟩).crash ≠ true := fun h => hc.1 h h2
    rw [if_neg k1, if_pos]
    by_contra hn
    exact (hg.1 ⟨by simpa using k1, by omega⟩) h1

/-- C114 is violated: the options that are to be ignored crash lemon if they are written `W=…`, and nothing else does. -/
theorem C114_crash_violated (args : List (List Nat)) : cmdLine args = .crash ↔ ∃ a ∈ args, ∃ c z, c ∈ ignoredLetters ∧ a = c :: 61 :: z := by
  have hc := fold_crash args ⟨.init, 0, false⟩ rfl
  unfold cmdLine
  simp only
  show _ ↔ ∃ a ∈ args, Deadly a
  rw [← hc]
  constructor
  · intro h
    split at h
    · assumption
    · split at h
      · cases h
      · split at h
        · cases h
        · split at h <;> cases h
  · intro h
    rw [if_pos h]

/-- C114 is violated: flags can not be joined, what follows the first letter is ignored. -/
theorem C114_joined_violated (sg c : Nat) (rest : List Nat) (R : OptRun) (h : sg = 45 ∨ sg = 43) (hc : c ∈ flagLetters) :
    optStep R (sg :: c :: rest) = optStep R [sg, c] := by
  cases hR : R.crash with
  | true => unfold optStep; rw [hR]; rfl
  | false =>
    rcases h with rfl | rfl
    · rw [optStep_means (.on c rest hc) R hR, optStep_means (.on c [] hc) R hR]
    · rw [optStep_means (.off c rest hc) R hR, optStep_means (.off c [] hc) R hR]

theorem two_dashes (m : Meaning) : ¬ Means [45, 45] m := by
  generalize hg : ([45, 45] : List Nat) = g
  intro h
  cases h with
  | on c rest hc => cases hg; exact absurd hc (by decide)
  | off c rest hc => cases hg
  | sign sg t z hs => cases t <;> cases hg
  | assign t z => cases t <;> cases hg
  | ignored sg c rest hs hc => cases hg; exact absurd hc (by decide)
  | file f h1 h2 h3 => cases hg; exact absurd rfl h1

/-- C114 is violated: `--`, after which all arguments are meant to be files, is refused; and no file whose name begins with a sign or has a `=` can be processed. -/
theorem C114_dashes_violated (args : List (List Nat)) (S : CmdSet) (f : List Nat) (h : cmdLine args = .run S f) :
    [45, 45] ∉ args ∧ f.head? ≠ some 45 ∧ f.head? ≠ some 43 ∧ 61 ∉ f := by
  obtain ⟨ms, hms, -, hf, -⟩ := (C114_run args S f).1 h
  constructor
  · intro hm
    clear hf h
    induction hms with
    | nil => simp at hm
    | cons ha _ ih =>
      rcases List.mem_cons.1 hm with rfl | hm
      · exact two_dashes _ ha
      · exact ih hm
  · have hm : f ∈ files ms := by rw [hf]; simp
    clear hf h
    induction hms with
    | nil => simp [files] at hm
    | cons ha _ ih =>
      unfold files at hm ih
      rw [List.filterMap_cons] at hm
      cases ha with
      | on => exact ih hm
      | off => exact ih hm
      | sign => exact ih hm
      | assign => exact ih hm
      | ignored => exact ih hm
      | file g h1 h2 h3 =>
        simp only at hm
        rcases List.mem_cons.1 hm with rfl | hm
        · exact ⟨h1, h2, h3⟩
        · exact ih hm

/-- C114 is violated: if the output directory is given in the next argument, it is taken for a grammar file; and with `-d` alone lemon writes to the root directory. -/
theorem C114_directory_violated :
    cmdLine [text "-d", text "out", text "g.y"] = .notOneFile ∧
    ∃ S, cmdLine [text "-d", text "g.y"] = .run S (text "g.y") ∧ fileMakename S.outputDir (text "g.y") (text ".c") = text "/g.c" := by
  refine ⟨rfl, _, rfl, ?_⟩
  decide

/-! ### examples -/

example : ∃ S, cmdLine [text "-s", text "-DA=1", text "+s", text "-Tlempar.c", text "g.y", text "d=out", text "-DB"] = .run S (text "g.y") ∧
    S.flags 115 = false ∧ S.outputDir = some (text "out") ∧ S.defines = [text "A", text "B"] ∧ S.template = some (text "lempar.c") := by
  refine ⟨_, rfl, ?_⟩
  decide

example : ∃ S, cmdLine [text "-qs", text "g.y"] = .run S (text "g.y") ∧ S.flags 113 = true ∧ S.flags 115 = false := by
  refine ⟨_, rfl, ?_⟩
  decide

example : Means (text "-quiet") (.flag 113 true) := .on 113 (text "uiet") (by decide)
example : cmdLine [text "W=all", text "g.y"] = .crash := rfl
example : cmdLine [text "-Wall", text "-x", text "g.y"] = .version := rfl
example : cmdLine [text "-h"] = .usage := rfl

end Verif.Lemon
