import Verif.Spec.ByaccWhole
import Verif.Proofs.TableSizes
import Verif.Props.C82
import Verif.Props.C90
/-
C101: the files that byacc writes for a grammar file have a parser for the grammar in the file.
-/
set_option autoImplicit false
namespace Verif.Byacc
open Rd Spec Spec.YText Spec.OutText

/-- The codes of the tokens of a file are determined by it. -/
theorem codesOf_unique {us : List Use} {c1 c2 : List Nat → Int} (h1 : CodesOf us c1) (h2 : CodesOf us c2) : ∀ n ∈ tokenNames us, c1 n = c2 n := by
  have key : ∀ k, ∀ n ∈ tokenNames us, (tokenNames us).idxOf n = k → c1 n = c2 n := by
    intro k
    induction k using Nat.strong_induction_on with
    | _ k ih =>
      intro n hn hk
      cases hc : codeGiven us n with
      | some c => rw [h1.given n hn c hc, h2.given n hn c hc]
      | none =>
        by_cases he : n = txt "error"
        · rw [he] at hc ⊢
          rw [h1.error hc, h2.error hc]
        · have same : ∀ m ∈ tokenNames us, (codeGiven us m ≠ none ∨ (tokenNames us).idxOf m < (tokenNames us).idxOf n) → c1 m = c2 m := by
            intro m hm h
            rcases h with h | h
            · obtain ⟨c, hc⟩ := Option.ne_none_iff_exists'.1 h
              rw [h1.given m hm c hc, h2.given m hm c hc]
            · exact ih _ (by omega) m hm rfl
          obtain ⟨a1, a2, a3⟩ := h1.free n hn hc he
          obtain ⟨b1, b2, b3⟩ := h2.free n hn hc he
          rcases Int.lt_trichotomy (c1 n) (c2 n) with h | h | h
          · obtain ⟨m, hm, hx, e⟩ := b3 _ a1 h
            exact absurd ((same m hm hx).trans e).symm (a2 m hm hx)
          · exact h
          · obtain ⟨m, hm, hx, e⟩ := a3 _ b1 h
            exact absurd ((same m hm hx).symm.trans e).symm (b2 m hm hx)
  exact fun n hn => key _ n hn rfl

/-- C101: from the text of a grammar file to the text of the parser.  If no two tokens of the file have the same code, then in what byacc writes
- the arrays and constants of a parser can be read,
- the tokens are defined with their codes (in the code file, in the header with `-d`, in the externs file with `-i`), and
the parser with these arrays and constants, given tokens by these codes, accepts without reporting an error only sentences of the grammar in the file, and
computes their values by the actions of the file along a parse tree; and it accepts all of them if no precedences are declared and no conflicts are reported. -/
theorem C101_file (per : Nat) (hper : per = 2 ∨ per = 3) (lp : Bool) (file text : List Nat) (out : FileOut) (o : Generated) (tb : Tables)
    (h : makeTables per lp file text = some (out, o, tb)) (t : List Nat) (F : File) (ht : GivenText file text t) (hF : FileAt F t)
    (hd : CodesDiffer F.uses) (I0 : TextIn) (cindex ctable : List Int) (w : Wr) :
    let I := I0.ofFile out o.aut { tb with cindex := cindex, ctable := ctable }
    let W := w.output I
    let C := bytes I.codeName W.code
    ∃ code : List Nat → Int, CodesOf F.uses code ∧
    HasTables (if I.rflag then W.tab else C) C (!I.rflag) I.pfx tb ∧ tb.errcode = code (txt "error") ∧
    (let toks := ((tokenNames F.uses).drop 1).map fun n => (n, code n);
      (I.iflag = false → HasDefines C I.sflag toks (some tb.errcode)) ∧
      (I.iflag = true → I.dflag = false → HasDefines W.ext I.sflag toks (some tb.errcode)) ∧
      (I.dflag = true → HasDefines W.defs I.sflag toks (if I.iflag then some tb.errcode else none))) ∧
    (∀ (V : Type) (P : Driver V) (f : Nat → V → List V → V), P.t = tb → ValueActs P f → 2 ≤ P.init →
      ∀ (size : Nat) (u : V) (input : List (Int × V)) (n : Nat) (c : Cfg V), (size = 0 ∨ 2 ≤ size) →
        P.run n (P.start size u input) = .done .accept c → Ev.report ∉ c.log →
        ∃ (w : List (List Nat × V)) (q : Nat) (v : V), tokensOf input = w.map (fun p => (code p.1, p.2)) ∧
          F.Sentence (w.map Prod.fst) ∧ c.stack = [(q, v), (0, u)] ∧ Computes F P.zero f [u] [.sym F.goal] w [v]) ∧
    ((∀ n, levelOf F.uses n = 0) → o.parser.SRtotal = 0 → o.parser.RRtotal = 0 →
      ∀ (V : Type) (w : List (List Nat × V)), F.Sentence (w.map Prod.fst) →
      ∃ D, ∀ P : Driver V, P.t = tb → (∀ r d st, ∃ v, P.act r d st = .val v) → 2 ≤ P.init → D ≤ P.max →
      ∀ (size : Nat) (u : V) (input : List (Int × V)), (size = 0 ∨ 2 ≤ size) →
        tokensOf input = w.map (fun p => (code p.1, p.2)) →
        ∃ n c, P.run n (P.start size u input) = .done .accept c ∧ Ev.report ∉ c.log) := by
  intro I W C
  obtain ⟨hc, hs⟩ := sound_codeAt per hper lp file text out o tb h t F ht hF hd
  obtain ⟨h1, h2, h3⟩ := (tables_iff _ _ _ _ _ _ _).1 h
  obtain ⟨-, t', F', g1, g2, hok, hl, acts, tags, -, ho⟩ := (reader_iff lp file text out).1 h1
  obtain ⟨rfl, rfl, -⟩ := C80_unique file text t t' F F' ht g1 hF g2
  have hu := user_rules hF hl
  have herrT := error_terminal hF hok
  have herrM : txt "error" ∈ tokenNames F.uses := List.mem_filter.2 ⟨(mem_names _ _).2 (.inl rfl), by simpa using herrT⟩
  have hlen : 2 ≤ (tokenNames F.uses).length + 1 := by
    have := List.length_pos_of_mem herrM
    omega
  obtain ⟨nr, hn0, hn, hnst, hsym, herr⟩ : ∃ nr, TableSizes o.aut.nstates (out.gram.nsyms - (out.gram.ntokens + 1)) nr tb ∧ 0 < nr ∧ 0 < o.aut.nstates ∧
      out.gram.ntokens + 1 < out.gram.nsyms ∧ tb.errcode = out.num.value.getD 1 0 := by
    rw [ho] at h2 h3 ⊢
    obtain ⟨o', ho', K⟩ := generate_ok lp ((tokenNames F.uses).length + 1) ((names F.uses).length + 2) (F.rules.map (srcRule F.uses F.goal))
      (by rw [rule_numbers]; exact hu) (finalOut lp F acts).gram rfl (finalOut lp F acts).prec lp (finalOut lp F acts).sr (finalOut lp F acts).rr
    rw [h2] at ho'
    cases ho'
    have hsv : SymVals (finalOut lp F acts).gram.ntokens (finalOut lp F acts).gram.nsyms (finalOut lp F acts).num.value := sym_vals hF hok hd _
    obtain ⟨S, a, b⟩ := outputTables_sizes K (by omega) hsv h3
    exact ⟨_, S, (List.getElem?_eq_some_iff.1 K.ctx.wf.acc).1, a, b, (outputTables_ok K (by omega) hsv h3).errcode⟩
  have ne : ∀ {α : Type} {l : List α} {k : Nat}, l.length = k → 0 < k → l ≠ [] := by
    intro α l k e hk e'
    rw [e'] at e
    simp at e
    omega
  have ne' : ∀ {l : List Nat} {k : Nat}, l.length = k → 0 < k → l.map Int.ofNat ≠ [] := by
    intro l k e hk
    exact ne (by rw [List.length_map]; exact e) hk
  have ha := C88_arrays I w
  have hdf := C88_defines I w
  dsimp only at ha hdf
  obtain ⟨a1, a2, a3, -, a5, a6, a7, -, a9, a10, a11, -⟩ := ha
  obtain ⟨code, hcode, hD⟩ := C90_file lp file text t out F h1 ht hF I0 o.aut { tb with cindex := cindex, ctable := ctable } w
  have hm : Means lp F acts out := by rw [ho]; exact means_final lp hF hok hl acts
  have heq := codesOf_unique hcode hc
  have herr' : tb.errcode = codeAt F.uses F.goal (txt "error") := by
    rw [herr, ← codesOf_unique hm.codes hc _ herrM]
    congr 1
    have hj : (tokenNames F.uses).idxOf (txt "error") = 0 := idxOf_getElem _ ((names_nodup _).filter _) 0 _ (error_first _ herrT)
    unfold symNumber
    rw [if_pos herrT, hj]
  refine ⟨codeAt F.uses F.goal, hc, ?_, herr', ?_, hs, ?_⟩
  · exact ⟨a1 (ne hn0.lhs hn), a2 (ne hn0.len hn), a3 (ne' hn0.defred hnst), a5 (ne' hn0.dgoto (by omega)), a6 (ne hn0.sindex hnst), a7 (ne hn0.rindex hnst),
      a9 (ne hn0.gindex (by omega)), a10 (ne' hn0.table (by omega)), a11 (ne hn0.check (by omega)), hdf.1, hdf.2.1⟩
  · have e1 : (((tokenNames F.uses).drop 1).map fun n => (n, code n)) = ((tokenNames F.uses).drop 1).map fun n => (n, codeAt F.uses F.goal n) :=
      List.map_congr_left fun n hn => by rw [heq n (List.mem_of_mem_drop hn)]
    rw [e1, heq _ herrM, ← herr'] at hD
    exact hD
  · intro hp hSR hRR
    exact complete_codeAt per hper lp file text out o tb h t F ht hF hd hp hSR hRR

/-- The file of the examples for C82 meets all hypotheses. -/
example : ∃ out o tb t F, makeTables 2 false [] c82File = some (out, o, tb) ∧ GivenText [] c82File t ∧ FileAt F t ∧ CodesDiffer F.uses ∧
    (∀ n, levelOf F.uses n = 0) ∧ o.parser.SRtotal = 0 ∧ o.parser.RRtotal = 0 := by
  have hev : ((makeTables 2 false [] c82File).map fun x => (x.1.num.value.take x.1.num.ntokens, x.1.num.ntokens, x.1.prec.prec, x.2.1.parser.SRtotal, x.2.1.parser.RRtotal)) =
      some ([0, 256, 257, 44, 40, 41], 6, [0, 0, 0, 0, 0, 0, 0, 0, 0, 0], 0, 0) := by decide +kernel
  cases hm : makeTables 2 false [] c82File with
  | none => rw [hm] at hev; cases hev
  | some x =>
    obtain ⟨out, o, tb⟩ := x
    rw [hm] at hev
    simp only [Option.map_some, Option.some.injEq, Prod.mk.injEq] at hev
    obtain ⟨e1, e2, e3, e4, e5⟩ := hev
    have hr := ((tables_iff _ _ _ _ _ _ _).1 hm).1
    obtain ⟨-, t, F, g1, g2, -⟩ := (reader_iff false [] c82File out).1 hr
    obtain ⟨k1, k2⟩ := C82_check false [] c82File out hr t F g1 g2
    have hg : ∀ i < 6, out.num.value.getD i 0 = [0, 256, 257, 44, 40, 41].getD i (0 : Int) := by
      intro i hi
      rw [← e1, e2, List.getD_eq_getElem?_getD, List.getD_eq_getElem?_getD, List.getElem?_take_of_lt hi]
    refine ⟨out, o, tb, t, F, rfl, g1, g2, k1 ?_ ?_, k2 ?_, e4, e5⟩
    · rw [e2]
      intro i hi j hj
      rw [hg i hi, hg j hj]
      revert j i
      decide
    · rw [e2]
      intro i hi
      rw [hg i hi]
      revert i
      decide
    · rw [e3]; simp

end Verif.Byacc
