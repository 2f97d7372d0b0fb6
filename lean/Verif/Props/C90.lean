import Verif.Proofs.TextTok
import Verif.Props.C89
/-
C90: the macros for the tokens.
-/
set_option autoImplicit false
namespace Verif.Byacc
open Rd Spec.OutText Spec.YText

theorem lineStart_externs {I : TextIn} (f : OFile) (l : List (List Nat)) (w : Wr) (h : LineStart (fileText I f w)) : LineStart (fileText I f (w.externs f l)) := by
  unfold Wr.externs
  induction l generalizing w with
  | nil => exact h
  | cons s l ih =>
    rw [List.foldl_cons]
    refine ih _ ?_
    dsimp only
    rw [ft_put]
    rw [← List.append_assoc]
    exact lineStart_append (by simp)

/-- Where the tokens are defined: in the code file, unless there is an externs file (`-i`); then in that one or, with `-d`, only in the header; and in the
header (`-d`).  In each of these the macros stand on lines of their own, for all tokens behind `error` that can have one, in order,
and with their values.  The macro for the error token is behind them, but in a header only with `-i`. -/
theorem C90_defines (I : TextIn) (w : Wr) (hn : ∀ n ∈ I.names, SymName n) :
    let W := w.output I
    let toks := (List.range' 2 (I.ntokens - 2)).map fun i => (I.names.getD i [], I.values.getD i 0)
    (I.iflag = false → HasDefines (bytes I.codeName W.code) I.sflag toks (some (I.values.getD 1 0))) ∧
    (I.iflag = true → I.dflag = false → HasDefines W.ext I.sflag toks (some (I.values.getD 1 0))) ∧
    (I.dflag = true → HasDefines W.defs I.sflag toks (if I.iflag then some (I.values.getD 1 0) else none)) := by
  intro W toks
  have hT : W = (((w.front I).tables I).debug I).back I := rfl
  have hb : Grow (w.front I) ((((w.front I).tables I).debug I).back I) := grow_back (grow_debug (grow_tables (Grow.refl _)))
  rw [← hT] at hb
  clear hT
  rw [front_eq] at hb
  unfold Wr.decls at hb
  dsimp only at hb
  generalize (if (I.iflag || !I.rflag) = true then _ else _) = w1 at hb
  unfold Wr.tokenDefines at hb
  dsimp only at hb
  have hl : LineStart (fileText I .ext ((w1.put .ext [10]).yydebug I .ext)) := by
    unfold Wr.yydebug
    rw [ft_put]
    exact lineStart_append (by decide)
  have hl2 : LineStart (fileText I .ext (if (!I.pureParser) = true then (((w1.put .ext [10]).yydebug I .ext).externs .ext I.skel.globalVars).externs .ext I.skel.impureVars
      else ((w1.put .ext [10]).yydebug I .ext).externs .ext I.skel.globalVars)) := by
    split
    · exact lineStart_externs _ _ _ (lineStart_externs _ _ _ hl)
    · exact lineStart_externs _ _ _ hl
  generalize (if (!I.pureParser) = true then (((w1.put .ext [10]).yydebug I .ext).externs .ext I.skel.globalVars).externs .ext I.skel.impureVars
      else ((w1.put .ext [10]).yydebug I .ext).externs .ext I.skel.globalVars) = w2 at hb hl2
  have hd : ∀ w : Wr, Grow w (if I.dflag = true then ((w.guardStart I).defines I .defs).guardEnd I else w) := by
    intro w
    unfold Wr.guardStart Wr.guardEnd
    exact grow_if (grow_put _ _ (grow_defines _ (grow_put _ _ (grow_put _ _ (Grow.refl _))))) (Grow.refl _)
  refine ⟨?_, ?_, ?_⟩
  · intro hi
    have hb := Grow.trans (hd _) hb
    rw [if_neg (by simp [hi])] at hb
    have := defines_has hn .code (w1.putcCode .code 10) W (by rw [ft_putc]; exact lineStart_append (by decide)) hb
    rw [if_pos (by simp)] at this
    exact this
  · intro hi hdf
    have hb := Grow.trans (hd _) hb
    rw [if_pos hi, if_neg (by simp [hdf])] at hb
    have := defines_has hn .ext w2 W hl2 hb
    rw [if_pos (by simp)] at this
    exact this
  · intro hdf
    rw [if_pos hdf] at hb
    generalize (if I.iflag = true then _ else _) = w3 at hb
    have := defines_has hn .defs (w3.guardStart I) W (by unfold Wr.guardStart; rw [ft_put]; exact lineStart_append (by simp [show str "_defines_h_\n\n" = str "_defines_h_\n" ++ [10] by decide]))
      (Grow.trans (by unfold Wr.guardEnd; exact grow_put _ _ (Grow.refl _)) hb)
    rw [show (decide (OFile.defs ≠ OFile.defs) || I.iflag) = I.iflag by simp] at this
    exact this

/-- For a file that is accepted, the tokens are those of the file, without `error`, in the order in which they are first named, each with its code;
the error token has the code of `error`. -/
theorem C90_file (lp : Bool) (file text t : List Nat) (o : FileOut) (F : File) (h : reader lp file text = .ok o) (ht : GivenText file text t)
    (hF : FileAt F t) (I0 : TextIn) (a : LR0) (tb : BTables) (w : Wr) :
    let I := I0.ofFile o a tb
    let W := w.output I
    ∃ code, CodesOf F.uses code ∧
    let toks := ((tokenNames F.uses).drop 1).map fun n => (n, code n)
    (I.iflag = false → HasDefines (bytes I.codeName W.code) I.sflag toks (some (code (txt "error")))) ∧
    (I.iflag = true → I.dflag = false → HasDefines W.ext I.sflag toks (some (code (txt "error")))) ∧
    (I.dflag = true → HasDefines W.defs I.sflag toks (if I.iflag then some (code (txt "error")) else none)) := by
  intro I W
  obtain ⟨-, t', F', h1, h2, h3, h4, acts, tags, h5, ho⟩ := (reader_iff lp file text o).1 h
  obtain ⟨rfl, rfl, -⟩ := C80_unique file text t t' F F' ht h1 hF h2
  have hm : Means lp F acts o := by rw [ho]; exact means_final lp hF h3 h4 acts
  refine ⟨_, hm.codes, ?_⟩
  have hgm := goal_mem F
  have hgt : ¬ Terminal F.uses F.goal := fun h => h.1 h4
  have hns := hm.count.1
  have hntI : I.ntokens = (tokenNames F.uses).length + 1 := hm.tokens.1
  have hvals : I.values = o.num.value := rfl
  have hN : ∀ n ∈ I.names, SymName n := by
    intro n hn
    obtain ⟨k, -, rfl⟩ := List.mem_map.1 hn
    rcases symbolName_any hm k with e | e | e | e
    · rw [e]; exact (word_noQuote (by unfold NameChar Letter Digit; decide)).1
    · rw [e]; exact (word_noQuote (by unfold NameChar Letter Digit; decide)).1
    · rw [e]; exact .word [] (by simp)
    · rcases names_kind hF e with h | ⟨⟨s, h⟩, -⟩
      · exact .word _ h
      · rw [h]; exact .lit s
  have nameAt : ∀ n ∈ names F.uses, I.names.getD (symNumber F.uses F.goal n) [] = n := by
    intro n hn
    have := ofFile_name (o := o) I0 a tb (symNumber F.uses F.goal n) (by rw [hns]; exact number_lt _ _ hgm hgt hn)
    rw [symbolName_number hm hn] at this
    exact this.2
  have sn : ∀ (k : Nat) n, (tokenNames F.uses)[k]? = some n → symNumber F.uses F.goal n = k + 1 ∧ n ∈ names F.uses := by
    intro k n hk
    have hmm := List.mem_filter.1 (List.mem_of_getElem? hk)
    refine ⟨?_, hmm.1⟩
    have hj : (tokenNames F.uses).idxOf n = k := idxOf_getElem _ ((names_nodup _).filter _) k n hk
    unfold symNumber
    rw [if_pos (by simpa using hmm.2), hj]
  have herr : o.num.value.getD (symNumber F.uses F.goal (txt "error")) 0 = I.values.getD 1 0 := by
    rw [(sn 0 _ (error_first _ (error_terminal hF h3))).1, hvals]
  have htoks : (((tokenNames F.uses).drop 1).map fun n => (n, o.num.value.getD (symNumber F.uses F.goal n) 0)) =
      (List.range' 2 (I.ntokens - 2)).map fun i => (I.names.getD i [], I.values.getD i 0) := by
    refine List.ext_getElem? fun k => ?_
    rw [List.getElem?_map, List.getElem?_map, List.getElem?_drop]
    by_cases hk : k < (tokenNames F.uses).length - 1
    · rw [List.getElem?_range' (by omega), List.getElem?_eq_getElem (by omega : 1 + k < (tokenNames F.uses).length)]
      obtain ⟨e1, e2⟩ := sn (1 + k) _ (List.getElem?_eq_getElem (by omega))
      have e3 := nameAt _ e2
      rw [e1] at e3
      simp only [Option.map_some]
      rw [e1, show 2 + 1 * k = 1 + k + 1 by omega, e3, hvals]
    · rw [List.getElem?_eq_none (by omega), List.getElem?_eq_none (by simp; omega)]
      rfl
  have := C90_defines I w hN
  dsimp only at this ⊢
  rw [herr, htoks]
  exact this

/-- Whether a name has a macro can be computed. -/
def hasMacro (sflag : Bool) (n : List Nat) : Bool := isCIdent n && (!sflag || n.head? ≠ some 34)

theorem no_macro {sflag : Bool} {n : List Nat} (hn : SymName n) (h : hasMacro sflag n = false) : ¬ ∃ m, MacroOf sflag n m := by
  rintro ⟨m, hm⟩
  have := (macro_iff sflag n hn).2 m hm
  unfold hasMacro at h
  rw [h] at this
  cases this

theorem decimal_of (n : Nat) : Decimal n (decDigits n) := decimal_nat n

/-- C90 is violated in that macros may clash: a word and a string with the same text are different tokens, with different codes, but have the same macro. -/
theorem C90_twice_violated :
    (reader false [] (txt "%token foo\n%%\ns : foo \"foo\" ;\n")).toOption.map (fun o => (o.syms.map BSym.name, o.num.value)) =
      some ([txt "error", txt "foo", txt "s", txt "\"foo\""], [0, 256, 257, 258, -1, 0]) ∧
    DefLines false [(txt "foo", 257), (txt "\"foo\"", 258)] (txt "#define foo 257\n#define foo 258\n") := by
  refine ⟨by decide +kernel, ?_⟩
  have hw : CWord (txt "foo") := (word_iff _).2 ⟨102, txt "oo", by decide, by decide, by decide⟩
  exact .line (txt "foo") (txt "foo") (txt "257") _ 257 _ ⟨hw, .inl rfl⟩ (decimal_of 257)
    (.line (txt "\"foo\"") (txt "foo") (txt "258") [] 258 [] ⟨hw, .inr ⟨rfl, by decide⟩⟩ (decimal_of 258) .nil)

/-- C90 is violated for keywords: a string `"if"` makes `if` a macro. -/
theorem C90_keyword_violated :
    (reader false [] (txt "%%\ns : \"if\" ;\n")).toOption.map (fun o => (o.syms.map BSym.name, o.num.value)) =
      some ([txt "error", txt "s", txt "\"if\""], [0, 256, 257, -1, 0]) ∧
    DefLines false [(txt "\"if\"", 257)] (txt "#define if 257\n") := by
  refine ⟨by decide +kernel, ?_⟩
  have hw : CWord (txt "if") := (word_iff _).2 ⟨105, txt "f", by decide, by decide, by decide⟩
  exact .line (txt "\"if\"") (txt "if") (txt "257") [] 257 [] ⟨hw, .inr ⟨rfl, by decide⟩⟩ (decimal_of 257) .nil

/-- C90 is violated for names with a dot: they are accepted for tokens, but have no macro. -/
theorem C90_dot_violated :
    (reader false [] (txt "%token a.b\n%%\ns : a.b ;\n")).toOption.map (fun o => (o.syms.map BSym.name, o.num.value)) =
      some ([txt "error", txt "a.b", txt "s"], [0, 256, 257, -1, 0]) ∧
    ∀ sflag, DefLines sflag [(txt "a.b", 257)] [] := by
  refine ⟨by decide +kernel, fun sflag => .skip _ _ _ _ (no_macro (.word _ (by unfold NameChar Letter Digit; decide)) ?_) .nil⟩
  cases sflag <;> decide

/-- the hypothesis of `C90_defines`, and a header with a word, a string, a character and a name with a dot -/
example : (∀ n ∈ (c87In false false false none).names, SymName n) ∧ (c87In false false false none).dflag = true := by
  refine ⟨?_, rfl⟩
  change ∀ n ∈ [txt "$end", txt "error", txt "$accept", txt "s"], _
  intro n hn
  refine (word_noQuote ?_).1
  simp only [List.mem_cons, List.not_mem_nil, or_false] at hn
  rcases hn with rfl | rfl | rfl | rfl <;> (unfold NameChar Letter Digit; decide)

example : DefLines true [(txt "NUM", 300), (txt "'+'", 43), (txt "\"le\"", 258)] (txt "#define NUM 300\n") := by
  have hw : CWord (txt "NUM") := (word_iff _).2 ⟨78, txt "UM", by decide, by decide, by decide⟩
  refine .line (txt "NUM") (txt "NUM") (txt "300") [] 300 _ ⟨hw, .inl rfl⟩ (decimal_of 300) (.skip _ _ _ _ ?_ (.skip _ _ _ _ ?_ .nil))
  · exact no_macro (.lit (txt "+")) (by decide)
  · exact no_macro (.lit (txt "le")) (by decide)

/-- the hypotheses of `C90_file` -/
example : (reader false (txt "g.y") c89File).toOption.isSome = true := by decide +kernel

end Verif.Byacc
