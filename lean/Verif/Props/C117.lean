import Verif.Proofs.LemonSql
import Verif.Props.C99
import Verif.Proofs.LemonFileDec
/-
C117: the SQL file of lemon describes the grammar file (violated for the start symbol, with option `-u`, and for empty token classes).
-/
set_option autoImplicit false
namespace Verif.Lemon
open Verif.Spec.GFile Verif.Spec.Sql Verif.Spec.Words
open Verif.Spec.RuleCode (num)

variable {o : Opts} {items : List Verif.Spec.GFile.Item} {s : RState}

theorem mapM_some {α β γ : Type} {h : γ → α} {f : α → Option β} {g : γ → β} : ∀ {l : List γ}, (∀ x ∈ l, f (h x) = some (g x)) → (l.map h).mapM f = some (l.map g)
  | [], _ => rfl
  | a :: l, hl => by
    rw [List.map_cons, List.mapM_cons, hl a (by simp), mapM_some (fun x hx => hl x (by simp [hx]))]
    rfl

theorem inserts_map {α : Type} (into : String) (head : List Nat) (hh : head = text "INSERT INTO " ++ text into ++ text " VALUES\n") (nl : Nat → Bool) (f : α → List Nat) (l : List α) :
    Inserts into (l.map f) (sqlInsert head nl 0 (l.map fun x => [f x])) := by
  have := sqlInsert_inserts into head hh nl (l.map fun x => [f x]) (by simp)
  rwa [show (l.map fun x => [f x]).flatten = l.map f by rw [← flatten_singletons (l.map f), List.map_map]; rfl] at this

theorem row_two (a b : List Nat) : row [a, b] = [40] ++ a ++ [44] ++ b ++ [41] := by
  simp [row, show text "(" = [40] by decide, show text ")" = [41] by decide, show text "," = [44] by decide]
theorem row_three (a b c : List Nat) : row [a, b, c] = [40] ++ a ++ [44] ++ b ++ [44] ++ c ++ [41] := by
  simp [row, show text "(" = [40] by decide, show text ")" = [41] by decide, show text "," = [44] by decide]
theorem row_four (a b c d : List Nat) : row [a, b, c, d] = [40] ++ a ++ [44] ++ b ++ [44] ++ c ++ [44] ++ d ++ [41] := by
  simp [row, show text "(" = [40] by decide, show text ")" = [41] by decide, show text "," = [44] by decide]

/-- C117, symbols.  The rows for symbols are those of the file: every token and nonterminal with its number, and the fallback of a token. -/
theorem C117_symbols (z : List Nat) (ws : List (Nat × Word)) (hz : HasWords z ws) (hf : IsFile items ws) (hv : Valid o items) (hh : Holds o items s) :
    Inserts "symbol(id,name,isTerminal,fallback)" (symbolRows o items) s.sqlSymbols := by
  unfold RState.sqlSymbols
  have := inserts_map "symbol(id,name,isTerminal,fallback)" (cstr "INSERT INTO symbol(id,name,isTerminal,fallback) VALUES\n") (by decide +kernel) (fun _ => true)
    (fun p : Sym × Nat =>
      [40] ++ decimal p.2 ++ cstr ",'" ++ p.1.name ++ cstr "'," ++ (if p.2 < s.nterminal then cstr "TRUE" else cstr "FALSE") ++
        (match p.1.fallback with | some f => [44] ++ decimal (s.index f) ++ [41] | none => cstr ",NULL)")) ((s.symbols.take s.nsymbol).zipIdx.drop 1)
  convert this using 1
  case e'_3 => rfl
  rw [low_zip hv hh, List.map_cons, List.drop_succ_cons, List.drop_zero, List.map_map, symbolRows, List.map_append]
  have e1 : cstr ",'" = [44, 39] := by decide
  have e2 : cstr "'," = [39, 44] := by decide
  have e3 : cstr ",NULL)" = [44] ++ text "NULL" ++ [41] := by decide
  have e4 : text "'" = [39] := by decide
  have e5 : cstr "TRUE" = text "TRUE" := rfl
  have e6 : cstr "FALSE" = text "FALSE" := rfl
  congr 1
  · refine List.map_congr_left fun X hX => ?_
    have hn := ((mem_tokens _).1 hX)
    have hb := tokenNumber_bounds X hX
    simp only [Function.comp, symOf]
    rw [quoted_eq (name_noQuote hz hf hv hn.1), decimal_num, if_pos (by
      show s.index X < _
      rw [index_token hv hh X hX, nterminal_eq hv hh]; exact hb.2), number_index hv hh (.inl hX), row_four]
    rcases Option.eq_none_or_eq_some (fallbackOf items X) with h | ⟨Y, h⟩
    · simp [h, orNull, e1, e2, e3, e4, e5]
    · have hY := number_index hv hh (.inl (fallback_tokens hv h).2)
      simp [h, orNull, e1, e2, e4, e5, decimal_num, hY]
  · refine List.map_congr_left fun x hx => ?_
    have hn := ((mem_nonterminals _).1 hx)
    have hnt : x ∉ tokens o items := fun h => hn.2.1 ((mem_tokens _).1 h).2
    simp only [Function.comp, symOf]
    rw [quoted_eq (name_noQuote hz hf hv hn.1), decimal_num, if_neg (by
      show ¬ s.index x < _
      rw [index_nonterminal hv hh x hx, nterminal_eq hv hh]; omega), number_index hv hh (.inr hx), row_four]
    rcases Option.eq_none_or_eq_some (fallbackOf items x) with h | ⟨Y, h⟩
    · simp [h, e1, e2, e3, e4, e6]
    · exact absurd (fallback_tokens hv h).1 hnt

theorem precOf_token (hv : Valid o items) {x : Word} {p : Nat × Assoc} (h : precOf o items x = some p) : 0 < p.1 ∧ p.2 ≠ .UNK ∧ x ∈ tokens o items := by
  unfold precOf at h
  split at h
  · cases h
  · next ho =>
    obtain ⟨d, hd, h⟩ := List.exists_of_findSome?_eq_some h
    split at h
    · next hx =>
      cases h
      have hm : d.1 ∈ precs items := List.fst_mem_of_mem_zipIdx hd
      unfold precs at hm
      obtain ⟨it, hi, hm⟩ := List.mem_filterMap.1 hm
      cases it <;> simp at hm
      have hform := valid_form hv _ hi
      rw [← hm] at hx ⊢
      exact ⟨by simp, hform.1, (mem_tokens _).2 ⟨(mem_names _ _ _).2 (.inr ⟨_, hi, by simp only [mentions]; rw [if_neg ho]; exact hx⟩), hform.2 _ hx⟩⟩
    · cases h

theorem inserts_filterMap {α : Type} (into : String) (head : List Nat) (hh : head = text "INSERT INTO " ++ text into ++ text " VALUES\n") (nl : Nat → Bool) (f : α → Option (List Nat)) (l : List α) :
    Inserts into (l.filterMap f) (sqlInsert head nl 0 (l.filterMap fun x => (f x).map fun r => [r])) := by
  have := inserts_map into head hh nl id (l.filterMap f)
  rw [List.map_id, List.map_filterMap] at this
  exact this

/-- C117, precedences.  The rows for precedences are those of the tokens with a precedence. -/
theorem C117_precs (hv : Valid o items) (hh : Holds o items s) : Inserts "precedence(id,prec,assoc)" (precRows o items) s.sqlPrecs := by
  unfold RState.sqlPrecs
  have := inserts_filterMap "precedence(id,prec,assoc)" (cstr "INSERT INTO precedence(id,prec,assoc) VALUES\n") (by decide +kernel) (fun b => (b + 1) % 4 == 0)
    (fun p : Sym × Nat => if 0 < p.1.prec then some ([40] ++ decimal p.2 ++ [44] ++ decimal p.1.prec.toNat ++ cstr ",'" ++ [precChr p.1] ++ cstr "')") else none)
    (s.symbols.take s.nsymbol).zipIdx
  have e : ∀ p : Sym × Nat, (if 0 < p.1.prec then some [[40] ++ decimal p.2 ++ [44] ++ decimal p.1.prec.toNat ++ cstr ",'" ++ [precChr p.1] ++ cstr "')"] else none) =
      (if 0 < p.1.prec then some ([40] ++ decimal p.2 ++ [44] ++ decimal p.1.prec.toNat ++ cstr ",'" ++ [precChr p.1] ++ cstr "')") else none).map fun r => [r] := by
    intro p; split <;> rfl
  simp only [e]
  convert this using 1
  rw [low_zip hv hh, List.filterMap_map, ← List.cons_append, List.filterMap_append]
  have hnone : ∀ x, x ∉ tokens o items → precOf o items x = none := by
    intro x hx
    rcases Option.eq_none_or_eq_some (precOf o items x) with h | ⟨p, h⟩
    · exact h
    · exact absurd (precOf_token hv h).2.2 hx
  have hd : text "$" ∉ tokens o items := fun h => dollar_not_letter (.inl ((mem_tokens _).1 h).2)
  rw [List.filterMap_cons_none (by simp [symOf, hnone _ hd]), (List.filterMap_eq_nil_iff (l := nonterminals o items)).2 ?_, List.append_nil, precRows]
  · refine List.filterMap_congr fun X hX => ?_
    rcases Option.eq_none_or_eq_some (precOf o items X) with h | ⟨p, h⟩
    · simp [symOf, h]
    · obtain ⟨h1, h2, -⟩ := precOf_token hv h
      have hu := ((mem_tokens _).1 hX).2
      have hq : quoted (text (letter p.2)) = [39] ++ [precChr (symOf o items X)] ++ [39] := by
        have ht : (symOf o items X).type = .TERMINAL := by simp [symOf, upper_not_class hv hu, hu]
        have ha : (symOf o items X).assoc = p.2 := by simp [symOf, h]
        have hp : (symOf o items X).prec = p.1 := by simp [symOf, h]
        unfold precChr
        rw [if_pos ⟨by rw [hp]; omega, ht⟩, ha]
        cases hp2 : p.2 <;> first | decide | exact absurd hp2 h2
      have hp : (symOf o items X).prec = p.1 := by simp [symOf, h]
      simp only [Function.comp, h, Option.map_some, hp]
      rw [if_pos (by omega), row_three, hq, decimal_num, decimal_num, number_index hv hh (.inl hX)]
      simp [show cstr ",'" = [44, 39] by decide, show cstr "')" = [39, 41] by decide]
  · intro x hx
    have hnt : x ∉ tokens o items := fun h => ((mem_nonterminals _).1 hx).2.1 ((mem_tokens _).1 h).2
    simp [symOf, hnone x hnt]

theorem mark_iff (l : List Verif.Spec.GFile.Item) : l.any Item.isMark = (l.findSome? Item.markOf).isSome := by
  induction l with
  | nil => rfl
  | cons a l ih => cases a <;> simp [Item.isMark, Item.markOf, List.findSome?_cons, ih]

theorem mark_token (ho : o.ignorePrec = false) (hv : Valid o items) {p : Verif.Spec.GFile.Item × List Verif.Spec.GFile.Item} (hp : p ∈ parts items) {X : Word}
    (h : p.2.findSome? Item.markOf = some X) : X ∈ tokens o items := by
  obtain ⟨it, hit, h⟩ := List.exists_of_findSome?_eq_some h
  cases it <;> simp [Item.markOf] at h
  subst h
  have hi := parts_sub _ _ hp _ hit
  exact (mem_tokens _).2 ⟨(mem_names _ _ _).2 (.inr ⟨_, hi, by simp [mentions, ho]⟩), valid_form hv _ hi⟩

theorem parts_mem {p : Verif.Spec.GFile.Item × List Verif.Spec.GFile.Item} : ∀ {items : List Verif.Spec.GFile.Item}, p ∈ parts items → p.1 ∈ items
  | [], h => by cases h
  | a :: l, h => by
    rw [parts] at h
    split at h
    · rcases List.mem_cons.1 h with rfl | h
      · simp
      · exact List.mem_cons_of_mem _ (parts_mem h)
    · exact List.mem_cons_of_mem _ (parts_mem h)

theorem lhs_is_nonterminal (hv : Valid o items) {l : Word} {a : Option Word} {rhs : List Elem} {line : Nat} (hr : .rule l a rhs line ∈ items) (hl : isClass items l = false) :
    l ∈ nonterminals o items := by
  have hf := (valid_form hv _ hr).1
  refine (mem_nonterminals _).2 ⟨(mem_names _ _ _).2 (.inr ⟨_, hr, by simp [mentions]⟩), fun h => upper_not_lower h hf, ?_, hl⟩
  rintro rfl
  exact dollar_not_letter (.inr hf)

/-- The left sides of rules are no token classes. -/
def PlainLhs (items : List Verif.Spec.GFile.Item) : Prop := ∀ l a rhs line, .rule l a rhs line ∈ items → isClass items l = false

/-- C117, rules.  The rows for rules are those of the file.  (Not with option `-u`, see `C117_ignored_violated`.) -/
theorem C117_rules_partial (ho : o.ignorePrec = false) (hv : Valid o items) (hh : Holds o items s) (hl : PlainLhs items) :
    ∃ t, s.sqlRules = some t ∧ Inserts "rule(ruleid,lhs,prec_id)" (ruleRows o items) t := by
  have h1 : s.rules.zipIdx.mapM s.sqlRule = some (ruleRows o items) := by
    rw [hh.rules, List.zipIdx_map, ruleRows]
    refine mapM_some fun p hp => ?_
    have hm : p.1 ∈ parts items := List.fst_mem_of_mem_zipIdx hp
    obtain ⟨⟨it, rest⟩, i⟩ := p
    have hr := parts_isRule _ _ hm
    cases it <;> simp [Item.isRule] at hr
    next l a rhs line =>
    have hn := number_index hv hh (.inr (lhs_is_nonterminal hv (parts_mem hm) (hl _ _ _ _ (parts_mem hm))))
    simp only [Prod.map, RState.sqlRule, ruleOf, mark_iff, ho, lhsOf, row_three]
    rcases Option.eq_none_or_eq_some (rest.findSome? Item.markOf) with h | ⟨X, h⟩
    · rw [h, hn]
      simp [orNull, decimal_num, show cstr "NULL)" = text "NULL" ++ [41] by decide]
    · have hX := number_index hv hh (.inl (mark_token ho hv hm h))
      rw [h, hn]
      simp [orNull, decimal_num, hX]
  unfold RState.sqlRules
  rw [h1]
  refine ⟨_, rfl, ?_⟩
  have := inserts_map "rule(ruleid,lhs,prec_id)" (cstr "INSERT INTO rule(ruleid,lhs,prec_id) VALUES\n") (by decide +kernel) (fun b => b % 4 == 0) id (ruleRows o items)
  rwa [List.map_id] at this

/-- C117 is violated: with option `-u` lemon uses a NULL pointer for every grammar in which a rule has a precedence in brackets. -/
theorem C117_ignored_violated (ho : o.ignorePrec = true) (hh : Holds o items s) (hm : ∃ p ∈ parts items, p.2.any Item.isMark = true) : s.reportSQL = none := by
  have h1 : s.sqlRules = none := by
    unfold RState.sqlRules
    rw [Option.map_eq_none_iff]
    obtain ⟨p, hp, hm⟩ := hm
    obtain ⟨i, hi⟩ := List.mem_iff_getElem?.1 hp
    have hmem : (ruleOf o (isClass items) p, i) ∈ s.rules.zipIdx := by
      rw [hh.rules, List.mk_mem_zipIdx_iff_getElem?, List.getElem?_map, hi]; rfl
    have hnone : s.sqlRule (ruleOf o (isClass items) p, i) = none := by
      have hr := parts_isRule _ _ hp
      obtain ⟨it, rest⟩ := p
      cases it <;> simp [Item.isRule] at hr
      simp only at hm
      simp [RState.sqlRule, ruleOf, hm, ho]
    generalize s.rules.zipIdx = l at hmem
    induction l with
    | nil => cases hmem
    | cons a l ih =>
      rw [List.mapM_cons]
      rcases List.mem_cons.1 hmem with rfl | h
      · rw [hnone]; rfl
      · rw [ih h]
        cases s.sqlRule a <;> rfl
  unfold RState.reportSQL
  rw [h1]; rfl

theorem parts_head : ∀ items : List Verif.Spec.GFile.Item, (parts items).head?.map (fun p => lhsOf p.1) = items.findSome? Item.lhsOf
  | [] => rfl
  | a :: l => by
    have ih := parts_head l
    cases a <;> first | rfl | exact ih

/-- C117, other directives.  The statements name the stack size, the wildcard, and the left side of the first rule as start symbol.  (Full statement: the start symbol, see
`C117_start_violated`; and any stack size.) -/
theorem C117_directives_partial (hv : Valid o items) (hh : Holds o items s) (hl : PlainLhs items) (S : Word) (hS : items.findSome? Item.lhsOf = some S)
    (hq : ∀ t, argOf o items ("stack_size", false) = some t → 39 ∉ t) : s.sqlDirectives = some (directives o items S) := by
  rw [← parts_head] at hS
  obtain ⟨p, hp, hS⟩ := Option.map_eq_some_iff.1 hS
  have hm := List.mem_of_mem_head? (by rw [hp]; rfl : p ∈ (parts items).head?)
  have hr := parts_isRule _ _ hm
  obtain ⟨it, rest⟩ := p
  cases it <;> simp [Item.isRule] at hr
  next l a rhs line =>
  simp only [lhsOf] at hS
  subst hS
  have hn := number_index hv hh (.inr (lhs_is_nonterminal hv (parts_mem hm) (hl _ _ _ _ (parts_mem hm))))
  have ha : s.args .stackSize = argOf o items ("stack_size", false) := hh.args .stackSize
  unfold RState.sqlDirectives
  rw [hh.rules, List.head?_map, hp, Option.map_some, Option.map_some, ha, hh.wildcard]
  have e1 : (ruleOf o (isClass items) (.rule l a rhs line, rest)).lhs = l := rfl
  rw [e1, hn, directives, decimal_num]
  have u1 : ∀ v, update "start_symbol" v = cstr "UPDATE directives SET start_symbol=" ++ v ++ cstr ";\n" := fun v => rfl
  have u2 : ∀ v, update "stack_size" (text "'" ++ v ++ text "'") = cstr "UPDATE directives SET stack_size='" ++ v ++ cstr "';\n" := by
    intro v
    have a1 : cstr "UPDATE directives SET stack_size='" = text "UPDATE directives SET " ++ text "stack_size" ++ text "=" ++ text "'" := by decide
    have a2 : cstr "';\n" = text "'" ++ text ";\n" := by decide
    rw [update, a1, a2]
    simp only [List.append_assoc]
  have u3 : ∀ v, update "wildcard" v = cstr "UPDATE directives SET wildcard=" ++ v ++ cstr ";\n" := fun v => rfl
  congr 2
  · rw [u1]
    congr 1
    rcases Option.eq_none_or_eq_some (argOf o items ("stack_size", false)) with h | ⟨t, h⟩
    · rw [h]; rfl
    · rw [h]
      show _ = update "stack_size" (quoted t)
      rw [quoted_eq (hq t h), u2]
  · rcases Option.eq_none_or_eq_some (wildcards items).head? with h | ⟨X, h⟩
    · rw [h]; rfl
    · rw [h]
      show _ = update "wildcard" _
      rw [u3, ← number_index hv hh (.inl (wildcards_token hv X (List.mem_of_head? h))), ← decimal_num]

theorem sqlSyms_choices (hv : Valid o items) (hh : Holds o items s) {l : Word} {a : Option Word} {rhs : List Elem} {line : Nat} (hr : .rule l a rhs line ∈ items)
    {e : Elem} (he : e ∈ rhs) : s.sqlSyms (refOf (isClass items) e) = choices items e ∧ ∀ X ∈ choices items e, X ∈ tokens o items ∨ X ∈ nonterminals o items := by
  have hok := elem_ok hv hh hr e he
  have hname := hok.mem
  have hsym := sym_holds hh e.name hname
  unfold refOf choices
  by_cases hc : isClass items e.name = true
  · have ht : (s.sym e.name).type = .MULTITERMINAL := by rw [hsym]; simp [symOf, hc]
    rw [if_pos (.inl hc), if_pos hc]
    refine ⟨?_, fun X hX => .inl (members_tokens hv _ _ hX)⟩
    rw [RState.sqlSyms, if_pos ht, hsym]
    rfl
  · have hn : e.name ∈ tokens o items ∨ e.name ∈ nonterminals o items := by
      by_cases hu : Upper e.name
      · exact .inl ((mem_tokens _).2 ⟨hname, hu⟩)
      · exact .inr ((mem_nonterminals _).2 ⟨hname, hu, hok.letter, by simpa using hc⟩)
    have ht : (s.sym e.name).type ≠ .MULTITERMINAL := by
      rw [hsym]
      simp only [symOf, hc]
      simp only [Bool.false_eq_true, if_false]
      split <;> simp
    rw [if_neg hc]
    constructor
    · by_cases ha : e.alts = []
      · rw [if_pos (.inr ha), RState.sqlSyms, if_neg ht, ha]
      · rw [if_neg (by simp [hc, ha]), RState.sqlSyms]
    · intro X hX
      rcases List.mem_cons.1 hX with rfl | hX
      · exact hn
      · exact .inl (hok.alts X hX)

/-- C117, right sides.  The rows for right sides are those of the file.  (Not if a token class without tokens is used, see `C117_empty_violated`.) -/
theorem C117_rhs_partial (hv : Valid o items) (hh : Holds o items s)
    (hc : ∀ l a rhs line, .rule l a rhs line ∈ items → ∀ e ∈ rhs, choices items e ≠ []) : Inserts "rulerhs(ruleid,pos,sym)" (rhsRows o items) s.sqlRhs := by
  have hg : (s.rules.zipIdx.flatMap fun r => r.1.rhs.zipIdx.map fun e =>
      (s.sqlSyms e.1.1).map fun x => [40] ++ decimal r.2 ++ [44] ++ decimal e.2 ++ [44] ++ decimal (s.index x) ++ [41]) =
      (parts items).zipIdx.flatMap fun p => (rhsOf p.1.1).zipIdx.map fun e => (choices items e.1).map fun X => row [num p.2, num e.2, num (number o items X)] := by
    rw [hh.rules, List.zipIdx_map, List.flatMap_map]
    refine List.flatMap_congr fun p hp => ?_
    have hm : p.1 ∈ parts items := List.fst_mem_of_mem_zipIdx hp
    obtain ⟨⟨it, rest⟩, i⟩ := p
    have hr := parts_isRule _ _ hm
    cases it <;> simp [Item.isRule] at hr
    next l a rhs line =>
    simp only [Prod.map, ruleOf, rhsOf]
    rw [List.zipIdx_map, List.map_map]
    refine List.map_congr_left fun e he => ?_
    obtain ⟨h1, h2⟩ := sqlSyms_choices hv hh (parts_mem hm) (List.fst_mem_of_mem_zipIdx he)
    simp only [Function.comp, Prod.map, h1, id]
    refine List.map_congr_left fun X hX => ?_
    rw [row_three, number_index hv hh (h2 X hX), decimal_num, decimal_num, decimal_num]
  unfold RState.sqlRhs
  rw [hg]
  have := sqlInsert_inserts "rulerhs(ruleid,pos,sym)" (cstr "INSERT INTO rulerhs(ruleid,pos,sym) VALUES\n") (by decide +kernel) (fun b => (b + 1) % 5 == 0)
    ((parts items).zipIdx.flatMap fun p => (rhsOf p.1.1).zipIdx.map fun e => (choices items e.1).map fun X => row [num p.2, num e.2, num (number o items X)]) ?_
  · convert this using 1
    unfold rhsRows
    generalize (parts items).zipIdx = l
    induction l with
    | nil => rfl
    | cons p l ih => rw [List.flatMap_cons, List.flatMap_cons, List.flatten_append, ← ih, List.flatMap_def]
  · intro g hgm
    obtain ⟨p, hp, hgm⟩ := List.mem_flatMap.1 hgm
    obtain ⟨e, he, rfl⟩ := List.mem_map.1 hgm
    have hm : p.1 ∈ parts items := List.fst_mem_of_mem_zipIdx hp
    obtain ⟨⟨it, rest⟩, i⟩ := p
    have hr := parts_isRule _ _ hm
    cases it <;> simp [Item.isRule] at hr
    next l a rhs line =>
    intro h
    exact hc _ _ _ _ (parts_mem hm) _ (List.fst_mem_of_mem_zipIdx he) (List.map_eq_nil_iff.1 h)

/-- C117.  The SQL file says what the grammar file says: symbols and fallbacks, precedences, rules with their right sides, stack size and wildcard.  (Full statement: without the
hypotheses about option `-u`, token classes without tokens, and quotes in the stack size; and the start symbol is the one declared.) -/
theorem C117_sql_partial (o : Opts) (z : List Nat) (ws : List (Nat × Word)) (items : List Verif.Spec.GFile.Item) (s : RState) (S : Word) (hz : HasWords z ws) (hf : IsFile items ws)
    (hv : Valid o items) (hh : Holds o items s) (hl : PlainLhs items) (hS : items.findSome? Item.lhsOf = some S) (ho : o.ignorePrec = false)
    (hc : ∀ l a rhs line, .rule l a rhs line ∈ items → ∀ e ∈ rhs, choices items e ≠ []) (hq : ∀ t, argOf o items ("stack_size", false) = some t → 39 ∉ t) :
    ∃ F, s.reportSQL = some F ∧
      Inserts "symbol(id,name,isTerminal,fallback)" (symbolRows o items) F.symbols ∧
      Inserts "precedence(id,prec,assoc)" (precRows o items) F.precs ∧
      Inserts "rule(ruleid,lhs,prec_id)" (ruleRows o items) F.rules ∧
      F.directives = directives o items S ∧
      Inserts "rulerhs(ruleid,pos,sym)" (rhsRows o items) F.rhs := by
  obtain ⟨t, h1, h2⟩ := C117_rules_partial ho hv hh hl
  have h3 := C117_directives_partial hv hh hl S hS hq
  refine ⟨⟨s.sqlSymbols, s.sqlPrecs, t, directives o items S, s.sqlRhs⟩, ?_, C117_symbols z ws hz hf hv hh, C117_precs hv hh, h2, rfl, C117_rhs_partial hv hh hc⟩
  unfold RState.reportSQL
  rw [h1, Option.bind_some, h3, Option.map_some]

/-- a file with a declaration of the start symbol -/
def c117Start : List Verif.Spec.GFile.Item := [.arg "start_symbol" (text "t") 1, .rule (text "s") none [⟨text "A", []⟩] 1, .rule (text "t") none [⟨text "s", []⟩, ⟨text "B", []⟩] 1]

/-- C117 is violated: the start symbol in the SQL file is not the one declared. -/
theorem C117_start_violated : ∃ s, parseText (ropts c72Opts) false (text "%start_symbol t s ::= A. t ::= s B.") = some s ∧ errorcnt s = 0 ∧
    startSymbol c72Opts c117Start = some (text "t") ∧ s.1.sqlDirectives = some (directives c72Opts c117Start (text "s")) ∧
    directives c72Opts c117Start (text "s") ≠ directives c72Opts c117Start (text "t") ∧ fileCheck (text "%start_symbol t s ::= A. t ::= s B.") c117Start = true := by
  have h : ((parseText (ropts c72Opts) false (text "%start_symbol t s ::= A. t ::= s B.")).map fun s => (errorcnt s, s.1.sqlDirectives)) =
      some (0, some (directives c72Opts c117Start (text "s"))) := by decide +kernel
  obtain ⟨s, h1, h2⟩ := Option.map_eq_some_iff.1 h
  simp only [Prod.mk.injEq] at h2
  exact ⟨s, h1, h2.1, by decide +kernel, h2.2, by decide +kernel, by decide +kernel⟩

/-- a file with a token class that has no tokens -/
def c117Empty : List Verif.Spec.GFile.Item := [.tokenClass (text "c") [], .rule (text "s") none [⟨text "c", []⟩] 1]

/-- C117 is violated: for a token class without tokens the statement for right sides is not SQL, although there are no errors. -/
theorem C117_empty_violated : ∃ s, parseText (ropts c72Opts) false (text "%token_class c. s ::= c.") = some s ∧ errorcnt s = 0 ∧
    s.1.sqlRhs = text "INSERT INTO rulerhs(ruleid,pos,sym) VALUES\n" ∧ ¬ Inserts "rulerhs(ruleid,pos,sym)" (rhsRows c72Opts c117Empty) s.1.sqlRhs ∧
    fileCheck (text "%token_class c. s ::= c.") c117Empty = true := by
  have h : ((parseText (ropts c72Opts) false (text "%token_class c. s ::= c.")).map fun s => (errorcnt s, s.1.sqlRhs)) =
      some (0, text "INSERT INTO rulerhs(ruleid,pos,sym) VALUES\n") := by decide +kernel
  obtain ⟨s, h1, h2⟩ := Option.map_eq_some_iff.1 h
  simp only [Prod.mk.injEq] at h2
  refine ⟨s, h1, h2.1, h2.2, ?_, by decide +kernel⟩
  have hr : rhsRows c72Opts c117Empty = [] := by decide +kernel
  unfold Inserts
  rw [if_pos hr, h2.2]
  decide

/-- C117 is violated: a quote in the stack size is not doubled. -/
theorem C117_quote_violated : ∃ s, parseText (ropts c72Opts) false (text "%stack_size \"1'\" s ::= A.") = some s ∧ errorcnt s = 0 ∧
    s.1.sqlDirectives = some (update "start_symbol" (num 2) ++ text "UPDATE directives SET stack_size='1'';\n") ∧ quoted (text "1'") = text "'1'''" := by
  have h : ((parseText (ropts c72Opts) false (text "%stack_size \"1'\" s ::= A.")).map fun s => (errorcnt s, s.1.sqlDirectives)) =
      some (0, some (update "start_symbol" (num 2) ++ text "UPDATE directives SET stack_size='1'';\n")) := by decide +kernel
  obtain ⟨s, h1, h2⟩ := Option.map_eq_some_iff.1 h
  simp only [Prod.mk.injEq] at h2
  exact ⟨s, h1, h2.1, h2.2, by decide⟩

/-! ### example -/

def c117Text : List Nat := text "%left PLUS. %fallback ID NUM. %wildcard ANY. %stack_size 50 %token_class op PLUS|MINUS.\ns ::= e.\ne ::= e op t. [PLUS]\ne ::= t.\nt ::= ID|NUM. { }\n"

def c117Items : List Verif.Spec.GFile.Item := [.prec .LEFT [text "PLUS"], .fallback [text "ID", text "NUM"], .wildcard [text "ANY"], .arg "stack_size" (text "50") 1,
  .tokenClass (text "op") [(none, text "PLUS"), (some 124, text "MINUS")], .rule (text "s") none [⟨text "e", []⟩] 2,
  .rule (text "e") none [⟨text "e", []⟩, ⟨text "op", []⟩, ⟨text "t", []⟩] 3, .mark (text "PLUS"), .rule (text "e") none [⟨text "t", []⟩] 4,
  .rule (text "t") none [⟨text "ID", [.alt 124 (text "NUM")]⟩] 5, .code (text " ") 5]

/-- the hypotheses of `C117_sql_partial` -/
example : fileCheck c117Text c117Items = true ∧ validCheck c72Opts [] c117Items = true ∧ c117Items.findSome? Item.lhsOf = some (text "s") ∧
    c72Opts.ignorePrec = false ∧ (∀ p ∈ parts c117Items, isClass c117Items (lhsOf p.1) = false ∧ ∀ e ∈ rhsOf p.1, choices c117Items e ≠ []) ∧
    argOf c72Opts c117Items ("stack_size", false) = some (text "50") ∧ 39 ∉ text "50" := by decide +kernel

example : symbolRows c72Opts c117Items = ["(1,'PLUS',TRUE,NULL)", "(2,'ID',TRUE,NULL)", "(3,'NUM',TRUE,2)", "(4,'ANY',TRUE,NULL)", "(5,'MINUS',TRUE,NULL)",
      "(6,'s',FALSE,NULL)", "(7,'e',FALSE,NULL)", "(8,'t',FALSE,NULL)"].map text ∧
    precRows c72Opts c117Items = [text "(1,1,'L')"] ∧ ruleRows c72Opts c117Items = ["(0,6,NULL)", "(1,7,1)", "(2,7,NULL)", "(3,8,NULL)"].map text ∧
    rhsRows c72Opts c117Items = ["(0,0,7)", "(1,0,7)", "(1,1,1)", "(1,1,5)", "(1,2,8)", "(2,0,8)", "(3,0,2)", "(3,0,3)"].map text ∧
    directives c72Opts c117Items (text "s") = text "UPDATE directives SET start_symbol=6;\nUPDATE directives SET stack_size='50';\nUPDATE directives SET wildcard=4;\n" := by decide +kernel

/-- the hypothesis of `C117_ignored_violated` -/
example : ((parseText (ropts { c72Opts with ignorePrec := true }) false (text "s ::= A. [B]")).map fun s => (errorcnt s, s.1.reportSQL)) = some (0, none) ∧
    ∃ p ∈ parts [Verif.Spec.GFile.Item.rule (text "s") none [⟨text "A", []⟩] 1, .mark (text "B")], p.2.any Item.isMark = true := by
  refine ⟨by decide +kernel, ?_⟩
  exact ⟨_, List.mem_cons_self, by decide⟩

end Verif.Lemon
