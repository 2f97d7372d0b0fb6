import Verif.Lemon.First
/-
Conversion of the grammar to yacc form: options `-y` and `-Y`, `Reprint_yacc` (lemon.c:3612-3630).
-/
set_option autoImplicit false
namespace Verif.Lemon

/-- A word of the printed file.  Simplification: white space, line ends and comments (the table of
symbols at the beginning, `/*empty*/`, precedences after symbols) are left out; a symbol stands for
its name. -/
inductive Word
  | sym (X : Nat)
  | token                -- `%token`
  | assoc (a : Assoc)    -- `%left`, `%right`, `%nonassoc`, `%precedence`, `%UNKNOWN`
  | start                -- `%start`
  | sep                  -- `%%`
  | colon | semi
  | prec                 -- `%prec`
  deriving DecidableEq, Repr

/-- the symbol printed for `X`, lemon.c:3571-3579: for a multi-terminal the terminal with number
`k` of its list.  `none`: read outside of `subsym` (also for `k` = −1, here `none`). -/
def yaccSym (g : Gram) (k : Option Nat) (X : Nat) : Option Nat :=
  if g.isMT X then k.bind fun j => (g.subsym X)[j]? else some X

/-- `rule_print_yacc0`, lemon.c:3561-3583 -/
def ruleYacc0 (g : Gram) (r : Rule) (k : Option Nat) : Option (List Word) :=
  (r.rhs.mapM (yaccSym g k)).map fun α => .sym r.lhs :: .colon :: α.map .sym

/-- the end of a rule, lemon.c:3593-3597 and 3603-3607; `p` is `rp->precsym` -/
def ruleYaccEnd (p : Option Nat) : List Word :=
  (match p with
    | some x => [.prec, .sym x]
    | none => []) ++ [.semi]

/-- `rule_print_yacc`, lemon.c:3585-3608 -/
def ruleYacc (g : Gram) (r : Rule) (p : Option Nat) : Option (List Word) :=
  match r.rhs.find? g.isMT with
  | some X => ((List.range (g.subsym X).length).mapM fun j => (ruleYacc0 g r (some j)).map (· ++ ruleYaccEnd p)).map List.flatten
  | none => (ruleYacc0 g r none).map (· ++ ruleYaccEnd p)

/-- the declaration of the tokens, lemon.c:3420-3434.  `$`, the symbol 0, does not begin with a
capital and so has type NONTERMINAL. -/
def reprintTokenDecl (g : Gram) : List Word :=
  if g.nterm ≤ 1 then [] else .token :: (List.range' 1 (g.nterm - 1)).map .sym

/-- the declaration of precedence level `j`, lemon.c:3456-3484 -/
def reprintLevel (g : Gram) (j : Nat) : List Word :=
  match (List.range' 1 (g.nterm - 1)).filter (fun t => g.prec t == (j : Int)) with
  | [] => []
  | t :: ts => .assoc (g.assoc t) :: (t :: ts).map .sym

/-- `Reprint_yacc`, lemon.c:3612-3630, called before the rules are sorted (lemon.c:1793, 1801).
`top` is `preccounter`; `p r` is `precsym` of rule `r`: as declared for option `-y`, as set by
`FindRulePrecedences` for `-Y`.  There is a first rule: `main` stops if there are no rules
(lemon.c:1757-1760). -/
def reprintYacc (g : Gram) (top : Nat) (p : Rule → Option Nat) : Option (List Word) :=
  match g.rules with
  | [] => none
  | first :: _ =>
    (g.rules.mapM fun r => ruleYacc g r (p r)).map fun rs =>
      reprintTokenDecl g ++ (List.range (top + 1)).flatMap (reprintLevel g) ++ [.start, .sym first.lhs, .sep] ++ rs.flatten

end Verif.Lemon
