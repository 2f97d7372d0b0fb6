import Verif.Spec.ByaccFile
import Verif.Spec.Source
/-
Specification: what a grammar file for byacc means.
-/
set_option autoImplicit false
namespace Verif.Spec.YText
open Byacc (Assoc)

/-- The name a symbol is kept under.  (Different literals have different names, see C78.) -/
def Sym.key : Sym → List Nat
  | .name n => n
  | .lit s => Byacc.litName s

/-- The name of the symbol made for the `k`-th action inside a rule: `$$k`. -/
def hiddenKey (k : Nat) : List Nat := 36 :: 36 :: Byacc.decDigits k

/-- `xs` without repetitions, in the order of the first occurrences -/
def firsts {α : Type} [DecidableEq α] : List α → List α
  | [] => []
  | x :: xs => x :: (firsts xs).filter (· ≠ x)

/-! The rules written -/

/-- What right-hand sides consist of. -/
inductive El
  | sym (x : Sym)
  | action (tabbed : Bool) (ps : List Part)
  | prec (x : Sym)
deriving DecidableEq, Repr

/-- A rule with one right-hand side. -/
structure Alt where
  lhs : Sym
  rhs : List El
deriving DecidableEq, Repr

/-- The rules in `toks`, behind `l : a`. -/
def altsFrom (l : Sym) (a : List El) : List RTok → List Alt
  | [] => [⟨l, a⟩]
  | .sym x :: ts => altsFrom l (a ++ [.sym x]) ts
  | .action tabbed ps :: ts => altsFrom l (a ++ [.action tabbed ps]) ts
  | .prec x :: ts => altsFrom l (a ++ [.prec x]) ts
  | .bar :: ts => ⟨l, a⟩ :: altsFrom l [] ts
  | .lhs y :: ts => ⟨l, a⟩ :: altsFrom y [] ts

def File.alts (F : File) : List Alt := altsFrom (.name F.first) [] F.toks

/-! Where symbols are named -/

/-- A place at which a symbol is named, and what is said about it there. -/
inductive Use
  /-- in a declaration of tokens; `level` is the number of declarations of precedence up to this one -/
  | token (x : Sym) (a : Assoc) (level : Nat) (tag : Option (List Nat)) (code : Option Nat)
  | typed (x : Sym) (tag : Option (List Nat))
  /-- as start symbol, in a right-hand side, or in `%prec` -/
  | plain (x : Sym)
  | lhs (x : Sym)
  /-- the symbol made for the `k`-th action inside a rule of `l` -/
  | hidden (k : Nat) (l : Sym)
deriving DecidableEq, Repr

def Use.key : Use → List Nat
  | .token x _ _ _ _ | .typed x _ | .plain x | .lhs x => x.key
  | .hidden k _ => hiddenKey k

/-- The number of declarations of precedence. -/
def levels (ds : List Decl) : Nat :=
  (ds.filter fun d => match d with | .tokens a _ _ => a ≠ .TOKEN | _ => false).length

/-- The symbols named in a declaration behind `pre`. -/
def Decl.uses (pre : List Decl) (d : Decl) : List Use :=
  match d with
  | .tokens a tag items => items.map fun y => .token y.1 a (levels (pre ++ [d])) tag y.2
  | .types tag xs => xs.map fun x => .typed x tag
  | .start n => [.plain (.name n)]
  | _ => []

/-- The symbols named in the declarations behind `pre`. -/
def declUses (pre : List Decl) : List Decl → List Use
  | [] => []
  | d :: ds => d.uses pre ++ declUses (pre ++ [d]) ds

/-- The symbols named in the rules.  An action in a rule of `l` has a symbol of its own if another action or a symbol follows it;
`pending`: an action was read last; `k`: the number of such symbols before. -/
def ruleUses (l : Sym) (pending : Bool) (k : Nat) : List RTok → List Use
  | [] => []
  | .sym x :: ts => if pending then .plain x :: .hidden (k + 1) l :: ruleUses l false (k + 1) ts else .plain x :: ruleUses l false k ts
  | .action _ _ :: ts => if pending then .hidden (k + 1) l :: ruleUses l true (k + 1) ts else ruleUses l true k ts
  | .prec x :: ts => .plain x :: ruleUses l pending k ts
  | .bar :: ts => ruleUses l false k ts
  | .lhs y :: ts => .lhs y :: ruleUses y false k ts

/-- The declarations, with those in front of the first rule. -/
def File.all (F : File) : List Decl := F.decls ++ F.early

def File.uses (F : File) : List Use :=
  declUses [] F.all ++ .lhs (.name F.first) :: ruleUses (.name F.first) false 0 F.toks

/-! What is known about a symbol -/

/-- The names of the symbols, in the order in which they are first named; `error` is always there. -/
def names (us : List Use) : List (List Nat) := firsts (txt "error" :: us.map Use.key)

/-- The literals with a given name. -/
def Use.lit? (n : List Nat) : Use → Option (List Nat)
  | .token (.lit s) _ _ _ _ | .typed (.lit s) _ | .plain (.lit s) | .lhs (.lit s) => if (Sym.lit s).key = n then some s else none
  | _ => none

/-- A token: declared as one, or a literal, or `error`. -/
def IsToken (us : List Use) (n : List Nat) : Prop :=
  n = txt "error" ∨ ∃ u ∈ us, u.key = n ∧ ((∃ x a level tag code, u = .token x a level tag code) ∨ ∃ s, u.lit? n = some s)

def IsLhs (us : List Use) (n : List Nat) : Prop := ∃ x, .lhs x ∈ us ∧ x.key = n

/-- The number given to a token last. -/
def numberOf (us : List Use) (n : List Nat) : Option Nat :=
  (us.filterMap fun u => match u with | .token x _ _ _ code => if x.key = n then code else none | _ => none).getLast?

/-- The code of a literal of one character. -/
def charOf (us : List Use) (n : List Nat) : Option Nat :=
  us.findSome? fun u => match u.lit? n with | some [c] => some c | _ => none

/-- Level and kind of the precedence given last. -/
def precOf (us : List Use) (n : List Nat) : Option (Nat × Assoc) :=
  (us.filterMap fun u => match u with | .token x a level _ _ => if x.key = n ∧ a ≠ .TOKEN then some (level, a) else none | _ => none).getLast?

/-- The tag given last. -/
def declaredTag (us : List Use) (n : List Nat) : Option (List Nat) :=
  (us.filterMap fun u => match u with
    | .token x _ _ tag _ => if x.key = n then tag else none
    | .typed x tag => if x.key = n then tag else none
    | _ => none).getLast?

/-- The rule an action symbol belongs to. -/
def hiddenOf (us : List Use) (n : List Nat) : Option Sym :=
  us.findSome? fun u => match u with | .hidden k l => if hiddenKey k = n then some l else none | _ => none

/-- The tag of a symbol; the symbol of an action has the tag of the left-hand side. -/
def tagOf (us : List Use) (n : List Nat) : Option (List Nat) := (declaredTag us n).or ((hiddenOf us n).bind fun l => declaredTag us l.key)

/-- The start symbol named last. -/
def startOf (ds : List Decl) : Option (List Nat) := (ds.filterMap fun d => match d with | .start n => some n | _ => none).getLast?

def File.goal (F : File) : List Nat := (startOf F.all).getD F.first

/-- The numbers of conflicts expected. -/
def expectOf (ds : List Decl) : Option Nat := (ds.filterMap fun d => match d with | .expect n => some n | _ => none).getLast?
def expectRROf (ds : List Decl) : Option Nat := (ds.filterMap fun d => match d with | .expectRR n => some n | _ => none).getLast?

/-- The text copied from `%{ %}`. -/
def textOf (ds : List Decl) : List Nat := ds.flatMap fun d => match d with | .text o => o | _ => []

/-- There is a tag. -/
def tagged (ds : List Decl) : Bool :=
  ds.any fun d => match d with | .tokens _ tag _ => tag.isSome | .types tag _ => tag.isSome | _ => false

/-! Actions -/

/-- The tags of what stands in front of an action in a rule of `l`. -/
def elTags (us : List Use) (l : Sym) (a : List El) : List (Option (List Nat)) :=
  a.filterMap fun e => match e with
    | .sym x => some (tagOf us x.key)
    | .action _ _ => some (declaredTag us l.key)
    | .prec _ => none

/-- The number of actions. -/
def actionsIn (a : List El) : Nat := (a.filter fun e => match e with | .action _ _ => true | _ => false).length

/-- The symbols and actions of a right-hand side. -/
def elFilter (a : List El) : List El := a.filter fun e => match e with | .prec _ => false | _ => true

/-- The actions in front of the last symbol or action of a right-hand side. -/
def innerActions (a : List El) : Nat :=
  match (elFilter a).reverse with
  | .action _ _ :: _ => actionsIn a - 1
  | _ => actionsIn a

/-- The actions in `rest`, which follows `l : a`, with the numbers under which they are written, and their translations; `n` is the number of
rules before. -/
inductive ActsIn (us : List Use) (l : Sym) (n : Nat) : Bool → List El → List El → List (Nat × List Nat) → Bool → Prop
  | done (tags : Bool) (a : List El) : ActsIn us l n tags a [] [] tags
  | sym (tags tags' : Bool) (x : Sym) (a rest : List El) (acts : List (Nat × List Nat)) : ActsIn us l n tags (a ++ [.sym x]) rest acts tags' →
      ActsIn us l n tags a (.sym x :: rest) acts tags'
  | prec (tags tags' : Bool) (x : Sym) (a rest : List El) (acts : List (Nat × List Nat)) : ActsIn us l n tags (a ++ [.prec x]) rest acts tags' →
      ActsIn us l n tags a (.prec x :: rest) acts tags'
  | action (tags tags' tags'' : Bool) (tabbed : Bool) (ps : List Part) (o : List Nat) (a rest : List El) (acts : List (Nat × List Nat)) :
      PartsOut ⟨declaredTag us l.key, elTags us l a⟩ tags ps o tags' → ActsIn us l n tags' (a ++ [.action tabbed ps]) rest acts tags'' →
      ActsIn us l n tags a (.action tabbed ps :: rest) ((n + actionsIn a + 1, (if tabbed then [9] else []) ++ o) :: acts) tags''

/-- The actions of rules; each right-hand side makes one rule, and one for each inner action. -/
inductive ActsOf (us : List Use) : Nat → Bool → List Alt → List (Nat × List Nat) → Bool → Prop
  | nil (n : Nat) (tags : Bool) : ActsOf us n tags [] [] tags
  | cons (n : Nat) (tags tags' tags'' : Bool) (a : Alt) (as : List Alt) (acts more : List (Nat × List Nat)) : ActsIn us a.lhs n tags [] a.rhs acts tags' →
      ActsOf us (n + innerActions a.rhs + 1) tags' as more tags'' → ActsOf us n tags (a :: as) (acts ++ more) tags''

/-! The rules of the grammar -/

/-- Where the precedence of a rule comes from: the symbols of its right-hand side, a symbol named in `%prec`, or nowhere. -/
inductive PrecBy
  | rhs
  | of (n : List Nat)
  | nowhere
deriving DecidableEq, Repr

/-- A rule of the grammar; symbols are given by their names. -/
structure SRule where
  lhs : List Nat
  rhs : List (List Nat)
  prec : PrecBy
deriving DecidableEq, Repr

/-- Neither symbols nor actions. -/
def precOnly (a : List El) : Bool := a.all fun e => match e with | .prec _ => true | _ => false

/-- The right-hand side, with a symbol for each action but a final one; `k` action symbols are in use. -/
def rhsKeys (k : Nat) : List El → List (List Nat)
  | [] => []
  | .sym x :: r => x.key :: rhsKeys k r
  | .prec _ :: r => rhsKeys k r
  | .action _ _ :: r => if precOnly r then [] else hiddenKey (k + 1) :: rhsKeys (k + 1) r

/-- The symbol in the last `%prec`. -/
def precNamed (a : List El) : Option Sym := (a.filterMap fun e => match e with | .prec x => some x | _ => none).getLast?

/-- The rules made from a rule written: an empty one for each inner action, then the rule itself. -/
def altRules (k : Nat) (a : Alt) : List SRule :=
  ((List.range (innerActions a.rhs)).map fun i => ⟨hiddenKey (k + i + 1), [], .nowhere⟩) ++
    [⟨a.lhs.key, rhsKeys k a.rhs, (precNamed a.rhs).elim .rhs fun x => .of x.key⟩]

def rulesFrom (k : Nat) : List Alt → List SRule
  | [] => []
  | a :: as => altRules k a ++ rulesFrom (k + innerActions a.rhs) as

/-- The rules of the grammar in a file, in order. -/
def File.rules (F : File) : List SRule := rulesFrom 0 F.alts

/-- The symbols of a right-hand side, actions left out. -/
def symsOf (a : List El) : List (List Nat) := a.filterMap fun e => match e with | .sym x => some x.key | _ => none

/-! Files that are accepted -/

/-- A declaration behind `pre` is accepted. -/
def DeclOk (pre : List Decl) (d : Decl) : Prop :=
  match d with
  | .tokens _ _ items => ∀ y ∈ items, startOf pre ≠ some y.1.key
  | .start n => ¬ IsToken (declUses [] pre) n
  | .union => .union ∉ pre
  | _ => True

/-- Each declaration fits those before it, and no token is the left-hand side of a rule. -/
def File.Ok (F : File) : Prop :=
  (∀ pre d post, F.all = pre ++ d :: post → DeclOk pre d) ∧ ∀ n, IsLhs F.uses n → ¬ IsToken F.uses n

end Verif.Spec.YText
