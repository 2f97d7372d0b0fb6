import Verif.Spec.OutUser
/-
Specification: the declarations and calls in a generated file.
-/
set_option autoImplicit false
namespace Verif.Spec.OutText
open Byacc (Param)
open Spec.YText

/-- separated by commas -/
def sep : List (List Nat) → List Nat := List.intercalate (txt ", ")

/-- the list of the parameters in a prototype -/
def orVoid (l : List (List Nat)) : List Nat := if l = [] then txt "void" else sep l

/-- a parameter as it is declared: `int *p`, `int a[3]` -/
def declared (p : Param) : List Nat := p.type ++ (if p.type.getLast? = some 42 then [] else [32]) ++ p.name ++ p.type2

/-- present under a condition -/
def when' (c : Bool) (s : String) : List (List Nat) := if c then [txt s] else []

/-- `#define` of a global name of the parser, unless it is defined already: `\n#ifndef name`, `#define name   text`, `#endif` -/
def Renamed (text name new : List Nat) : Prop :=
  ∃ a ws b, text = a ++ txt "\n#ifndef " ++ name ++ txt "\n#define " ++ name ++ ws ++ new ++ txt "\n#endif /* " ++ name ++ txt " */\n" ++ b ∧
    ws ≠ [] ∧ ∀ c ∈ ws, c = 32

/-- the global names of a parser without `yy`: functions, variables, arrays -/
def globals : List String :=
  ["parse", "lex", "error", "char", "val", "lval", "debug", "nerrs", "errflag",
   "lhs", "len", "defred", "stos", "dgoto", "sindex", "rindex", "gindex", "table", "check", "cindex", "ctable", "name", "rule"]

/-- the prototype of the parser -/
def parsePart (params : List Param) : List Nat := txt "# define YYPARSE_DECL() yyparse(" ++ orVoid (params.map declared) ++ txt ")\n"

/-- the prototype of the lexer, and its call -/
def lexPart (pure locations : Bool) (params : List Param) : List Nat :=
  txt "# define YYLEX_DECL() yylex(" ++
    orVoid (when' pure "YYSTYPE *yylval" ++ when' (pure && locations) "YYLTYPE *yylloc" ++ params.map declared) ++ txt ")\n" ++
  txt "# define YYLEX yylex(" ++
    sep (when' pure "&yylval" ++ when' (pure && locations) "&yylloc" ++ params.map Param.name) ++ txt ")\n"

/-- the prototype of `yyerror` -/
def errorPart (locations : Bool) (params : List Param) : List Nat :=
  txt "#define YYERROR_DECL() yyerror(" ++ sep (when' locations "YYLTYPE *loc" ++ params.map declared ++ [txt "const char *s"]) ++ txt ")\n"

/-- the call of `yyerror` -/
def errorCall (locations : Bool) (params : List Param) : List Nat :=
  txt "#define YYERROR_CALL(msg) yyerror(" ++ sep (when' locations "&yylloc" ++ params.map Param.name ++ [txt "msg"]) ++ txt ")\n"

/-- the prototype of `yydestruct` -/
def destructPart (locations : Bool) (params : List Param) : List Nat :=
  txt "#define YYDESTRUCT_DECL() yydestruct(" ++
    sep ([txt "const char *msg", txt "int psymb", txt "YYSTYPE *val"] ++ when' locations "YYLTYPE *loc" ++ params.map declared) ++ txt ")\n"

/-- the call of `yydestruct` -/
def destructCall (locations : Bool) (params : List Param) : List Nat :=
  txt "#define YYDESTRUCT_CALL(" ++ sep ([txt "msg", txt "psymb", txt "val"] ++ when' locations "loc") ++ txt ") yydestruct(" ++
    sep ([txt "msg", txt "psymb", txt "val"] ++ when' locations "loc" ++ params.map Param.name) ++ txt ")\n"

end Verif.Spec.OutText
