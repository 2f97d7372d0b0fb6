/-
byacc/reader.c: names of literals, quoting, and names used when a grammar is converted to lemon's
syntax.  C strings are lists of byte values without the final NUL.
-/
set_option autoImplicit false
namespace Verif.Byacc

/-- `isprint`, `islower`, `isupper` in the C locale. -/
def isPrint (c : Nat) : Bool := 32 ≤ c && c < 127
def isLower (c : Nat) : Bool := 97 ≤ c && c ≤ 122
def isUpper (c : Nat) : Bool := 65 ≤ c && c ≤ 90

/-- byacc/reader.c:1496-1540: one character of a literal's name; `q` is the quote used
(`cache[0]`). -/
def litChar (q c : Nat) : List Nat :=
  if c == 92 || c == q then [92, c]
  else if isPrint c then [c]
  else 92 :: (
    if c == 7 then [97]         -- \a
    else if c == 8 then [98]    -- \b
    else if c == 12 then [102]  -- \f
    else if c == 10 then [110]  -- \n
    else if c == 13 then [114]  -- \r
    else if c == 9 then [116]   -- \t
    else if c == 11 then [118]  -- \v
    else [(c / 64) % 8 + 48, (c / 8) % 8 + 48, c % 8 + 48])

/-- byacc/reader.c:1490-1548 (`get_literal`): the name under which the literal with the characters
`s` (escapes already replaced) is entered in the symbol table. -/
def litName (s : List Nat) : List Nat :=
  let q := if s.length == 1 then 39 else 34
  q :: s.flatMap (litChar q) ++ [q]

/-- byacc/reader.c:3716-3747 `protect_string`: the characters written to the new string. -/
def protectString : List Nat → List Nat
  | [] => []
  | c :: s => if 92 == c || 34 == c then 92 :: c :: protectString s else c :: protectString s

/-- byacc/reader.c:3725-3734: the size allocated for it. -/
def protectLen : List Nat → Nat
  | [] => 1
  | c :: s => (if 92 == c || 34 == c then 2 else 1) + protectLen s

/-- byacc/reader.c:4111-4240 `ygv_ascii_names_st`; the text is shown at the end of each line. -/
def asciiNames : List (List Nat) := [
  [48, 78, 85, 76], [83, 79, 72], [83, 84, 88], [69, 84, 88],  -- 0NUL SOH STX ETX
  [69, 79, 84], [69, 78, 81], [65, 67, 75], [66, 69, 76],  -- EOT ENQ ACK BEL
  [66, 83], [72, 84], [76, 70], [86, 84],  -- BS HT LF VT
  [70, 70], [67, 82], [83, 79], [83, 73],  -- FF CR SO SI
  [68, 76, 69], [68, 67, 49], [68, 67, 50], [68, 67, 51],  -- DLE DC1 DC2 DC3
  [68, 67, 52], [78, 65, 75], [83, 89, 78], [69, 84, 66],  -- DC4 NAK SYN ETB
  [67, 65, 78], [69, 77], [83, 85, 66], [69, 83, 67],  -- CAN EM SUB ESC
  [70, 83], [71, 83], [82, 83], [85, 83],  -- FS GS RS US
  [51, 50, 83, 80, 65, 67, 69], [69, 88, 67, 76, 65], [68, 81, 85, 79, 84, 69], [80, 79, 85, 78, 68],  -- 32SPACE EXCLA DQUOTE POUND
  [68, 79, 76, 76, 65, 82], [80, 69, 82, 67], [65, 77, 80, 69, 82], [83, 81, 85, 79, 84, 69],  -- DOLLAR PERC AMPER SQUOTE
  [76, 80], [82, 80], [65, 83, 84, 69, 82, 73, 83, 75], [80, 76, 85, 83],  -- LP RP ASTERISK PLUS
  [67, 79, 77, 77, 65], [72, 89, 80, 72, 69, 78], [80, 69, 82, 73, 79, 68], [83, 76, 65, 83, 72],  -- COMMA HYPHEN PERIOD SLASH
  [48], [49], [50], [51],  -- 0 1 2 3
  [52], [53], [54], [55],  -- 4 5 6 7
  [56], [57], [67, 79, 76, 79, 78], [83, 69, 77, 73, 67, 79, 76],  -- 8 9 COLON SEMICOL
  [76, 84], [69, 81], [71, 84], [81, 77, 65, 82, 75],  -- LT EQ GT QMARK
  [65, 84], [65], [66], [67],  -- AT A B C
  [68], [69], [70], [71],  -- D E F G
  [72], [73], [74], [75],  -- H I J K
  [76], [77], [78], [79],  -- L M N O
  [80], [81], [82], [83],  -- P Q R S
  [84], [85], [86], [87],  -- T U V W
  [88], [89], [90], [76, 66, 82, 65, 67, 75, 69, 84],  -- X Y Z LBRACKET
  [66, 65, 67, 75, 83, 76, 65, 83, 72], [82, 66, 82, 65, 67, 75, 69, 84], [67, 65, 82, 69, 84], [85, 78, 68, 69, 82, 83, 67, 79, 82, 69],  -- BACKSLASH RBRACKET CARET UNDERSCORE
  [71, 82, 65, 86, 69], [97], [98], [99],  -- GRAVE a b c
  [100], [101], [102], [103],  -- d e f g
  [104], [105], [106], [107],  -- h i j k
  [108], [109], [110], [111],  -- l m n o
  [112], [113], [114], [115],  -- p q r s
  [116], [117], [118], [119],  -- t u v w
  [120], [121], [122], [76, 66, 82, 65, 67, 69],  -- x y z LBRACE
  [86, 69, 82, 84, 66, 65, 82], [82, 66, 82, 65, 67, 69], [84, 73, 76, 68, 69], [49, 50, 55]  -- VERTBAR RBRACE TILDE 127
  ]

/-- `s[i]` of a C string; `none`: behind the final NUL. -/
def cAt (s : List Nat) (i : Nat) : Option Nat :=
  if i < s.length then s[i]? else if i = s.length then some 0 else none

/-- The value of a (signed) `char` as `int`. -/
def sChar (c : Nat) : Int := if c < 128 then c else (c : Int) - 256

/-- `snprintf(*buf, sizeof(char64_t), ..)`: at most 63 characters are stored. -/
def trunc (s : List Nat) : List Nat := s.take 63

/-- "Tk_" -/
def tk : List Nat := [84, 107, 95]

/-- decimal digits of `n` (`%d`) -/
def decDigits (n : Nat) : List Nat := (Nat.toDigits 10 n).map Char.toNat

/-- byacc/reader.c:4250-4251, 4265-4266: name of a character; `none`: access outside of
`ygv_ascii_names_st`. -/
def charName (ch : Int) : Option (List Nat) :=
  if ch < 127 then (if 0 ≤ ch then (asciiNames[ch.toNat]?).map fun n => trunc (tk ++ n) else none)
  else some (trunc (tk ++ decDigits ch.toNat))

/-- byacc/reader.c:4254-4264: the escapes known. -/
def escValue (c : Nat) : Int :=
  if c == 110 then 10 else if c == 116 then 9 else if c == 102 then 12 else if c == 114 then 13
  else if c == 118 then 11 else if c == 92 then 92 else -1

/-- byacc/reader.c:4283-4286, 4305-4308: `.` is replaced by `_`. -/
def noDots (s : List Nat) : List Nat := s.map fun c => if c == 46 then 95 else c

/-- byacc/reader.c:4244-4288 `get_lemon_token_name`; `none` stands for undefined behaviour (reading
outside of an array). -/
def lemonTokenName (name : List Nat) : Option (List Nat) := do
  let c0 ← cAt name 0
  let buf ←
    if c0 == 39 then do
      let c2 ← cAt name 2
      if c2 == 39 then
        charName (sChar (← cAt name 1))
      else do
        let c3 ← cAt name 3
        if c3 == 39 then charName (escValue c2)
        -- "Tk_%*s" with width `strlen - 2` and the string `tkname + 1`, which is longer
        else some (trunc (tk ++ name.drop 1))
    else if c0 == 34 then some (trunc (tk ++ name.drop 1)).dropLast
    else if c0 == 46 || c0 == 95 then some ((trunc (tk ++ name)).set 3 95)
    else if isLower c0 then some (trunc (tk ++ name))
    else some (trunc name)
  some (noDots buf)

/-- byacc/reader.c:4290-4309 `get_lemon_rule_name`. -/
def lemonRuleName (name : List Nat) : Option (List Nat) := do
  let c0 ← cAt name 0
  let buf :=
    if c0 == 46 then (trunc (120 :: name)).set 1 95
    else if c0 == 95 then trunc (122 :: name)
    else if isUpper c0 then trunc (108 :: 95 :: name)
    else trunc name
  some (noDots buf)

end Verif.Byacc
