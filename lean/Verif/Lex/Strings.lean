import Verif.Bytes
/-!
# Model: string literals

`printchar`/`fprintstr` (src/util/string.c), `strtostr`, `parse_escape_sequence`,
`convert_escape_sequence`, `convert_char`, `convert_preprocessing_string`
(src/preprocessor/tokenize.c) and `stringify` (src/preprocessor/macro.c).

Text is a list of bytes; reading past its end is outcome `none` (the C code would read past
the buffer), as are the `error(...); exit(1)` exits.
-/
namespace Verif.Lex

/-- `isprint` in the C locale. -/
def isPrint (c : UInt8) : Bool := 32 ≤ c && c ≤ 126

/-- The octal digit character. -/
def octDigit (n : UInt8) : UInt8 := chr% '0' + n

/-- `printf("\\%03o", c)`. -/
def printOctal (c : UInt8) : Bytes :=
  [chr% '\\', octDigit (c / 64), octDigit (c / 8 % 8), octDigit (c % 8)]

/-- `printchar`, string.c:13-39. -/
def printChar (c : UInt8) : Bytes :=
  if isPrint c && c != chr% '"' && c != chr% '\\' then [c]
  else if c = 8 then str% "\\b"
  else if c = 9 then str% "\\t"
  else if c = 10 then str% "\\n"
  else if c = 12 then str% "\\f"
  else if c = 13 then str% "\\r"
  else if c = chr% '\\' then str% "\\\\"
  else if c = chr% '"' then str% "\\\""
  else printOctal c

/-- `fprintstr`, string.c:41-56. -/
def fprintstr (s : Bytes) : Bytes := [chr% '"'] ++ s.flatMap printChar ++ [chr% '"']

/-- `isoctal`, tokenize.c:283. -/
def isOctal (c : UInt8) : Bool := chr% '0' ≤ c && c < chr% '8'

/-- `isxdigit`. -/
def isXDigit (c : UInt8) : Bool :=
  (chr% '0' ≤ c && c ≤ chr% '9') || (chr% 'a' ≤ c && c ≤ chr% 'f') || (chr% 'A' ≤ c && c ≤ chr% 'F')

def xval (c : UInt8) : Nat :=
  if chr% '0' ≤ c && c ≤ chr% '9' then c.toNat - 48
  else if chr% 'a' ≤ c && c ≤ chr% 'f' then c.toNat - 87
  else c.toNat - 55

/-- Number denoted by digits in a base. -/
def digitsValue (base : Nat) (ds : Bytes) : Nat := ds.foldl (fun n d => n * base + xval d) 0

/-- `strtol` with base 16 skips a `0x` prefix when a hex digit follows it. -/
def strip0x (s : Bytes) : Bytes :=
  match s with
  | z :: x :: d :: rest =>
    if z = chr% '0' && (x = chr% 'x' || x = chr% 'X') && isXDigit d then d :: rest
    else z :: x :: d :: rest
  | s => s

/-- `strtol(s, &end, 16)` for `s` starting with a hex digit: an optional `0x` prefix, then the
longest run of hex digits; saturates at `LONG_MAX`. -/
def strtolHex (s : Bytes) : Nat × Bytes :=
  (min (digitsValue 16 ((strip0x s).takeWhile isXDigit)) (2 ^ 63 - 1),
   (strip0x s).dropWhile isXDigit)

/-- `convert_escape_sequence`, tokenize.c:285-329: input is the text after the backslash. -/
def convertEscape (s : Bytes) : Option (UInt8 × Bytes) :=
  match s with
  | [] => none
  | c :: rest =>
    if c = chr% 'a' then some (7, rest)
    else if c = chr% 'b' then some (8, rest)
    else if c = chr% 't' then some (9, rest)
    else if c = chr% 'n' then some (10, rest)
    else if c = chr% 'v' then some (11, rest)
    else if c = chr% 'f' then some (12, rest)
    else if c = chr% 'r' then some (13, rest)
    else if c = chr% '?' then some (chr% '?', rest)
    else if c = chr% '\'' then some (chr% '\'', rest)
    else if c = chr% '"' then some (chr% '"', rest)
    else if c = chr% '\\' then some (chr% '\\', rest)
    else if c = chr% 'x' then
      match rest with
      | d :: _ =>
        if isXDigit d then
          let r := strtolHex rest
          some (UInt8.ofNat (r.1 % 256), r.2)
        else none
      | [] => none
    else if isOctal c then
      let ds := (s.take 3).takeWhile isOctal
      some (UInt8.ofNat (digitsValue 8 ds % 256), s.drop ds.length)
    else none

/-- `convert_char`, tokenize.c:331-343. -/
def convertChar (s : Bytes) : Option (UInt8 × Bytes) :=
  match s with
  | [] => none
  | c :: rest => if c = chr% '\\' then convertEscape rest else some (c, rest)

/-- Loop of `convert_preprocessing_string`, tokenize.c:379-381.  The loop consumes at least one
byte per round; `fuel` is the number of bytes. -/
def convertLoop : Nat → Bytes → Option Bytes
  | _, [] => some []
  | 0, _ => none
  | n + 1, s =>
    match convertChar s with
    | none => none
    | some (c, rest) => (convertLoop n rest).map (fun r => c :: r)

/-- `convert_preprocessing_string`, tokenize.c:367-385. -/
def convertString (raw : Bytes) : Option Bytes := convertLoop raw.length raw

/-- `parse_escape_sequence`, tokenize.c:405-433: text after the backslash ↦ text after the
escape sequence. -/
def skipEscape (s : Bytes) : Option Bytes :=
  match s with
  | [] => none
  | c :: rest =>
    if c = chr% 'x' then some (rest.dropWhile isXDigit)
    else if isOctal c then
      match rest with
      | d :: rest' =>
        if isOctal d then
          match rest' with
          | e :: rest'' => if isOctal e then some rest'' else some rest'
          | [] => some rest'
        else some rest
      | [] => some rest
    else some rest

/-- Loop of `strtostr`, tokenize.c:476-482: number of bytes up to the closing quote and the
text after it.  `none`: no closing quote (the C loop leaves the buffer). -/
def scanString : Nat → Bytes → Option (Bytes × Bytes)
  | 0, _ => none
  | _, [] => none
  | n + 1, c :: rest =>
    if c = chr% '"' then some ([], rest)
    else if c = chr% '\\' then
      match skipEscape rest with
      | none => none
      | some rest' =>
        (scanString n rest').map (fun r =>
          ((c :: rest).take ((c :: rest).length - rest'.length) ++ r.1, r.2))
    else (scanString n rest).map (fun r => (c :: r.1, r.2))

/-- `strtostr`, tokenize.c:467-488: raw spelling between the quotes, and the rest. -/
def strtostr (s : Bytes) : Option (Bytes × Bytes) :=
  match s with
  | [] => none
  | c :: rest => if c = chr% '"' then scanString (rest.length + 1) rest else none

/-! ## Stringification -/

/-- Token classes that `stringify` distinguishes. -/
inductive SKind where
  | string      -- PREP_STRING or STRING
  | char        -- PREP_CHAR
  | backslash   -- '\\'
  | other
  deriving DecidableEq

/-- Token with raw spelling and count of preceding white space. -/
structure STok where
  kind : SKind
  raw : Bytes
  ws : Nat
  deriving DecidableEq

/-- `str_write_escaped`, macro.c:641-654. -/
def writeEscaped (s : Bytes) : Bytes :=
  s.flatMap (fun c => if c = chr% '"' || c = chr% '\\' then [chr% '\\', c] else [c])

/-- Text appended by `stringify_concat`, macro.c:656-706. -/
def stringifyConcat (t : STok) : Bytes :=
  (if t.ws ≠ 0 then [chr% ' '] else []) ++
  (match t.kind with
   | .string => [chr% '\\', chr% '"'] ++ writeEscaped t.raw ++ [chr% '\\', chr% '"']
   | .char => [chr% '\''] ++ writeEscaped t.raw ++ [chr% '\'']
   | _ => t.raw)

/-- Token made by `stringify`: `STRING` (final bytes) or `PREP_STRING` (spelling). -/
inductive StrTok where
  | final (bytes : Bytes)
  | prep (raw : Bytes)
  deriving DecidableEq

/-- Loop of `stringify`, macro.c:740-752 (NEWLINE tokens are not modelled). -/
def stringifyLoop : List STok → Bytes
  | [] => []
  | t :: ts => stringifyConcat { t with ws := 0 } ++ ts.flatMap stringifyConcat

/-- `stringify`, macro.c:716-766; `none` is the `exit(1)` for a trailing backslash. -/
def stringify (l : List STok) : Option StrTok :=
  match l with
  | [] => some (.final [])
  | t :: ts =>
    if t.kind = .other ∧ ts = [] then some (.final t.raw)
    else
      let buf := stringifyLoop l
      if buf.getLast? = some (chr% '\\') then none else some (.prep buf)

/-- Bytes finally delivered to the parser: `PREP_STRING` is converted when it reaches the
lookahead buffer (preprocess.c:406-413). -/
def deliver : StrTok → Option Bytes
  | .final b => some b
  | .prep raw => convertString raw

end Verif.Lex
