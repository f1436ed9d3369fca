import Verif.Lex.Strings
/-!
# Model: tokeniser

`tokenize`, `tokenize_internal`, `stringtonum`, `strtoident`, `strtochar` and the table
`basic_token` of src/preprocessor/tokenize.c.  The text is the list of bytes before the
terminating NUL; reading the terminator gives 0.  Indexing `is_ident` or calling a `ctype`
function with a byte above 127 (a negative `char`) is outcome `ub`, as is reading past the
terminator.
-/
namespace Verif.Lex

/-- A token: `token`, `is_expandable`, `d.string`, `leading_whitespace` (token.h). -/
structure Tok where
  id : Nat
  expandable : Bool
  raw : Bytes
  ws : Nat
  deriving DecidableEq, Repr

/-- Values of `enum token_type` (token.h:15-140) that do not stand for one fixed spelling. -/
def tIDENTIFIER : Nat := 117
def tPREP_NUMBER : Nat := 120
def tPREP_CHAR : Nat := 121
def tPREP_STRING : Nat := 122
def tEND : Nat := 0

/-- `basic_token`, tokenize.c:25-90: index ↦ token id, is_expandable, spelling.  Entries `{0}`
and those without spelling are left out. -/
def basicToken : List (Nat × (Nat × Bool × Bytes)) := [
  (0x00, 0x00, false, str% "$"), (0x01, 0x01, true, str% "auto"),
  (0x02, 0x02, true, str% "break"), (0x03, 0x03, true, str% "case"),
  (0x04, 0x04, true, str% "char"), (0x05, 0x05, true, str% "const"),
  (0x06, 0x06, true, str% "continue"), (0x07, 0x07, true, str% "default"),
  (0x08, 0x08, true, str% "do"), (0x09, 0x09, true, str% "double"),
  (0x0a, 0x0a, false, str% "\n"), (0x0b, 0x0b, true, str% "else"),
  (0x0c, 0x0c, true, str% "enum"), (0x0d, 0x0d, true, str% "extern"),
  (0x0e, 0x0e, true, str% "float"), (0x0f, 0x0f, true, str% "for"),
  (0x10, 0x10, true, str% "goto"), (0x11, 0x11, true, str% "if"),
  (0x12, 0x12, true, str% "int"), (0x13, 0x13, true, str% "long"),
  (0x14, 0x14, true, str% "register"), (0x15, 0x15, true, str% "return"),
  (0x16, 0x16, true, str% "short"), (0x17, 0x17, true, str% "signed"),
  (0x18, 0x18, true, str% "sizeof"), (0x19, 0x19, true, str% "static"),
  (0x1a, 0x1a, true, str% "struct"), (0x1b, 0x1b, true, str% "switch"),
  (0x1c, 0x1c, true, str% "typedef"), (0x1d, 0x1d, true, str% "union"),
  (0x1e, 0x1e, true, str% "unsigned"), (0x1f, 0x1f, true, str% "void"),
  (0x20, 0x20, true, str% "inline"), (0x21, 0x21, false, str% "!"),
  (0x22, 0x22, true, str% "volatile"), (0x23, 0x23, false, str% "#"),
  (0x24, 0x24, false, str% "$"), (0x25, 0x25, false, str% "%"),
  (0x26, 0x26, false, str% "&"), (0x27, 0x27, true, str% "while"),
  (0x28, 0x28, false, str% "("), (0x29, 0x29, false, str% ")"),
  (0x2a, 0x2a, false, str% "*"), (0x2b, 0x2b, false, str% "+"),
  (0x2c, 0x2c, false, str% ","), (0x2d, 0x2d, false, str% "-"),
  (0x2e, 0x2e, false, str% "."), (0x2f, 0x2f, false, str% "/"),
  (0x30, 0x30, true, str% "restrict"), (0x31, 0x31, false, str% "_Alignof"),
  (0x32, 0x32, false, str% "_Bool"), (0x33, 0x33, true, str% "_Noreturn"),
  (0x38, 0x38, true, str% "_Static_assert"),
  (0x3a, 0x3a, false, str% ":"), (0x3b, 0x3b, false, str% ";"),
  (0x3c, 0x3c, false, str% "<"), (0x3d, 0x3d, false, str% "="),
  (0x3e, 0x3e, false, str% ">"), (0x3f, 0x3f, false, str% "?"),
  (0x40, 0x40, false, str% "@"), (0x41, 0x41, false, str% "||"),
  (0x42, 0x42, false, str% "&&"), (0x43, 0x43, false, str% "<="),
  (0x44, 0x44, false, str% ">="), (0x45, 0x45, false, str% "=="),
  (0x46, 0x46, false, str% "!="), (0x47, 0x47, false, str% "->"),
  (0x48, 0x48, false, str% "++"), (0x49, 0x49, false, str% "--"),
  (0x4a, 0x4a, false, str% "<<"), (0x4b, 0x4b, false, str% ">>"),
  (0x4c, 0x4c, false, str% "*="), (0x4d, 0x4d, false, str% "/="),
  (0x4e, 0x4e, false, str% "%="), (0x4f, 0x4f, false, str% "+="),
  (0x50, 0x50, false, str% "-="), (0x51, 0x51, false, str% "<<="),
  (0x52, 0x52, false, str% ">>="), (0x53, 0x53, false, str% "&="),
  (0x54, 0x54, false, str% "^="), (0x55, 0x55, false, str% "|="),
  (0x56, 0x56, false, str% "##"), (0x57, 0x57, false, str% "..."),
  (0x5b, 0x5b, false, str% "["), (0x5c, 0x5c, false, str% "\\"),
  (0x5d, 0x5d, false, str% "]"), (0x5e, 0x5e, false, str% "^"),
  (0x60, 0x60, false, str% "`"),
  (0x68, 0x68, false, str% "__asm"), (0x69, 0x68, false, str% "__asm__"),
  (0x6a, 0x20, true, str% "__inline"), (0x6b, 0x20, true, str% "__inline__"),
  (0x6c, 0x17, true, str% "__signed"), (0x6d, 0x17, true, str% "__signed__"),
  (0x6e, 0x30, true, str% "__restrict"), (0x6f, 0x30, true, str% "__restrict__"),
  (0x70, 0x22, true, str% "__volatile"), (0x71, 0x22, true, str% "__volatile__"),
  (0x7b, 0x7b, false, str% "{"), (0x7c, 0x7c, false, str% "|"),
  (0x7d, 0x7d, false, str% "}"), (0x7e, 0x7e, false, str% "~")]

/-- Outcome of the tokeniser: a token and the text after it, the `END` token (for which
`*endptr` is not written), a diagnostic followed by `exit(1)`, or undefined behaviour. -/
inductive TRes where
  | tok (t : Tok) (rest : Bytes)
  | stop
  | err
  | ub
  deriving DecidableEq, Repr

/-- Text at an index; the terminator reads as 0. -/
def at' (s : Bytes) (i : Nat) : UInt8 := s.getD i 0

/-- `is_ident`, tokenize.c:496-514; `none` is an out-of-range index. -/
def isIdent (c : UInt8) : Option Bool :=
  if c ≥ 128 then none
  else some ((chr% '0' ≤ c && c ≤ chr% '9') || (chr% 'A' ≤ c && c ≤ chr% 'Z') ||
    c = chr% '_' || (chr% 'a' ≤ c && c ≤ chr% 'z'))

/-- `isdigit` for a byte below 128. -/
def isDigit (c : UInt8) : Bool := chr% '0' ≤ c && c ≤ chr% '9'

/-- `isalpha` for a byte below 128. -/
def isAlpha (c : UInt8) : Bool :=
  (chr% 'a' ≤ c && c ≤ chr% 'z') || (chr% 'A' ≤ c && c ≤ chr% 'Z')

/-- `isspace` for a byte below 128. -/
def isSpace (c : UInt8) : Bool := c = chr% ' ' || (9 ≤ c && c ≤ 13)

/-- Macro `T(t, l)`, tokenize.c:543. -/
def T (s : Bytes) (t l : Nat) : TRes :=
  match basicToken.lookup t with
  | some (id, e, raw) => .tok ⟨id, e, raw, 0⟩ (s.drop l)
  | none => .err

/-- `if (Mn(..) && E(n)) return T(t, l);` followed by `k`; `i` is the offset of `in` from
`start`, `w` the characters compared (tokenize.c:532-543). -/
def kw (s : Bytes) (i : Nat) (w : Bytes) (t : Nat) (k : TRes) : TRes :=
  if w.isPrefixOf (s.drop i) then
    match isIdent (at' s (i + w.length)) with
    | none => .ub
    | some true => k
    | some false => T s t (i + w.length)
  else k

/-- The form `if (Mn(..)) { if (E(n)) return T(t, l); if (in[n] == '_' && in[n+1] == '_' &&
E(n+2)) return T(t+1, l+2); }`, tokenize.c:648-686. -/
def kw2 (s : Bytes) (i : Nat) (w : Bytes) (t : Nat) (k : TRes) : TRes :=
  if w.isPrefixOf (s.drop i) then
    match isIdent (at' s (i + w.length)) with
    | none => .ub
    | some false => T s t (i + w.length)
    | some true =>
      if at' s (i + w.length) = chr% '_' ∧ at' s (i + w.length + 1) = chr% '_' then
        match isIdent (at' s (i + w.length + 2)) with
        | none => .ub
        | some false => T s (t + 1) (i + w.length + 2)
        | some true => k
      else k
  else k

/-- Loop of `strtoident`, tokenize.c:522-524. -/
def identLoop : Bytes → Option (Bytes × Bytes)
  | [] => some ([], [])
  | c :: rest =>
    match isIdent c with
    | none => none
    | some false => some ([], c :: rest)
    | some true => (identLoop rest).map (fun r => (c :: r.1, r.2))

/-- `strtoident`, tokenize.c:516-529. -/
def strtoident (s : Bytes) : TRes :=
  match s with
  | [] => .ub
  | c :: rest =>
    match identLoop rest with
    | none => .ub
    | some (run, rest') => .tok ⟨tIDENTIFIER, true, c :: run, 0⟩ rest'

/-- Loop of `stringtonum`, tokenize.c:118-132. -/
def numLoop (c99 : Bool) : Bytes → Option (Bytes × Bytes)
  | [] => some ([], [])
  | [c] =>
    if c ≥ 128 then none
    else if isDigit c || c = chr% '.' || c = chr% '_' || isAlpha c then some ([c], [])
    else some ([], [c])
  | c :: d :: rest =>
    if c ≥ 128 then none
    else if isDigit c || c = chr% '.' || c = chr% '_' then
      (numLoop c99 (d :: rest)).map (fun r => (c :: r.1, r.2))
    else if isAlpha c then
      if (c = chr% 'e' || c = chr% 'E' || (c99 && (c = chr% 'p' || c = chr% 'P'))) &&
          (d = chr% '+' || d = chr% '-') then
        (numLoop c99 rest).map (fun r => (c :: d :: r.1, r.2))
      else (numLoop c99 (d :: rest)).map (fun r => (c :: r.1, r.2))
    else some ([], c :: d :: rest)

/-- `stringtonum`, tokenize.c:108-137. -/
def stringtonum (c99 : Bool) (s : Bytes) : TRes :=
  let pre := if at' s 0 = chr% '.' then s.take 1 else []
  match numLoop c99 (s.drop pre.length) with
  | none => .ub
  | some (n, rest) => .tok ⟨tPREP_NUMBER, false, pre ++ n, 0⟩ rest

/-- `strtochar`, tokenize.c:440-465. -/
def strtochar (s : Bytes) : TRes :=
  match s with
  | _ :: c :: rest =>
    if c = chr% '\'' then .err
    else
      match (if c = chr% '\\' then skipEscape rest else some rest) with
      | none => .ub
      | some rest' =>
        match rest' with
        | q :: rest'' =>
          if q = chr% '\'' then
            .tok ⟨tPREP_CHAR, false, (c :: rest).take ((c :: rest).length - rest'.length), 0⟩ rest''
          else .err
        | [] => .err
  | _ => .ub

/-- `tokenize_internal`, tokenize.c:546-788. -/
def tokenizeInternal (c99 : Bool) (s : Bytes) : TRes :=
  let id := strtoident s
  let c := at' s 0
  let n := at' s 1
  let n2 := at' s 2
  if c = 0 then .stop
  else if c = chr% 'a' then kw s 1 (str% "uto") 0x01 id
  else if c = chr% 'b' then kw s 1 (str% "reak") 0x02 id
  else if c = chr% 'c' then
    kw s 1 (str% "ase") 0x03 <| kw s 1 (str% "har") 0x04 <|
    if (str% "on").isPrefixOf (s.drop 1) then
      kw s 3 (str% "st") 0x05 <| kw s 3 (str% "tinue") 0x06 id
    else id
  else if c = chr% 'd' then
    kw s 1 (str% "efault") 0x07 <|
    if n = chr% 'o' then kw s 2 [] 0x08 <| kw s 2 (str% "uble") 0x09 id else id
  else if c = chr% 'e' then
    kw s 1 (str% "lse") 0x0b <| kw s 1 (str% "num") 0x0c <| kw s 1 (str% "xtern") 0x0d id
  else if c = chr% 'f' then kw s 1 (str% "loat") 0x0e <| kw s 1 (str% "or") 0x0f id
  else if c = chr% 'g' then kw s 1 (str% "oto") 0x10 id
  else if c = chr% 'i' then
    kw s 1 (str% "f") 0x11 <|
    if n = chr% 'n' then
      kw s 2 (str% "t") 0x12 <| if c99 then kw s 2 (str% "line") 0x20 id else id
    else id
  else if c = chr% 'l' then kw s 1 (str% "ong") 0x13 id
  else if c = chr% 'r' then
    if n = chr% 'e' then
      kw s 2 (str% "gister") 0x14 <| kw s 2 (str% "turn") 0x15 <|
      if c99 then kw s 2 (str% "strict") 0x30 id else id
    else id
  else if c = chr% 's' then
    kw s 1 (str% "hort") 0x16 <| kw s 1 (str% "witch") 0x1b <|
    if n = chr% 'i' then kw s 2 (str% "gned") 0x17 <| kw s 2 (str% "zeof") 0x18 id
    else if n = chr% 't' then kw s 2 (str% "atic") 0x19 <| kw s 2 (str% "ruct") 0x1a id
    else id
  else if c = chr% 't' then kw s 1 (str% "ypedef") 0x1c id
  else if c = chr% 'u' then
    if n = chr% 'n' then kw s 2 (str% "ion") 0x1d <| kw s 2 (str% "signed") 0x1e id else id
  else if c = chr% 'v' then
    if n = chr% 'o' then kw s 2 (str% "id") 0x1f <| kw s 2 (str% "latile") 0x22 id else id
  else if c = chr% 'w' then kw s 1 (str% "hile") 0x27 id
  else if c = chr% '_' then
    if n = chr% '_' then
      if n2 = chr% 'a' then kw2 s 3 (str% "sm") 0x68 id
      else if n2 = chr% 'i' then kw2 s 3 (str% "nline") 0x6a id
      else if n2 = chr% 's' then kw2 s 3 (str% "igned") 0x6c id
      else if n2 = chr% 'r' then kw2 s 3 (str% "estrict") 0x6e id
      else if n2 = chr% 'v' then kw2 s 3 (str% "olatile") 0x70 id
      else id
    else if n = chr% 'A' then kw s 2 (str% "lignof") 0x31 id
    else if n = chr% 'B' then kw s 2 (str% "ool") 0x32 id
    else if n = chr% 'N' then kw s 2 (str% "oreturn") 0x33 id
    else if n = chr% 'S' then kw s 2 (str% "tatic_assert") 0x38 id
    else id
  else if c = chr% '*' then if n = chr% '=' then T s 0x4c 2 else T s 0x2a 1
  else if c = chr% '/' then if n = chr% '=' then T s 0x4d 2 else T s 0x2f 1
  else if c = chr% '%' then if n = chr% '=' then T s 0x4e 2 else T s 0x25 1
  else if c = chr% '+' then
    if n = chr% '+' then T s 0x48 2 else if n = chr% '=' then T s 0x4f 2 else T s 0x2b 1
  else if c = chr% '-' then
    if n = chr% '>' then T s 0x47 2 else if n = chr% '-' then T s 0x49 2
    else if n = chr% '=' then T s 0x50 2 else T s 0x2d 1
  else if c = chr% '<' then
    if n = chr% '<' then if n2 = chr% '=' then T s 0x51 3 else T s 0x4a 2
    else if n = chr% '=' then T s 0x43 2 else T s 0x3c 1
  else if c = chr% '>' then
    if n = chr% '>' then if n2 = chr% '=' then T s 0x52 3 else T s 0x4b 2
    else if n = chr% '=' then T s 0x44 2 else T s 0x3e 1
  else if c = chr% '&' then
    if n = chr% '=' then T s 0x53 2 else if n = chr% '&' then T s 0x42 2 else T s 0x26 1
  else if c = chr% '^' then if n = chr% '=' then T s 0x54 2 else T s 0x5e 1
  else if c = chr% '|' then
    if n = chr% '=' then T s 0x55 2 else if n = chr% '|' then T s 0x41 2 else T s 0x7c 1
  else if c = chr% '=' then if n = chr% '=' then T s 0x45 2 else T s 0x3d 1
  else if c = chr% '!' then if n = chr% '=' then T s 0x46 2 else T s 0x21 1
  else if c = chr% '#' then if n = chr% '#' then T s 0x56 2 else T s 0x23 1
  else if c ∈ str% "(){}[],;:?~\\$@`" then T s c.toNat 1
  else if c = chr% '.' then
    if n ≥ 128 then .ub
    else if isDigit n then stringtonum c99 s
    else if n = chr% '.' ∧ n2 = chr% '.' then T s 0x57 3 else T s 0x2e 1
  else if isDigit c then stringtonum c99 s
  else if c = chr% '\'' then strtochar s
  else if c = chr% '"' then
    match strtostr s with
    | some (raw, rest) => .tok ⟨tPREP_STRING, false, raw, 0⟩ rest
    | none => .ub
  else
    match isIdent c with
    | none => .ub
    | some false => .err
    | some true => id

/-- Loop skipping white space in `tokenize`, tokenize.c:795-798. -/
def skipSpace : Bytes → Option (Nat × Bytes)
  | [] => some (0, [])
  | c :: rest =>
    if c ≥ 128 then none
    else if isSpace c then (skipSpace rest).map (fun r => (r.1 + 1, r.2))
    else some (0, c :: rest)

/-- `tokenize`, tokenize.c:790-804.  `leading_whitespace` is a 16 bit field (token.h:183). -/
def tokenize (c99 : Bool) (s : Bytes) : TRes :=
  match skipSpace s with
  | none => .ub
  | some (ws, s') =>
    match tokenizeInternal c99 s' with
    | .tok t rest => .tok { t with ws := ws % 65536 } rest
    | r => r

end Verif.Lex

namespace Verif.Lex

/-- Text written for one token by `preprocess`, preprocess.c:700-726 (`STRING` is 118). -/
def printToken (t : Tok) : Bytes :=
  List.replicate t.ws (chr% ' ') ++
  (if t.id = tPREP_STRING ∨ t.id = 118 then [chr% '"'] ++ t.raw ++ [chr% '"']
   else if t.id = tPREP_CHAR then [chr% '\''] ++ t.raw ++ [chr% '\'']
   else t.raw)

/-- `preprocess`, preprocess.c:694-727: the loop over delivered tokens. -/
def printTokens (ts : List Tok) : Bytes := ts.flatMap printToken

/-- Tokenise one line: the loop of `read_complete_line` without directives or macros
(preprocess.c:261-302).  `none`: diagnostic or undefined behaviour. -/
def tokenizeAll (c99 : Bool) : Nat → Bytes → Option (List Tok)
  | 0, _ => none
  | n + 1, s =>
    match tokenize c99 s with
    | .tok t rest => (tokenizeAll c99 n rest).map (fun ts => t :: ts)
    | .stop => some []
    | _ => none

end Verif.Lex
