import Verif.Lex.Strings
/-!
# Model: conversion of preprocessing numbers

`read_integer_suffix`, `constant_integer_type` and `convert_preprocessing_number`
(src/preprocessor/tokenize.c:139-281).  `strtoul` with base 0 is modelled for text that starts
with a digit or a period; `strtod` is a parameter that returns how many bytes it consumes.
-/
namespace Verif.Lex

/-- Types an integer constant can get. -/
inductive IntTy where
  | int | uint | long | ulong
  deriving DecidableEq, Repr

/-- Decimal digit. -/
def isDec (c : UInt8) : Bool := chr% '0' ≤ c && c ≤ chr% '9'

/-- `strtoul(str, &endptr, 0)`: unlimited value and the text at `endptr`. -/
def strtoul0 (s : Bytes) : Nat × Bytes :=
  match s with
  | [] => (0, [])
  | c :: rest =>
    if c = chr% '0' then
      match rest with
      | x :: d :: rest' =>
        if (x = chr% 'x' || x = chr% 'X') && isXDigit d then
          (digitsValue 16 ((d :: rest').takeWhile isXDigit), (d :: rest').dropWhile isXDigit)
        else (digitsValue 8 (s.takeWhile isOctal), s.dropWhile isOctal)
      | _ => (digitsValue 8 (s.takeWhile isOctal), s.dropWhile isOctal)
    else (digitsValue 10 (s.takeWhile isDec), s.dropWhile isDec)

/-- `tolower` on ASCII. -/
def toLower (c : UInt8) : UInt8 := if chr% 'A' ≤ c && c ≤ chr% 'Z' then c + 32 else c

/-- Suffix bits: `SUFFIX_U`, `SUFFIX_L` (with or without the second `l`). -/
structure Suffix where
  u : Bool
  l : Bool
  ll : Bool
  deriving DecidableEq

/-- The part of `read_integer_suffix` after the optional first `u`, tokenize.c:157-169. -/
def readSuffixL (u : Bool) (s : Bytes) : Suffix × Bytes :=
  match s with
  | [] => (⟨u, false, false⟩, [])
  | c :: rest =>
    if toLower c = chr% 'l' then
      let (ll, rest) := match rest with
        | d :: rest' => if d = c then (true, rest') else (false, rest)
        | [] => (false, rest)
      match rest with
      | d :: rest' => if !u && toLower d = chr% 'u' then (⟨true, true, ll⟩, rest') else (⟨u, true, ll⟩, rest)
      | [] => (⟨u, true, ll⟩, rest)
    else (⟨u, false, false⟩, s)

/-- `read_integer_suffix`, tokenize.c:148-173. -/
def readSuffix (s : Bytes) : Suffix × Bytes :=
  match s with
  | [] => (⟨false, false, false⟩, [])
  | c :: rest => if toLower c = chr% 'u' then readSuffixL true rest else readSuffixL false s

/-- `constant_integer_type`, tokenize.c:175-222: the type and whether a warning is given. -/
def constantIntegerType (v : Nat) (s : Suffix) (isDecimal : Bool) : IntTy × Bool :=
  match s.u, s.l with
  | false, false =>
    if v ≤ 2 ^ 31 - 1 then (.int, false)
    else if !isDecimal && v ≤ 2 ^ 32 - 1 then (.uint, false)
    else if v ≤ 2 ^ 63 - 1 then (.long, false)
    else (.ulong, isDecimal)
  | true, false => if v ≤ 2 ^ 32 - 1 then (.uint, false) else (.ulong, false)
  | false, true => if v ≤ 2 ^ 63 - 1 then (.long, false) else (.ulong, isDecimal)
  | true, true => (.ulong, false)

/-- Result of the conversion. -/
inductive NumRes where
  | integer (value : Nat) (type : IntTy) (warning : Bool)
  | double | float | longDouble
  | error
  deriving DecidableEq, Repr

/-- `convert_preprocessing_number`, tokenize.c:224-281.  `strtod s` is the number of bytes
consumed and whether `errno` is set.  When `strtoul` overflows, `errno` is `ERANGE`. -/
def convertNumber (strtod : Bytes → Nat × Bool) (s : Bytes) : NumRes :=
  let r := strtoul0 s
  let sf := readSuffix r.2
  if sf.2 = [] then
    if r.1 ≥ 2 ^ 64 then .error
    else
      let t := constantIntegerType r.1 sf.1 (s.head? ≠ some (chr% '0'))
      .integer r.1 t.1 t.2
  else
    let d := strtod s
    if d.2 then .error
    else
      match s.drop d.1 with
      | [] => .double
      | [c] =>
        if c = chr% 'f' || c = chr% 'F' then .float
        else if c = chr% 'l' || c = chr% 'L' then .longDouble
        else .error
      | _ => .error

end Verif.Lex
