import Verif.Tac
import Verif.Bytes

/-!
# Reading DWARF

A reader of the parts of DWARF version 4 that are needed for a compile unit without
children, written from the standard (sections 7.5, 7.6).
-/

namespace Verif.Dwarf.Spec

/-- Unsigned LEB128, figure 46 of the standard: seven bits per byte, the least significant first, up to a byte
without the high bit. -/
def readUleb : Bytes → Option (Nat × Bytes)
  | [] => none
  | b :: rest =>
    if b.toNat < 128 then some (b.toNat, rest)
    else do
      let (v, rest) ← readUleb rest
      some (b.toNat - 128 + 128 * v, rest)

/-- A little endian number of `n` bytes. -/
def readNum : (n : Nat) → Bytes → Option (Nat × Bytes)
  | 0, bs => some (0, bs)
  | _ + 1, [] => none
  | n + 1, b :: bs => do
    let (v, rest) ← readNum n bs
    some (b.toNat + 256 * v, rest)

/-- A string up to the null byte. -/
def readString : Bytes → Option (Bytes × Bytes)
  | [] => none
  | b :: bs =>
    if b = 0 then some ([], bs)
    else do
      let (s, rest) ← readString bs
      some (b :: s, rest)

/-- An abbreviation: code, tag, whether there are children, names and forms of attributes. -/
structure Abbrev where
  code : Nat
  tag : Nat
  children : Bool
  attrs : List (Nat × Nat)
  deriving DecidableEq, Repr

/-- Pairs of name and form, up to a pair of zeros; at most `fuel` of them. -/
def readForms : (fuel : Nat) → Bytes → Option (List (Nat × Nat) × Bytes)
  | 0, _ => none
  | fuel + 1, bs => do
    let (n, bs) ← readUleb bs
    let (f, bs) ← readUleb bs
    if n = 0 ∧ f = 0 then some ([], bs)
    else do
      let (as, bs) ← readForms fuel bs
      some ((n, f) :: as, bs)

/-- Section 7.5.3: abbreviations up to the code zero. If `lax`, the end of the section will also do. -/
def readAbbrevs (lax : Bool) : (fuel : Nat) → Bytes → Option (List Abbrev)
  | 0, _ => none
  | fuel + 1, bs =>
    if lax = true ∧ bs = [] then some []
    else do
      let (c, bs) ← readUleb bs
      if c = 0 then some []
      else do
        let (t, bs) ← readUleb bs
        let (ch, bs) ← readNum 1 bs
        let (as, bs) ← readForms bs.length bs
        let rest ← readAbbrevs lax fuel bs
        some (⟨c, t, ch == 1, as⟩ :: rest)

/-- The value of an attribute. -/
inductive Val
  | addr (a : Nat)
  | num (n : Nat)
  | str (s : Bytes)
  deriving DecidableEq, Repr

/-- Section 7.5.4 and figure 21, the forms. -/
def readValue (form : Nat) (bs : Bytes) : Option (Val × Bytes) :=
  match form with
  | 0x01 => do let (n, bs) ← readNum 8 bs; some (.addr n, bs)
  | 0x0b => do let (n, bs) ← readNum 1 bs; some (.num n, bs)
  | 0x05 => do let (n, bs) ← readNum 2 bs; some (.num n, bs)
  | 0x06 => do let (n, bs) ← readNum 4 bs; some (.num n, bs)
  | 0x07 => do let (n, bs) ← readNum 8 bs; some (.num n, bs)
  | 0x08 => do let (s, bs) ← readString bs; some (.str s, bs)
  | _ => none

def readValues : List (Nat × Nat) → Bytes → Option (List (Nat × Val) × Bytes)
  | [], bs => some ([], bs)
  | (n, f) :: as, bs => do
    let (v, bs) ← readValue f bs
    let (vs, bs) ← readValues as bs
    some ((n, v) :: vs, bs)

/-- A compile unit with only its root entry. -/
structure Unit where
  version : Nat
  addressSize : Nat
  tag : Nat
  attrs : List (Nat × Val)
  /-- What is left in the section. -/
  rest : Bytes
  deriving DecidableEq, Repr

/-- Section 7.5.1.1: the header of a unit in the 32 bit format, which says how many bytes
follow; then the entry.  The rest of the unit has to be entries that are null. -/
def readUnit (lax : Bool) (info abbr : Bytes) : Option Unit := do
  let (len, bs) ← readNum 4 info
  if len ≥ 0xfffffff0 ∨ bs.length < len then none
  else do
    let rest := bs.drop len
    let bs := bs.take len
    let (version, bs) ← readNum 2 bs
    let (off, bs) ← readNum 4 bs
    let (size, bs) ← readNum 1 bs
    let table ← readAbbrevs lax (abbr.length + 1) (abbr.drop off)
    let (code, bs) ← readUleb bs
    let a ← table.find? (·.code == code)
    if a.children then none
    else do
      let (vs, bs) ← readValues a.attrs bs
      if bs.all (· == 0) then some ⟨version, size, a.tag, vs, rest⟩ else none

/-- The relocation `R_X86_64_64`: eight bytes become the address. -/
def relocate (bytes : Bytes) (offset addr : Nat) : Bytes :=
  bytes.take offset ++ num 8 addr ++ bytes.drop (offset + 8)
where
  num : Nat → Nat → Bytes
    | 0, _ => []
    | n + 1, v => UInt8.ofNat (v % 256) :: num n (v / 256)

end Verif.Dwarf.Spec
