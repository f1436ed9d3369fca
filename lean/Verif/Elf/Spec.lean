import Verif.Encode.Decode

/-!
# Reading object files

The layout of an ELF64 little-endian relocatable file, from the System V ABI (gABI
chapter 4), as a reader that knows nothing of the compiler: positions and sizes of
members, names as offsets into a string table, and what a linker and a processor make
of a relocation.
-/

namespace Verif.Elf.Reader

open Encode.Intel (value)

/-- A number of `n` bytes at offset `o`, least significant byte first. -/
def num (f : List Nat) (o n : Nat) : Nat := value ((f.drop o).take n)

/-- Section header number `i`: member at offset `o` of `n` bytes.  The position of the
headers and the size of each are in the file header. -/
def shMember (f : List Nat) (i o n : Nat) : Nat :=
  num f (num f 40 8 + i * num f 58 2 + o) n

def shnum (f : List Nat) : Nat := num f 60 2
def shstrndx (f : List Nat) : Nat := num f 62 2
def shName (f : List Nat) (i : Nat) : Nat := shMember f i 0 4
def shType (f : List Nat) (i : Nat) : Nat := shMember f i 4 4
def shFlags (f : List Nat) (i : Nat) : Nat := shMember f i 8 8
def shOffset (f : List Nat) (i : Nat) : Nat := shMember f i 24 8
def shSize (f : List Nat) (i : Nat) : Nat := shMember f i 32 8
def shLink (f : List Nat) (i : Nat) : Nat := shMember f i 40 4
def shInfo (f : List Nat) (i : Nat) : Nat := shMember f i 44 4
def shAlign (f : List Nat) (i : Nat) : Nat := shMember f i 48 8

/-- The contents of section `i`. -/
def contents (f : List Nat) (i : Nat) : List Nat := (f.drop (shOffset f i)).take (shSize f i)

/-- A name in a string table: the bytes up to the next zero; none if there is no zero. -/
def str (t : List Nat) (o : Nat) : Option (List Nat) :=
  if 0 ∈ t.drop o then some ((t.drop o).takeWhile (· ≠ 0)) else none

/-- An entry of a symbol table. -/
structure Symbol where
  name : Nat
  bind : Nat
  type : Nat
  shndx : Nat
  value : Nat
  size : Nat
  deriving DecidableEq, Repr

def symbol (t : List Nat) (i : Nat) : Symbol :=
  ⟨num t (24 * i) 4, num t (24 * i + 4) 1 / 16, num t (24 * i + 4) 1 % 16, num t (24 * i + 6) 2,
    num t (24 * i + 8) 8, num t (24 * i + 16) 8⟩

/-- A relocation. -/
structure Rela where
  offset : Nat
  sym : Nat
  type : Nat
  addend : Int
  deriving DecidableEq, Repr

def signed64 (x : Nat) : Int := if x < 9223372036854775808 then x else (x : Int) - 18446744073709551616

def rela (t : List Nat) (j : Nat) : Rela :=
  ⟨num t (24 * j) 8, num t (24 * j + 8) 8 / 4294967296, num t (24 * j + 8) 8 % 4294967296,
    signed64 (num t (24 * j + 16) 8)⟩

/-- What a linker stores at the place `P` for a relocation of type 1 (64 bits), 2 (32
bits, relative), and 4 (the same to a procedure, or its stub), against the address `S`,
with addend `A`; for 9, `S` is the address of the symbol's slot in the global offset
table. -/
def link (type : Nat) (S A P : Int) : Option Int :=
  match type with
  | 1 => some (S + A)
  | 2 | 4 | 9 => some (S + A - P)
  | _ => none

/-- The relocations of a section. -/
def relas (t : List Nat) : List Rela := (List.range (t.length / 24)).map (rela t)

/-- The size of the field a relocation fills. -/
def width (type : Nat) : Nat := if type = 1 then 8 else 4

/-- The lowest bytes of a number. -/
def low : Nat → Int → List Nat
  | 0, _ => []
  | n + 1, x => (x % 256).toNat :: low n (x / 256)

def store (t : List Nat) (o : Nat) (d : List Nat) : List Nat := t.take o ++ (d ++ t.drop (o + d.length))

/-- What a linker makes of a section that is loaded at `base`: every relocation is
applied.  `addr` is the address meant by a relocation of a type against the symbol with
an index: that of the symbol itself, of a stub, or of a slot in the global offset table. -/
def linked (base : Int) (addr : Nat → Nat → Int) (rs : List Rela) (t : List Nat) : List Nat :=
  rs.foldl (fun t r =>
    match link r.type (addr r.type r.sym) r.addend (base + r.offset) with
    | some v => store t r.offset (low (width r.type) v)
    | none => t) t

end Verif.Elf.Reader
