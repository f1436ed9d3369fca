import Verif.Tac
import Verif.Bytes

/-!
# Debug information

Transcription of `src/backend/x86_64/dwarf.c`.  The sections `.debug_info` and
`.debug_abbrev` are lists of bytes, the relocations of `.debug_info` a list of offsets, all of
which refer to the symbol of the section `.text`.  `none` is a failing assertion or undefined
behaviour.
-/

namespace Verif.Dwarf

/-- Lines 68-86, `ULEB128_encode`.  The value is an `unsigned long`; a round of the loop
makes it smaller unless it is zero, when the loop ends. -/
def uleb (value : Nat) : Bytes :=
  if value / 128 = 0 then [UInt8.ofNat (value % 128)]
  else UInt8.ofNat (value % 128 + 128) :: uleb (value / 128)
  termination_by value
  decreasing_by omega

/-- Sections with debug information. -/
structure St where
  info : Bytes := []
  abbr : Bytes := []
  /-- Offsets in `.debug_info` where the address of `.text` is to be added. -/
  rela : List Nat := []
  deriving DecidableEq, Repr

/-- What `dwarf_write_ULEB128`, lines 88-97, writes: the buffer has 8 bytes, and after
writing it is asserted that the length is one. -/
def writeUleb (value : Nat) : Option Bytes :=
  let b := uleb value
  if b.length ≤ 8 ∧ b.length = 1 then some b else none

/-- `struct dwarf_attr`, lines 47-56: the name and the value, whose kind gives the form. -/
inductive Value
  /-- `DW_FORM_addr`, the symbol of `.text`. -/
  | addr
  | string (s : Bytes)
  | data1 (n : Nat)
  | data8 (n : Nat)
  deriving DecidableEq, Repr

/-- Lines 33-39, `DW_FORM_*`. -/
def Value.form : Value → Nat
  | .addr => 0x01
  | .string _ => 0x08
  | .data1 _ => 0x0b
  | .data8 _ => 0x07

/-- The `n` low bytes of a number in memory. -/
def le : (n : Nat) → (v : Nat) → Bytes
  | 0, _ => []
  | n + 1, v => UInt8.ofNat (v % 256) :: le n (v / 256)

/-- Lines 138-169, `dwarf_write_attribute` with an attribute. -/
def writeAttribute (st : St) (a : Nat × Value) : Option St := do
  let n ← writeUleb a.1
  let f ← writeUleb a.2.form
  let st := { st with abbr := st.abbr ++ n ++ f }
  some <| match a.2 with
    | .addr => { st with rela := st.rela ++ [st.info.length], info := st.info ++ List.replicate 8 0 }
    | .string s => { st with info := st.info ++ s ++ [0] }
    | .data1 n => { st with info := st.info ++ le 1 n }
    | .data8 n => { st with info := st.info ++ le 8 n }

/-- The loop over the attributes in lines 185-188. -/
def writeAttributes (st : St) : List (Nat × Value) → Option St
  | [] => some st
  | a :: as => do writeAttributes (← writeAttribute st a) as

/-- Lines 171-199, `dwarf_write_entry`, of an entry without children; no other is ever made. -/
def writeEntry (st : St) (code tag : Nat) (attrs : List (Nat × Value)) : Option St := do
  let c ← writeUleb code
  let t ← writeUleb tag
  let st := { st with info := st.info ++ c, abbr := st.abbr ++ c ++ t ++ [0] }
  let st ← writeAttributes st attrs
  let z ← writeUleb 0
  some { st with abbr := st.abbr ++ z ++ z }

/-- `context.standard`. -/
inductive Standard
  | c89 | c99 | c11
  deriving DecidableEq, Repr

/-- Lines 41-44, `DW_LANG_*`. -/
def Standard.language : Standard → Nat
  | .c89 => 0x0001
  | .c99 => 0x000c
  | .c11 => 0x001d

/-- The attributes of the compile unit: lines 205-218, `dwarf_init`, and 236-248,
`dwarf_add_root_info`. -/
def rootAttributes (file : Bytes) (std : Standard) (textSize : Nat) : List (Nat × Value) :=
  [(0x03, .string file), (0x25, .string (str% "lacc")), (0x13, .data1 std.language)] ++
    if textSize ≠ 0 then [(0x11, .addr), (0x12, .data8 textSize)] else []

/-- Lines 250-285, `dwarf_flush`. -/
def flush (file : Bytes) (std : Standard) (textSize : Nat) : Option St := do
  let st : St := { info := le 4 0 ++ le 2 4 ++ le 4 0 ++ le 1 8 }
  let st ← writeEntry st 0x01 0x11 (rootAttributes file std textSize)
  let length := st.info.length + 1
  let info := st.info ++ [0]
  if length < 0xfffffff0 then some { st with info := le 4 (length - 4) ++ info.drop 4 } else none

end Verif.Dwarf
