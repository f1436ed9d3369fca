import Verif.Encode.Model

/-!
# Writing object files

Transcription of `src/backend/x86_64/elf.c`.  Bytes are numbers below 256.

Simplifications.  The arrays `shdr`, `sbuf` and `scap` indexed by section are written out
as one record per section, in the order in which `elf_init` creates them (elf.c:536-565);
sections for debug information (`-g`) are left out.  A symbol is given by a number; the
member `stack_offset`, in which the index of a symbol is remembered, is a function on
these numbers.  A buffer is represented by the bytes written to it; its capacity is
tracked separately.  `none` is a failing assertion.  Sizes are unbounded.
-/

namespace Verif.Elf

open Encode (le Code Fix)

/-- src/backend/x86_64/elf.h:60-69. -/
inductive SType
  | null | progbits | symtab | strtab | rela | nobits
  deriving DecidableEq, Repr

def SType.code : SType → Nat
  | .null => 0
  | .progbits => 1
  | .symtab => 2
  | .strtab => 3
  | .rela => 4
  | .nobits => 8

/-- A section: its header (src/backend/x86_64/elf.h:42-53), the bytes written so far,
and the capacity of the buffer, `scap`. -/
structure Sec where
  name : Nat := 0
  type : SType := .null
  flags : Nat := 0
  offset : Nat := 0
  size : Nat := 0
  link : Nat := 0
  info : Nat := 0
  align : Nat := 0
  entsize : Nat := 0
  buf : List Nat := []
  cap : Nat := 0
  deriving DecidableEq, Repr

/-- src/backend/x86_64/elf.c:103-144, `elf_section_write`: the section and the offset
written to.  A null pointer is a list of zeros. -/
def Sec.write (s : Sec) (d : List Nat) : Option (Sec × Nat) :=
  let n := d.length
  if s.type = .nobits ∨ n = 0 then some ({ s with size := s.size + n }, s.size)
  else if s.size + n ≥ s.cap then
    if s.cap = 0 then
      if s.size = 0 then
        some ({ s with cap := 10 * n, buf := s.buf ++ d, size := s.size + n }, s.size)
      else none
    else
      if s.size ≠ 0 then
        some ({ s with cap := 2 * s.cap + n, buf := s.buf ++ d, size := s.size + n }, s.size)
      else none
  else some ({ s with buf := s.buf ++ d, size := s.size + n }, s.size)

/-- src/backend/x86_64/elf.c:156-177, `elf_section_align`. -/
def Sec.alignTo (s : Sec) (a : Nat) : Option Sec :=
  if s.align < a ∧ ¬ a ≤ 16 then none
  else
    let s := if s.align < a then { s with align := a } else s
    if s.size % a ≠ 0 then (s.write (List.replicate (a - s.size % a) 0)).map (·.1) else some s

/-- src/backend/x86_64/elf.c:216-230, `elf_strtab_add`. -/
def Sec.addString (s : Sec) (str : List Nat) : Option (Sec × Nat) := do
  let s ← if s.size = 0 then (s.write [0]).map (·.1) else some s
  s.write (str ++ [0])

/-! ## Symbol table entries -/

/-- src/backend/x86_64/elf.h:72-80, `Elf64_Sym`; the member `st_other` is always zero. -/
structure Ent where
  name : Nat := 0
  info : Nat := 0
  shndx : Nat := 0
  value : Nat := 0
  size : Nat := 0
  deriving DecidableEq, Repr

/-- The bytes of an entry in memory. -/
def Ent.bytes (e : Ent) : List Nat :=
  le 4 e.name ++ [e.info % 256, 0] ++ le 2 e.shndx ++ le 8 e.value ++ le 8 e.size

/-- A number stored in `n` bytes at offset `o`. -/
def peek (b : List Nat) (o n : Nat) : Nat :=
  ((b.drop o).take n).foldr (fun x v => x + 256 * v) 0

/-- Overwrite bytes at offset `o`. -/
def poke (b : List Nat) (o : Nat) (d : List Nat) : List Nat :=
  b.take o ++ d ++ b.drop (o + d.length)

/-- src/backend/x86_64/elf.c:240-261, `elf_symtab_add`. -/
def Sec.addEntry (s : Sec) (e : Ent) : Option (Sec × Nat) := do
  let i := if s.size / 24 = 0 then 1 else s.size / 24
  let s ← if s.size / 24 = 0 then (s.write (List.replicate 24 0)).map (·.1) else some s
  let s' ← (s.write e.bytes).map (·.1)
  if e.info / 16 = 1 ∧ s'.info = 0 then some ({ s' with info := i }, i)
  else if i = 0 ∨ e.info / 16 = s'.buf.getD (24 * (i - 1) + 4) 0 / 16 then some (s', i)
  else none

/-! ## State -/

/-- What is known of a symbol when it is declared: src/backend/x86_64/elf.c:572-648. -/
inductive Kind
  /-- `SYM_LABEL` -/
  | label
  /-- a function, defined here or not -/
  | func (defined : Bool)
  /-- an object with an initialiser, `SYM_DEFINITION` -/
  | data (size align : Nat)
  /-- a string literal or constant, with its bytes -/
  | const (bytes : List Nat) (align : Nat)
  /-- any other object: a tentative definition or a declaration -/
  | object (tentative : Bool) (size align : Nat)
  deriving DecidableEq, Repr

structure Sym where
  id : Nat
  name : List Nat
  /-- `LINK_INTERN` -/
  intern : Bool
  kind : Kind
  deriving DecidableEq, Repr

/-- `struct pending_relocation`, src/backend/x86_64/elf.c:64-70. -/
structure Pend where
  sym : Nat
  type : Nat
  offset : Nat
  addend : Int
  deriving DecidableEq, Repr

/-- `current_function`, src/backend/x86_64/elf.c:331-338. -/
inductive Cur
  | none | static (i : Nat) | global (i : Nat)
  deriving DecidableEq, Repr

structure St where
  shstrtab : Sec
  strtab : Sec
  symtab : Sec
  bss : Sec
  rodata : Sec
  data : Sec
  relaData : Sec
  text : Sec
  relaText : Sec
  /-- `stack_offset` of each symbol -/
  off : Nat → Nat
  /-- buffered global symbols -/
  globals : List (Nat × Ent)
  pendData : List Pend
  pendText : List Pend
  /-- `pending_displacement_list`: label and offset into the text -/
  disp : List (Nat × Nat)
  cur : Cur
  pic : Bool
  noCommon : Bool

/-- Numbers of the sections, as returned by `elf_section_init`. -/
abbrev nData : Nat := 6
abbrev nText : Nat := 8
abbrev nRodata : Nat := 5
abbrev nBss : Nat := 4

/-! ## Symbols -/

def setOff (f : Nat → Nat) (k v : Nat) : Nat → Nat := fun x => if x = k then v else f x

/-- src/backend/x86_64/elf.c:362-381, `elf_symtab_assoc`. -/
def assoc (st : St) (s : Sym) (e : Ent) (isFunc : Bool) : Option St :=
  if s.intern then do
    let (t, i) ← st.symtab.addEntry e
    some { st with symtab := t, off := setOff st.off s.id i,
                   cur := if isFunc then .static i else st.cur }
  else if e.info / 16 = 1 then
    some { st with globals := st.globals ++ [(s.id, e)],
                   cur := if isFunc then .global st.globals.length else st.cur }
  else none

/-- src/backend/x86_64/elf.c:572-648, `elf_symbol`. -/
def symbol (st : St) (s : Sym) : Option St :=
  if st.off s.id ≠ 0 then none
  else
    match s.kind with
    | .label => some { st with off := setOff st.off s.id st.text.size }
    | k => do
      let (tab, nm) ← st.strtab.addString s.name
      let st := { st with strtab := tab }
      let bind := if s.intern then 0 else 16
      match k with
      | .func true => assoc st s ⟨nm, bind + 2, nText, st.text.size, 0⟩ true
      | .func false => assoc st s ⟨nm, bind + 2, 0, 0, 0⟩ true
      | .data size align =>
        let d ← st.data.alignTo align
        assoc { st with data := d } s ⟨nm, bind + 1, nData, d.size, size⟩ false
      | .const bytes align =>
        let r ← st.rodata.alignTo align
        let (r', o) ← r.write bytes
        assoc { st with rodata := r' } s ⟨nm, bind + 1, nRodata, o, bytes.length⟩ false
      | .object tentative size align =>
        if s.intern ∨ tentative ∧ st.noCommon then do
          let b ← st.bss.alignTo align
          assoc { st with bss := { b with size := b.size + size } } s
            ⟨nm, bind + 1, nBss, b.size, size⟩ false
        else if tentative then assoc st s ⟨nm, bind + 1, 0xFFF2, align, size⟩ false
        else assoc st s ⟨nm, bind, 0, 0, 0⟩ false
      | .label => none

/-! ## Code -/

/-- src/backend/x86_64/elf.c:340-354, `increment_function_size`. -/
def growFunction (st : St) (n : Nat) : Option St :=
  match st.cur with
  | .none => none
  | .static i =>
    let o := 24 * i + 16
    some { st with symtab := { st.symtab with
      buf := poke st.symtab.buf o (le 8 (peek st.symtab.buf o 8 + n : Nat)) } }
  | .global i =>
    some { st with globals := st.globals.modify i fun p => (p.1, { p.2 with size := p.2.size + n }) }

/-- The calls that encoding an instruction makes for a symbol or label it refers to:
src/backend/x86_64/encoding.c:371-379, 523-534 with `elf_add_relocation`,
src/backend/x86_64/elf.c:410-429, and `elf_text_displacement`, 499-511.  The bytes of
the instruction have zeros where a displacement belongs; it is filled in here. -/
def fixup (st : St) (val : List Nat) : Fix → St × List Nat
  | .reloc ty sym pos addend =>
    ({ st with pendText := st.pendText ++ [⟨sym, ty, st.text.size + pos, addend⟩] }, val)
  | .label l pos addend =>
    if st.off l ≠ 0 then
      (st, poke val pos (le 4 ((st.off l : Int) - st.text.size - pos + addend)))
    else
      ({ st with disp := st.disp ++ [(l, st.text.size + pos)] }, poke val pos (le 4 addend))

def fixups (st : St) (val : List Nat) : List Fix → St × List Nat
  | [] => (st, val)
  | f :: fs => let (st, val) := fixup st val f; fixups st val fs

/-- src/backend/x86_64/elf.c:650-660, `elf_text`. -/
def text (st : St) (c : Code) : Option St :=
  let (st, val) := fixups st c.val c.fix
  if val.getD 0 0 ≠ 0x90 then do
    let (t, _) ← st.text.write val
    growFunction { st with text := t } val.length
  else some st

/-- src/backend/x86_64/elf.c:483-497, `elf_flush_text_displacements`: the number stored
at each place is increased by the distance, modulo 2^32. -/
def patch (off : Nat → Nat) (buf : List Nat) : List (Nat × Nat) → Option (List Nat)
  | [] => some buf
  | (l, o) :: ds =>
    if off l = 0 then none
    else patch off (poke buf o (le 4 ((peek buf o 4 : Int) + off l - o))) ds

def flushText (st : St) : Option St := do
  let b ← patch st.off st.text.buf st.disp
  some { st with text := { st.text with buf := b }, disp := [] }

/-! ## Data -/

/-- An initialiser element: a number or a string, already as bytes, or the address of a
symbol. -/
inductive Datum
  | bytes (b : List Nat)
  | addr (sym : Nat) (disp : Int)
  deriving DecidableEq, Repr

/-- src/backend/x86_64/elf.c:662-694, `elf_data`. -/
def datum (st : St) : Datum → Option St
  | .bytes b => do
    let (d, _) ← st.data.write b
    some { st with data := d }
  | .addr s disp => do
    let st := { st with pendData := st.pendData ++ [Pend.mk s 1 st.data.size disp] }
    let (d, _) ← st.data.write (List.replicate 8 0)
    some { st with data := d }

/-! ## Finishing -/

/-- src/backend/x86_64/elf.c:389-408, `flush_symtab_globals`. -/
def flushGlobals (st : St) : List (Nat × Ent) → Option St
  | [] => some { st with globals := [] }
  | (id, e) :: gs => do
    let (t, i) ← st.symtab.addEntry e
    flushGlobals { st with symtab := t, off := setOff st.off id i } gs

/-- `_GLOBAL_OFFSET_TABLE_` -/
def gotName : List Nat :=
  [95, 71, 76, 79, 66, 65, 76, 95, 79, 70, 70, 83, 69, 84, 95, 84, 65, 66, 76, 69, 95]

def flushGot (st : St) : Option St :=
  if st.pic then do
    let (s, nm) ← st.strtab.addString gotName
    let (t, _) ← st.symtab.addEntry ⟨nm, 16, 0, 0, 0⟩
    some { st with strtab := s, symtab := t }
  else some st

/-- An entry of a relocation section: offset, symbol index and type, addend;
src/backend/x86_64/elf.c:456-473.  The addend of a relative relocation counts from the
end of the field. -/
def relaBytes (off : Nat → Nat) (p : Pend) : List Nat :=
  le 8 p.offset ++ le 8 ((off p.sym : Int) * 4294967296 + p.type)
    ++ le 8 (p.addend - if p.type = 2 ∨ p.type = 4 ∨ p.type = 9 then 4 else 0)

/-- src/backend/x86_64/elf.c:437-477, `flush_relocations`. -/
def flushRelocs (st : St) : Option St := do
  let (d, _) ← st.relaData.write (st.pendData.flatMap (relaBytes st.off))
  let (t, _) ← st.relaText.write (st.pendText.flatMap (relaBytes st.off))
  some { st with relaData := d, relaText := t, pendData := [], pendText := [] }

/-- The sections in the order of their headers, starting with the null section. -/
def St.table (st : St) : List Sec :=
  [{}, st.shstrtab, st.strtab, st.symtab, st.bss, st.rodata, st.data, st.relaData, st.text,
    st.relaText]

/-- src/backend/x86_64/elf.c:183-210, `elf_chain_offsets`, after the first section that
has contents, which ends at `e`. -/
def chain (e : Nat) : List Sec → Option (List Sec)
  | [] => some []
  | s :: ss =>
    if s.type = .nobits then (chain e ss).map (s :: ·)
    else
      let pad := if s.align > 1 then e % s.align else 0
      if s.align > 1 ∧ ¬ pad < 16 then none
      else (chain (e + pad + s.size) ss).map ({ s with offset := e + pad } :: ·)

/-- The first section with contents comes directly after the headers. -/
def chainOffsets : List Sec → Option (List Sec)
  | [] => none
  | z :: ss =>
    let n := ss.length + 1
    let rec first : List Sec → Option (List Sec)
      | [] => none
      | s :: ss =>
        if s.type = .nobits then (first ss).map (s :: ·)
        else
          let o := 64 + n * 64
          (chain (o + s.size) ss).map ({ s with offset := o } :: ·)
    (first ss).map (z :: ·)

/-- src/backend/x86_64/elf.c:15-39: the file header. -/
def header (shnum shstrndx : Nat) : List Nat :=
  [0x7f, 69, 76, 70, 2, 1, 1, 0, 0, 0, 16, 0, 0, 0, 0, 0]
    ++ le 2 1 ++ le 2 0x3E ++ le 4 1 ++ le 8 0 ++ le 8 0 ++ le 8 64 ++ le 4 0 ++ le 2 64
    ++ le 2 0 ++ le 2 0 ++ le 2 64 ++ le 2 shnum ++ le 2 shstrndx

/-- A section header in memory; the virtual address is zero. -/
def Sec.header (s : Sec) : List Nat :=
  le 4 s.name ++ le 4 s.type.code ++ le 8 s.flags ++ le 8 0 ++ le 8 s.offset ++ le 8 s.size
    ++ le 4 s.link ++ le 4 s.info ++ le 8 s.align ++ le 8 s.entsize

/-- src/backend/x86_64/elf.c:710-733, `write_sections`, with the number of bytes written
so far by the account of the headers; none before the first section.  Padding of more
than 16 bytes fails an assertion in `write_data`, 696-708. -/
def writeSections (done : Option Nat) : List Sec → Option (List Nat)
  | [] => some []
  | s :: ss =>
    if s.type = .nobits then writeSections done ss
    else
      let pad : Option (List Nat) :=
        match done with
        | none => some []
        | some w =>
          if ¬ w ≤ s.offset then none
          else if s.offset - w ≤ 16 then some (List.replicate (s.offset - w) 0)
          else none
      match pad, writeSections (some (s.offset + s.size)) ss with
      | some p, some r => some (p ++ s.buf.take s.size ++ r)
      | _, _ => none

/-- src/backend/x86_64/elf.c:735-757, `elf_flush`: the final state and the file. -/
def flush (st : St) : Option (St × List Sec × List Nat) := do
  let st ← flushGlobals st st.globals
  let st ← flushGot st
  let st ← flushRelocs st
  let st := { st with disp := [] }
  let tab ← chainOffsets st.table
  let body ← writeSections none (tab.drop 1)
  some (st, tab, header tab.length 1 ++ tab.flatMap Sec.header ++ body)

/-! ## Starting -/

/-- A file name and the names of sections. -/
def shName : Nat → List Nat
  | 1 => [46, 115, 104, 115, 116, 114, 116, 97, 98]
  | 2 => [46, 115, 116, 114, 116, 97, 98]
  | 3 => [46, 115, 121, 109, 116, 97, 98]
  | 4 => [46, 98, 115, 115]
  | 5 => [46, 114, 111, 100, 97, 116, 97]
  | 6 => [46, 100, 97, 116, 97]
  | 7 => [46, 114, 101, 108, 97, 46, 100, 97, 116, 97]
  | 8 => [46, 116, 101, 120, 116]
  | 9 => [46, 114, 101, 108, 97, 46, 116, 101, 120, 116]
  | _ => []

/-- src/backend/x86_64/elf.c:267-313, `elf_section_init`, for a section after the symbol
table: its name is added to `.shstrtab`, and a section symbol to `.symtab`. -/
def initSec (shstr sym : Sec) (k : Nat) (s : Sec) : Option (Sec × Sec × Sec) := do
  let (shstr, nm) ← shstr.addString (shName k)
  let (sym, _) ← sym.addEntry ⟨0, 3, k, 0, 0⟩
  some (shstr, sym, { s with name := nm })

/-- src/backend/x86_64/elf.c:522-570, `elf_init`.  The capacities are those left from
the previous file (the array `scap` is static), by section number; zero at first. -/
def init (caps : Nat → Nat) (file : List Nat) (pic noCommon : Bool) : Option St := do
  let (shstr, n1) ← ({ type := .strtab, align := 1, cap := caps 1 } : Sec).addString (shName 1)
  let shstr := { shstr with name := n1 }
  let (shstr, n2) ← shstr.addString (shName 2)
  let str : Sec := { name := n2, type := .strtab, align := 1, cap := caps 2 }
  let (shstr, n3) ← shstr.addString (shName 3)
  let sym : Sec := { name := n3, type := .symtab, link := 2, align := 4, entsize := 24, cap := caps 3 }
  let (str, f) ← str.addString file
  let (sym, _) ← sym.addEntry ⟨f, 4, 0xFFF1, 0, 0⟩
  let (shstr, sym, bss) ← initSec shstr sym 4 { type := .nobits, flags := 3, align := 4, cap := caps 4 }
  let (shstr, sym, ro) ← initSec shstr sym 5 { type := .progbits, flags := 2, align := 16, cap := caps 5 }
  let (shstr, sym, dat) ← initSec shstr sym 6 { type := .progbits, flags := 3, align := 4, cap := caps 6 }
  let (shstr, sym, rd) ← initSec shstr sym 7
    { type := .rela, link := 3, info := 6, align := 8, entsize := 24, cap := caps 7 }
  let (shstr, sym, tx) ← initSec shstr sym 8 { type := .progbits, flags := 6, align := 16, cap := caps 8 }
  let (shstr, sym, rt) ← initSec shstr sym 9
    { type := .rela, link := 3, info := 8, align := 8, entsize := 24, cap := caps 9 }
  some { shstrtab := shstr, strtab := str, symtab := sym, bss := bss, rodata := ro, data := dat,
         relaData := rd, text := tx, relaText := rt, off := fun _ => 0, globals := [],
         pendData := [], pendText := [], disp := [], cur := .none, pic := pic, noCommon := noCommon }

/-! ## A translation unit -/

/-- The calls made by the code generator for one file. -/
inductive Op
  | symbol (s : Sym)
  | text (c : Code)
  | data (d : Datum)
  /-- the end of a function -/
  | endFunction
  deriving DecidableEq, Repr

def step (st : St) : Op → Option St
  | .symbol s => symbol st s
  | .text c => text st c
  | .data d => datum st d
  | .endFunction => flushText st

def run (st : St) : List Op → Option St
  | [] => some st
  | o :: os => do let st ← step st o; run st os

/-- A file from start to end, when it is the first one of an invocation:
src/backend/x86_64/compile.c:3369-3391 and 3432-3440. -/
def assemble (file : List Nat) (pic noCommon : Bool) (ops : List Op) : Option (List Nat) := do
  let st ← init (fun _ => 0) file pic noCommon
  let st ← run st ops
  let (_, _, f) ← flush st
  some f

/-- The array `scap`, src/backend/x86_64/elf.c:109: it is static, so that what one file
leaves there is found by the next. -/
def St.caps (st : St) : Nat → Nat
  | 1 => st.shstrtab.cap
  | 2 => st.strtab.cap
  | 3 => st.symtab.cap
  | 4 => st.bss.cap
  | 5 => st.rodata.cap
  | 6 => st.data.cap
  | 7 => st.relaData.cap
  | 8 => st.text.cap
  | 9 => st.relaText.cap
  | _ => 0

/-- The files of one invocation, src/lacc.c:612-708, one after the other. -/
def assembleAll (caps : Nat → Nat) (pic noCommon : Bool) : List (List Nat × List Op) → Option (List (List Nat))
  | [] => some []
  | (file, ops) :: us => do
    let st ← init caps file pic noCommon
    let st ← run st ops
    let (st, _, f) ← flush st
    let fs ← assembleAll st.caps pic noCommon us
    some (f :: fs)

end Verif.Elf
