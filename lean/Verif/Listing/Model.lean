import Verif.Asm.Out
import Verif.Lex.Strings
import Verif.Elf.Model

/-!
# Printing data as assembly

Model of `asm_symbol`, `asm_data` and `asm_flush`, src/backend/x86_64/assemble.c:28-51,
182-266, 321-387, which print to a file; the model gives the text.  There is none where an
assertion fails.

Simplifications.  `asm_flush` is called for every symbol but labels, and forgets the
section, so that a section is always named again; a label does not change the section.
What is left of the state is the function whose size is to be printed.  The name of a
symbol is a parameter, as in `Verif.Asm`.  Symbols come with the numbers `size_of`,
`type_alignment` and `sym_alignment` give for their types.  The text of
instructions is that of `Asm.asmText`.
-/

namespace Verif.Listing

open Asm (natText intText stored)

/-- What `asm_symbol` looks at. -/
inductive Kind
  /-- `SYM_LABEL` -/
  | label
  /-- a function, defined here or not -/
  | func (defined : Bool)
  /-- an object with an initialiser -/
  | data (size align : Nat)
  /-- `SYM_LITERAL`, an array of characters -/
  | literal (s : Bytes) (align : Nat)
  /-- `SYM_CONSTANT` of type `float`, `double` and `long double`, by representation -/
  | float (u : Nat)
  | double (i : Int)
  | ldouble (lo hi : Int)
  /-- `SYM_TENTATIVE`, with the alignment of its type and its own -/
  | tentative (size talign salign : Nat)
  /-- an object that is declared -/
  | object
  deriving DecidableEq, Repr

structure Sym where
  id : Nat
  /-- `LINK_INTERN` -/
  intern : Bool
  kind : Kind
  deriving DecidableEq, Repr

/-- `struct immediate` as made by `compile_data_assign`,
src/backend/x86_64/compile.c:3289-3341. -/
inductive Datum
  | int (width : Nat) (q : Int)
  | addr (sym : Nat) (disp : Int)
  | string (width : Nat) (s : Bytes)
  deriving DecidableEq, Repr

/-- The calls through `enter_context`, `emit_data` and `emit_instruction`,
src/backend/x86_64/compile.c:17-20. -/
inductive Op
  | symbol (s : Sym)
  | datum (d : Datum)
  /-- an instruction -/
  | code (i : Encode.Instr)
  /-- the end of a function: nothing is printed -/
  | endFunction
  deriving DecidableEq, Repr

/-- A line. -/
def ln (t : Bytes) : Bytes := t ++ [10]

/-- src/backend/x86_64/assemble.c:321-370, `asm_data`. -/
def datumText (name : Nat → Bytes) : Datum → Option Bytes
  | .int w q =>
    if w = 1 then some (ln (str% "\t.byte\t" ++ intText (stored 1 q)))
    else if w = 2 then some (ln (str% "\t.short\t" ++ intText (stored 2 q)))
    else if w = 4 then some (ln (str% "\t.int\t" ++ intText (stored 4 q)))
    else if w = 8 then some (ln (str% "\t.quad\t" ++ intText (stored 8 q)))
    else if 0 < w ∧ w < 8 then
      some ((List.range w).flatMap fun i => ln (str% "\t.byte\t" ++ intText ((q / 256 ^ i).bmod 256)))
    else none
  | .addr s d =>
    some (ln (str% "\t.quad\t" ++ (name s ++ if d ≠ 0 then (if d < 0 then [] else str% "+") ++ intText d else [])))
  | .string w s =>
    if w = s.length then some (ln (str% "\t.ascii\t" ++ Lex.fprintstr s))
    else if w = s.length + 1 then some (ln (str% "\t.string\t" ++ Lex.fprintstr s))
    else none

/-- src/backend/x86_64/assemble.c:372-387, `asm_flush`; the state is the function that
`current_symbol` defines. -/
def flushText (name : Nat → Bytes) : Option Nat → Bytes
  | some f => ln (str% "\t.size\t" ++ (name f ++ (str% ", .-" ++ name f)))
  | none => []

def globl (name : Nat → Bytes) (s : Sym) : Bytes :=
  if s.intern then [] else ln (str% "\t.globl\t" ++ name s.id)

/-- Lines 217-221: an object in `.data`, up to its name. -/
def objectText (name : Nat → Bytes) (s : Sym) (size align : Nat) : Bytes :=
  ln (str% "\t.data") ++ (globl name s ++ (ln (str% "\t.align\t" ++ natText align) ++
    (ln (str% "\t.type\t" ++ (name s.id ++ str% ", @object")) ++
      (ln (str% "\t.size\t" ++ (name s.id ++ (str% ", " ++ natText size))) ++ ln (name s.id ++ str% ":")))))

/-- Lines 239-241: a constant, up to its name. -/
def constText (name : Nat → Bytes) (s : Sym) (align : Nat) : Bytes :=
  ln (str% "\t.section\t.rodata") ++ (ln (str% "\t.align\t" ++ natText align) ++ ln (name s.id ++ str% ":"))

/-- src/backend/x86_64/assemble.c:194-266, the rest of `asm_symbol`. -/
def symbolText (noCommon : Bool) (name : Nat → Bytes) (s : Sym) : Bytes :=
  match s.kind with
  | .tentative size talign salign =>
    if noCommon then objectText name s size salign ++ ln (str% "\t.zero " ++ natText size)
    else
      (if s.intern then ln (str% "\t.local\t" ++ name s.id) else []) ++
        ln (str% "\t.comm\t" ++ (name s.id ++ (str% "," ++ (natText size ++ (str% "," ++ natText talign)))))
  | .func true =>
    ln (str% "\t.text") ++ (globl name s ++
      (ln (str% "\t.type\t" ++ (name s.id ++ str% ", @function")) ++ ln (name s.id ++ str% ":")))
  | .data size align => objectText name s size align
  | .literal t align =>
    ln (str% "\t.section\t.rodata") ++ (ln (str% "\t.align\t" ++ natText align) ++
      (ln (str% "\t.type\t" ++ (name s.id ++ str% ", @object")) ++
        (ln (str% "\t.size\t" ++ (name s.id ++ (str% ", " ++ natText (t.length + 1)))) ++
          (ln (name s.id ++ str% ":") ++ ln (str% "\t.string\t" ++ Lex.fprintstr t)))))
  | .float u => constText name s 4 ++ ln (str% "\t.long\t" ++ natText (u % 4294967296))
  | .double i => constText name s 8 ++ ln (str% "\t.quad\t" ++ intText (i.bmod (256 ^ 8)))
  | .ldouble lo hi =>
    constText name s 16 ++ (ln (str% "\t.quad\t" ++ intText (lo.bmod (256 ^ 8))) ++
      ln (str% "\t.quad\t" ++ intText (hi % 65536)))
  | .label => ln (name s.id ++ str% ":")
  | .func false => []
  | .object => []

/-- The function the current symbol defines, after a symbol. -/
def current (cur : Option Nat) (s : Sym) : Option Nat :=
  match s.kind with
  | .label => cur
  | .func true => some s.id
  | _ => none

/-- One call: what is printed and the state after. -/
def step (noCommon : Bool) (name : Nat → Bytes) (cur : Option Nat) : Op → Option (Bytes × Option Nat)
  | .symbol s =>
    some ((if s.kind = .label then [] else flushText name cur) ++ symbolText noCommon name s, current cur s)
  | .datum d => (datumText name d).map fun t => (t, cur)
  | .code i => (Asm.asmText name i).map fun t => (t, cur)
  | .endFunction => some ([], cur)

/-- The text of a sequence of calls; `asm_flush` is called in the end. -/
def text (noCommon : Bool) (name : Nat → Bytes) : Option Nat → List Op → Option Bytes
  | cur, [] => some (flushText name cur)
  | cur, op :: ops => do
    let (t, cur') ← step noCommon name cur op
    some (t ++ (← text noCommon name cur' ops))

/-- src/backend/x86_64/assemble.c:175-181, `asm_init`: the first line. -/
def fileText (file : Bytes) : Bytes := ln (str% "\t.file\t\"" ++ (file ++ str% "\""))

/-! ## The same calls for an object file

`elf_symbol` and `elf_data` are given the same symbols and data,
src/backend/x86_64/elf.c:572-648, 662-694. -/

def toNats (s : Bytes) : List Nat := s.map (·.toNat)

def Kind.elf : Kind → Elf.Kind
  | .label => .label
  | .func d => .func d
  | .data size align => .data size align
  | .literal s align => .const (toNats s ++ [0]) align
  | .float u => .const (Encode.le 4 u) 4
  | .double i => .const (Encode.le 8 i) 8
  | .ldouble lo hi => .const (Encode.le 8 lo ++ Encode.le 8 (hi % 65536)) 16
  | .tentative size _ salign => .object true size salign
  | .object => .object false 0 1

/-- Lines 662-694: the union is little endian, and a string ends in a zero byte. -/
def Datum.elf : Datum → Elf.Datum
  | .int w q => .bytes (Encode.le w q)
  | .addr s d => .addr s d
  | .string w s => .bytes ((toNats s ++ [0]).take w)

/-- There is no object file where the encoding of an instruction fails. -/
def Op.elf (name : Nat → Bytes) : Op → Option Elf.Op
  | .symbol s => some (.symbol ⟨s.id, toNats (name s.id), s.intern, s.kind.elf⟩)
  | .datum d => some (.data d.elf)
  | .code i => (Encode.encode i).map .text
  | .endFunction => some .endFunction

end Verif.Listing
