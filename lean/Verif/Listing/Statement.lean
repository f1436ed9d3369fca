import Verif.Listing.Model
import Verif.Listing.Spec
import Verif.Asm.OutAll
import Verif.Elf.Start

/-!
# What is asked of the calls, and what an object file says
-/

namespace Verif.Listing

open Gas
open Asm.Printed (Named IntRange Printable)
open Asm.Gas (isWord isBlank)

/-- Where bytes go. -/
inductive Place
  | text | data | none
  deriving DecidableEq, Repr

/-- Data is only given after an object that is defined, and instructions and labels after a
function that is. -/
def place (p : Place) : Op → Option Place
  | .symbol s =>
    match s.kind with
    | .label => if p = .text then some .text else Option.none
    | .func true => some .text
    | .data _ _ => some .data
    | _ => some .none
  | .datum _ => if p = .data then some p else Option.none
  | .code _ => if p = .text then some p else Option.none
  | .endFunction => some p

/-- Symbols have names the assembler can find, alignments are not zero, and widths are those
of numbers, strings and pointers.  Instructions are those of C83. -/
def OpOk (syms : Bytes → Option Nat) (name : Nat → Bytes) : Op → Prop
  | .symbol s => Named syms name s.id ∧
    match s.kind with
    | .data _ align => 0 < align
    | .literal _ align => 0 < align
    | .object => s.intern = false
    | _ => True
  | .datum (.int w _) => 1 ≤ w ∧ w ≤ 8
  | .datum (.addr s d) => Named syms name s ∧ IntRange d
  | .datum (.string w s) => w = s.length ∨ w = s.length + 1
  | .code i => Encode.Good i ∧ Printable syms name i
  | .endFunction => True

def Ok (syms : Bytes → Option Nat) (name : Nat → Bytes) : Place → List Op → Prop
  | _, [] => True
  | p, op :: ops => OpOk syms name op ∧ ∃ p', place p op = some p' ∧ Ok syms name p' ops

/-! ## The object file -/

/-- Symbols of the file in order, and their values. -/
def entries (o : Elf.Obj) : List (Elf.Sym × Nat) := o.decls.map fun d => (d.sym, d.value)

/-- The place of the `k`th instruction. -/
def startOf (items : List Elf.Item) (k : Nat) : Nat := ((items.take k).map fun i => i.code.val.length).sum

/-- Functions that are defined. -/
def funcOf (e : Elf.Sym × Nat) : Option (Nat × Nat) :=
  match e.1.kind with
  | .func true => some (e.1.id, e.2)
  | _ => none

/-- An instruction of the text is one of the object: the bytes are that instruction for the
processor, and what they leave open for the linker is the symbol in the text. -/
def Agrees (x : Encode.Intel.Ins × Option Asm.Gas.Ref) (item : Elf.Item) : Prop :=
  Encode.Intel.decode item.code.val = some (x.1, []) ∧
    ∃ i, Encode.encode i = some item.code ∧ x.2 = i.ref ∧ Encode.Links i item.code x.1

/-- Where an object is. -/
def defOf (e : Elf.Sym × Nat) : Option (Nat × Sec × Nat) :=
  match e.1.kind with
  | .data _ _ => some (e.1.id, .data, e.2)
  | .const _ _ => some (e.1.id, .rodata, e.2)
  | _ => none

/-- Functions and objects that other files can use. -/
def globalOf (e : Elf.Sym × Nat) : Option Nat :=
  match e.1.kind with
  | .func true | .data _ _ => if e.1.intern then none else some e.1.id
  | _ => none

/-- Objects without an initialiser, with their size. -/
def commonOf (e : Elf.Sym × Nat) : Option (Nat × Nat) :=
  match e.1.kind with
  | .object true size _ => some (e.1.id, size)
  | _ => none

def localOf (e : Elf.Sym × Nat) : Option Nat :=
  match e.1.kind with
  | .object true _ _ => if e.1.intern then some e.1.id else none
  | _ => none

/-- Sizes given for symbols. -/
def sizeOf (op : Op) : Option (Nat × Nat) :=
  match op with
  | .symbol s =>
    match s.kind with
    | .data size _ => some (s.id, size)
    | .literal t _ => some (s.id, t.length + 1)
    | _ => none
  | _ => none

def typeOf (op : Op) : Option (Nat × Bool) :=
  match op with
  | .symbol s =>
    match s.kind with
    | .func true => some (s.id, true)
    | .data _ _ | .literal _ _ => some (s.id, false)
    | _ => none
  | _ => none

/-- Size and alignment of the type of an object without initialiser. -/
def alignOf (op : Op) : Option (Nat × Nat × Nat) :=
  match op with
  | .symbol s =>
    match s.kind with
    | .tentative size talign _ => some (s.id, size, talign)
    | _ => none
  | _ => none

/-- What has been read is what the object has. -/
structure Same (a : Image) (o : Elf.Obj) : Prop where
  data : a.data = o.data
  rodata : a.rodata = o.rodata
  rel : a.rel = o.dataRel.map fun p => (p.offset, p.sym, p.addend)
  defs : a.defs = (entries o).filterMap defOf
  globals : a.globals = (entries o).filterMap globalOf
  commons : a.commons.map (fun c => (c.1, c.2.1)) = (entries o).filterMap commonOf
  locals : a.locals = (entries o).filterMap localOf
  code : List.Forall₂ Agrees a.code o.items
  labels : (a.labels.map fun l => (l.1, startOf o.items l.2)).Perm (o.labels ++ (entries o).filterMap funcOf)

end Verif.Listing
