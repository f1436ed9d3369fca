import Verif.Elf.Model

/-!
# An object file as plain data

What a sequence of declarations, instructions and data is to become, said without
buffers, pending lists or assertions: contents are lists of bytes, the symbol table is
a list of declarations, the code is a list of instructions at their positions.  Labels
are resolved at once, wherever they are.
-/

namespace Verif.Elf

open Encode (le Code Fix)

/-- A declared symbol: where its name is, its address in its section, its size. -/
structure Decl where
  sym : Sym
  name : Nat
  value : Nat
  size : Nat
  deriving DecidableEq, Repr

/-- An instruction at a position; the flag says that it refers to a label not seen
yet. -/
structure Item where
  pos : Nat
  code : Code
  ahead : Bool
  deriving DecidableEq, Repr

structure Obj where
  strs : List Nat
  data : List Nat
  rodata : List Nat
  bss : Nat
  dataRel : List Pend
  /-- length of the code -/
  len : Nat
  items : List Item
  decls : List Decl
  labels : List (Nat × Nat)
  fn : Option Nat
  noCommon : Bool

/-- Zeros up to a multiple of `a`. -/
def padTo (a n : Nat) : Nat := (a - n % a) % a

def padded (a : Nat) (l : List Nat) : List Nat := l ++ List.replicate (padTo a l.length) 0

def Obj.declare (o : Obj) (s : Sym) (value size : Nat) : Obj :=
  { o with
    strs := o.strs ++ (s.name ++ [0])
    decls := o.decls ++ [⟨s, o.strs.length, value, size⟩] }

def Obj.symbol (o : Obj) (s : Sym) : Obj :=
  match s.kind with
  | .label => { o with labels := o.labels ++ [(s.id, o.len)] }
  | .func defined =>
    { o.declare s (if defined then o.len else 0) 0 with fn := some s.id }
  | .data size align =>
    let d := padded align o.data
    { o.declare s d.length size with data := d }
  | .const bytes align =>
    let d := padded align o.rodata
    { o.declare s d.length bytes.length with rodata := d ++ bytes }
  | .object tentative size align =>
    if s.intern ∨ tentative ∧ o.noCommon then
      let b := o.bss + padTo align o.bss
      { o.declare s b size with bss := b + size }
    else if tentative then o.declare s align size
    else o.declare s 0 0

/-- The label an instruction refers to. -/
def target (c : Code) : Option Nat :=
  match c.fix with
  | [.label l _ _] => some l
  | _ => none

def Obj.labelAt (o : Obj) (l : Nat) : Option Nat := o.labels.lookup l

def Obj.grow (o : Obj) (n : Nat) : List Decl :=
  match o.fn with
  | none => o.decls
  | some k => o.decls.map fun d => if d.sym.id = k then { d with size := d.size + n } else d

def Obj.text (o : Obj) (c : Code) : Obj :=
  { o with
    items := o.items ++ [⟨o.len, c, match target c with
      | some l => (o.labelAt l).isNone
      | none => false⟩]
    len := o.len + c.val.length
    decls := o.grow c.val.length }

def Obj.datum (o : Obj) : Datum → Obj
  | .bytes b => { o with data := o.data ++ b }
  | .addr s disp =>
    { o with
      data := o.data ++ List.replicate 8 0
      dataRel := o.dataRel ++ [⟨s, 1, o.data.length, disp⟩] }

def Obj.step (o : Obj) : Op → Obj
  | .symbol s => o.symbol s
  | .text c => o.text c
  | .data d => o.datum d
  | .endFunction => { o with items := o.items.map fun i => { i with ahead := false } }

def Obj.run (o : Obj) (ops : List Op) : Obj := ops.foldl Obj.step o

/-! ## Contents -/

/-- The bytes of an instruction, given where its label is. -/
def Item.bytes (lab : Nat → Nat) (i : Item) : List Nat :=
  match i.code.fix with
  | [.label l pos a] =>
    poke i.code.val pos (le 4 (a + if i.ahead then 0 else (lab l : Int) - (i.pos + pos : Nat)))
  | _ => i.code.val

/-- The relocations of an instruction. -/
def Item.relocs (i : Item) : List Pend :=
  match i.code.fix with
  | [.reloc ty s pos a] => [⟨s, ty, i.pos + pos, a⟩]
  | _ => []

/-- A place waiting for a label. -/
def Item.waiting (i : Item) : List (Nat × Nat) :=
  match i.code.fix with
  | [.label l pos _] => if i.ahead then [(l, i.pos + pos)] else []
  | _ => []

/-- Symbol types of the ABI: 2 is a function, 1 an object, 0 unknown. -/
def symType (s : Sym) : Nat :=
  match s.kind with
  | .label => 0
  | .func _ => 2
  | .data _ _ => 1
  | .const _ _ => 1
  | .object tentative _ _ => if s.intern ∨ tentative then 1 else 0

/-- The section a symbol belongs to; 0 undefined, FFF2 common. -/
def home (noCommon : Bool) (s : Sym) : Nat :=
  match s.kind with
  | .label => 0
  | .func defined => if defined then 8 else 0
  | .data _ _ => 6
  | .const _ _ => 5
  | .object tentative _ _ =>
    if s.intern ∨ tentative ∧ noCommon then 4 else if tentative then 0xFFF2 else 0

def Decl.ent (noCommon : Bool) (d : Decl) : Ent :=
  ⟨d.name, (if d.sym.intern then 0 else 16) + symType d.sym, home noCommon d.sym, d.value, d.size⟩

def Obj.locals (o : Obj) : List Decl := o.decls.filter (·.sym.intern)
def Obj.globals (o : Obj) : List Decl := o.decls.filter (fun d => !d.sym.intern)

/-- Every symbol that has a number already. -/
def Obj.ids (o : Obj) : List Nat := o.decls.map (·.sym.id) ++ o.labels.map (·.1)

def opIds : List Op → List Nat
  | [] => []
  | .symbol s :: os => s.id :: opIds os
  | _ :: os => opIds os

/-! ## What is asked of the calls -/

/-- An instruction refers to at most one symbol or label, through a field of four bytes
after the opcode, and is not a no-op. -/
structure CodeOk (c : Code) : Prop where
  one : c.fix = [] ∨ (∃ ty s pos a, c.fix = [.reloc ty s pos a]) ∨ ∃ l pos a, c.fix = [.label l pos a]
  room : ∀ l pos a, c.fix = [.label l pos a] → 0 < pos ∧ pos + 4 ≤ c.val.length
  some : c.val ≠ []
  real : c.val.getD 0 0 ≠ 0x90

def alignOk : Kind → Prop
  | .data _ a | .const _ a | .object _ _ a => 0 < a ∧ a ≤ 16
  | _ => True

def OpOk (o : Obj) : Op → Prop
  | .symbol s => s.id ∉ o.ids ∧ 0 ∉ s.name ∧ alignOk s.kind ∧ (s.kind = .label → o.len ≠ 0)
  | .text c => CodeOk c ∧ (∃ d ∈ o.decls, o.fn = some d.sym.id ∧ d.sym.kind = .func true)
    ∧ ∀ l, target c = some l → l ∉ o.decls.map (·.sym.id)
  | .data _ => True
  | .endFunction => ∀ i ∈ o.items, i.ahead = true → ∀ l, target i.code = some l → l ∈ o.labels.map (·.1)

def OpsOk (o : Obj) : List Op → Prop
  | [] => True
  | op :: ops => OpOk o op ∧ OpsOk (o.step op) ops

end Verif.Elf
