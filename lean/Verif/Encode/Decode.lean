import Verif.Tac

/-!
# How a processor reads machine code

A decoder for the part of the 64-bit instruction set the compiler can produce,
written from the Intel 64 manual (volume 2: chapter 2 for prefixes, ModR/M and SIB,
appendix A for the opcode maps) and sharing nothing with the model of the encoder.
General registers are numbered 0 (`rax`) to 15 (`r15`), as in the manual.

An instruction has at most one operand in memory and at most one immediate number
here, so these are kept beside the list of operands, which comes destination first.
-/

namespace Verif.Encode.Intel

/-- What an instruction does. -/
inductive Mn
  | add | or | adc | sbb | and | sub | xor | cmp
  | test | mov | movsx | movzx | lea
  | push | pop | call | jmp | ret | leave
  | not | mul | div | idiv
  | shl | shr | sar
  | cdq | cqo
  /-- one element, or as many as `rcx` says, of so many bytes -/
  | movs (rep : Bool) (w : Nat)
  | jcc (c : Nat) | setcc (c : Nat)
  | addss | addsd | subss | subsd | mulss | mulsd | divss | divsd
  | andps | andnps | orps | cvtps2dq | cvtdq2ps
  | cvtsi2ss | cvtsi2sd | cvtss2sd | cvtsd2ss | cvttss2si | cvttsd2si
  | movaps | movups | movss | movsd | ucomiss | ucomisd | pxor
  /-- `fldconst` loads the constant its operand numbers: 6 is zero -/
  | fld | fild | fstp | fistp | fldconst | fldcw | fnstcw | fxch
  | faddp | fmulp | fsubp | fsubrp | fdivp | fdivrp | fucomip
  deriving DecidableEq, Repr

/-- An operand. -/
inductive Opnd
  /-- a general register, of so many bytes -/
  | gpr (n w : Nat)
  /-- `ah`, `ch`, `dh`, `bh` -/
  | high (n : Nat)
  | xmm (n : Nat)
  /-- a register of the floating-point stack -/
  | st (n : Nat)
  /-- memory of so many bytes, 0 where only the address matters -/
  | mem (w : Nat)
  /-- the immediate number, as a number of so many bytes -/
  | imm (w : Nat)
  /-- a place relative to the end of the instruction -/
  | rel
  deriving DecidableEq, Repr

/-- An address in memory. -/
inductive Mem
  /-- a base, an index with its scale, and a displacement -/
  | sib (base : Option Nat) (index : Option (Nat × Nat)) (disp : Int)
  /-- relative to the end of the instruction -/
  | rip (disp : Int)
  deriving DecidableEq, Repr

/-- A decoded instruction. -/
structure Ins where
  mn : Mn
  ops : List Opnd
  mem : Option Mem
  imm : Option Int
  deriving DecidableEq, Repr

/-! ## Prefixes and opcode -/

structure Head where
  p66 : Bool
  /-- 0, 0xF2 or 0xF3 -/
  rep : Nat
  /-- the low four bits: W R X B -/
  rex : Option Nat
  /-- 0F came first -/
  two : Bool
  op : Nat
  deriving DecidableEq, Repr

def Head.bit (h : Head) (k : Nat) : Bool :=
  match h.rex with
  | some r => r.testBit k
  | none => false

def Head.w (h : Head) : Bool := h.bit 3
def Head.r (h : Head) : Nat := if h.bit 2 then 8 else 0
def Head.x (h : Head) : Nat := if h.bit 1 then 8 else 0
def Head.b (h : Head) : Nat := if h.bit 0 then 8 else 0

/-- The opcode, after prefixes. -/
def opcodeOf (p66 : Bool) (rep : Nat) (rex : Option Nat) : List Nat → Option (Head × List Nat)
  | [] => none
  | b :: l =>
    if b = 0x0F then
      match l with
      | [] => none
      | c :: l => some (⟨p66, rep, rex, true, c⟩, l)
    else some (⟨p66, rep, rex, false, b⟩, l)

/-- Legacy prefixes in any order, then perhaps REX, then the opcode. -/
def decodeHead (p66 : Bool) (rep : Nat) : List Nat → Option (Head × List Nat)
  | [] => none
  | b :: l =>
    if b = 0x66 then decodeHead true rep l
    else if b = 0xF2 ∨ b = 0xF3 then decodeHead p66 b l
    else if 0x40 ≤ b ∧ b ≤ 0x4F then opcodeOf p66 rep (some (b - 0x40)) l
    else opcodeOf p66 rep none (b :: l)

/-! ## ModR/M, SIB, displacement -/

/-- The value of bytes in memory, the least significant first. -/
def value : List Nat → Nat
  | [] => 0
  | b :: l => b + 256 * value l

/-- A number of `n` bytes in two's complement, sign extended. -/
def signed (n : Nat) (l : List Nat) : Option (Int × List Nat) :=
  if l.length < n then none
  else
    let v := value (l.take n)
    some (if 2 * v < 256 ^ n then (v : Int) else (v : Int) - 256 ^ n, l.drop n)

/-- What the ModR/M byte names: a register, or memory with a displacement of so many
bytes still to come. -/
inductive Rm
  | reg (n : Nat)
  | sib (base : Option Nat) (index : Option (Nat × Nat)) (n : Nat)
  | rip
  deriving DecidableEq, Repr

structure ModRm where
  reg : Nat
  rm : Rm
  deriving DecidableEq, Repr

def modrmHead (h : Head) : List Nat → Option (ModRm × List Nat)
  | [] => none
  | m :: l =>
    let mod := m / 64
    let reg := m / 8 % 8 + h.r
    let rm := m % 8
    let n := if mod = 1 then 1 else if mod = 2 then 4 else 0
    if mod = 3 then some (⟨reg, .reg (rm + h.b)⟩, l)
    else if rm = 4 then
      match l with
      | [] => none
      | s :: l =>
        let index := if s / 8 % 8 + h.x = 4 then none else some (s / 8 % 8 + h.x, 2 ^ (s / 64))
        if s % 8 = 5 ∧ mod = 0 then some (⟨reg, .sib none index 4⟩, l)
        else some (⟨reg, .sib (some (s % 8 + h.b)) index n⟩, l)
    else if rm = 5 ∧ mod = 0 then some (⟨reg, .rip⟩, l)
    else some (⟨reg, .sib (some (rm + h.b)) none n⟩, l)

/-- The address, once its displacement is read; nothing for a register. -/
def address : Rm → List Nat → Option (Option Mem × List Nat)
  | .reg _, l => some (none, l)
  | .sib b i n, l => (signed n l).map fun (d, l) => (some (.sib b i d), l)
  | .rip, l => (signed 4 l).map fun (d, l) => (some (.rip d), l)

/-! ## The opcode maps -/

/-- How the size of an operand is found. -/
inductive Sz
  | fixed (n : Nat)
  /-- 8 with REX.W, else 2 with prefix 66, else 4 -/
  | v
  /-- 8 with REX.W, else 4 -/
  | y
  /-- 2 with prefix 66, else 8: operations on the stack -/
  | stk
  deriving DecidableEq, Repr

def Head.size (h : Head) : Sz → Nat
  | .fixed n => n
  | .v => if h.w then 8 else if h.p66 then 2 else 4
  | .y => if h.w then 8 else 4
  | .stk => if h.p66 then 2 else 8

/-- Where an operand is found. -/
inductive Slot
  /-- the register or memory of ModR/M; the general register of ModR/M -/
  | rm (s : Sz) | reg (s : Sz)
  /-- the same with vector registers -/
  | rmx (n : Nat) | regx
  /-- the general register in the low bits of the opcode -/
  | opr (s : Sz)
  | acc (s : Sz)
  | cl
  /-- the stack register of ModR/M -/
  | sti
  /-- an immediate byte, sign extended -/
  | ib (s : Sz)
  /-- an immediate of the size of the operand, but at most 4 bytes, sign extended -/
  | iz (s : Sz)
  /-- an immediate of the size of the operand -/
  | iv (s : Sz)
  | rel8 | rel32
  deriving DecidableEq, Repr

abbrev Form := Mn × List Slot

/-- What an opcode is about. -/
inductive Info
  | plain (f : Form)
  /-- depends on the register field of ModR/M, and on whether memory is named -/
  | modrm (f : Nat → Bool → Option Form)

/-- The eight arithmetic operations, in the order of the opcode map. -/
def alu : Nat → Mn
  | 0 => .add | 1 => .or | 2 => .adc | 3 => .sbb | 4 => .and | 5 => .sub | 6 => .xor | _ => .cmp

def b1 : Sz := .fixed 1

/-- The one-byte opcode map. -/
def map1 (h : Head) : Option Info :=
  let o := h.op
  if o < 0x40 then
    match o % 8 with
    | 0 => some (.modrm fun _ _ => some (alu (o / 8), [.rm b1, .reg b1]))
    | 1 => some (.modrm fun _ _ => some (alu (o / 8), [.rm .v, .reg .v]))
    | 2 => some (.modrm fun _ _ => some (alu (o / 8), [.reg b1, .rm b1]))
    | 3 => some (.modrm fun _ _ => some (alu (o / 8), [.reg .v, .rm .v]))
    | 4 => some (.plain (alu (o / 8), [.acc b1, .ib b1]))
    | 5 => some (.plain (alu (o / 8), [.acc .v, .iz .v]))
    | _ => none
  else if 0x50 ≤ o ∧ o < 0x58 then some (.plain (.push, [.opr .stk]))
  else if 0x58 ≤ o ∧ o < 0x60 then some (.plain (.pop, [.opr .stk]))
  else if 0xB0 ≤ o ∧ o < 0xB8 then some (.plain (.mov, [.opr b1, .ib b1]))
  else if 0xB8 ≤ o ∧ o < 0xC0 then some (.plain (.mov, [.opr .v, .iv .v]))
  else match o with
  | 0x63 => some (.modrm fun _ _ => some (.movsx, [.reg .v, .rm (.fixed 4)]))
  | 0x68 => some (.plain (.push, [.iz .stk]))
  | 0x6A => some (.plain (.push, [.ib .stk]))
  | 0x80 => some (.modrm fun n _ => some (alu n, [.rm b1, .ib b1]))
  | 0x81 => some (.modrm fun n _ => some (alu n, [.rm .v, .iz .v]))
  | 0x83 => some (.modrm fun n _ => some (alu n, [.rm .v, .ib .v]))
  | 0x84 => some (.modrm fun _ _ => some (.test, [.rm b1, .reg b1]))
  | 0x85 => some (.modrm fun _ _ => some (.test, [.rm .v, .reg .v]))
  | 0x88 => some (.modrm fun _ _ => some (.mov, [.rm b1, .reg b1]))
  | 0x89 => some (.modrm fun _ _ => some (.mov, [.rm .v, .reg .v]))
  | 0x8A => some (.modrm fun _ _ => some (.mov, [.reg b1, .rm b1]))
  | 0x8B => some (.modrm fun _ _ => some (.mov, [.reg .v, .rm .v]))
  | 0x8D => some (.modrm fun _ m => if m then some (.lea, [.reg .v, .rm (.fixed 0)]) else none)
  | 0x99 => some (.plain (if h.w then .cqo else .cdq, []))
  | 0xA4 => some (.plain (.movs (h.rep == 0xF3) 1, []))
  | 0xA5 => some (.plain (.movs (h.rep == 0xF3) (h.size .v), []))
  | 0xC0 => some (.modrm fun n _ => shift n [.rm b1, .ib b1])
  | 0xC1 => some (.modrm fun n _ => shift n [.rm .v, .ib b1])
  | 0xC3 => some (.plain (.ret, []))
  | 0xC6 => some (.modrm fun n _ => if n = 0 then some (.mov, [.rm b1, .ib b1]) else none)
  | 0xC7 => some (.modrm fun n _ => if n = 0 then some (.mov, [.rm .v, .iz .v]) else none)
  | 0xC9 => some (.plain (.leave, []))
  | 0xD2 => some (.modrm fun n _ => shift n [.rm b1, .cl])
  | 0xD3 => some (.modrm fun n _ => shift n [.rm .v, .cl])
  | 0xD9 => some (.modrm fun n m =>
      if m then
        match n with
        | 0 => some (.fld, [.rm (.fixed 4)])
        | 3 => some (.fstp, [.rm (.fixed 4)])
        | 5 => some (.fldcw, [.rm (.fixed 2)])
        | 7 => some (.fnstcw, [.rm (.fixed 2)])
        | _ => none
      else
        match n with
        | 0 => some (.fld, [.sti])
        | 1 => some (.fxch, [.sti])
        | 5 => some (.fldconst, [.sti])
        | _ => none)
  | 0xDB => some (.modrm fun n m =>
      if m then
        match n with
        | 0 => some (.fild, [.rm (.fixed 4)])
        | 3 => some (.fistp, [.rm (.fixed 4)])
        | 5 => some (.fld, [.rm (.fixed 10)])
        | 7 => some (.fstp, [.rm (.fixed 10)])
        | _ => none
      else none)
  | 0xDD => some (.modrm fun n m =>
      if m then
        match n with
        | 0 => some (.fld, [.rm (.fixed 8)])
        | 3 => some (.fstp, [.rm (.fixed 8)])
        | _ => none
      else if n = 3 then some (.fstp, [.sti]) else none)
  | 0xDE => some (.modrm fun n m =>
      if m then none
      else
        match n with
        | 0 => some (.faddp, [.sti])
        | 1 => some (.fmulp, [.sti])
        | 4 => some (.fsubrp, [.sti])
        | 5 => some (.fsubp, [.sti])
        | 6 => some (.fdivrp, [.sti])
        | 7 => some (.fdivp, [.sti])
        | _ => none)
  | 0xDF => some (.modrm fun n m =>
      if m then
        match n with
        | 0 => some (.fild, [.rm (.fixed 2)])
        | 3 => some (.fistp, [.rm (.fixed 2)])
        | 5 => some (.fild, [.rm (.fixed 8)])
        | 7 => some (.fistp, [.rm (.fixed 8)])
        | _ => none
      else if n = 5 then some (.fucomip, [.sti]) else none)
  | 0xE8 => some (.plain (.call, [.rel32]))
  | 0xE9 => some (.plain (.jmp, [.rel32]))
  | 0xEB => some (.plain (.jmp, [.rel8]))
  | 0xF6 => some (.modrm fun n _ =>
      if n = 0 then some (.test, [.rm b1, .ib b1]) else unary n [.rm b1])
  | 0xF7 => some (.modrm fun n _ =>
      if n = 0 then some (.test, [.rm .v, .iz .v]) else unary n [.rm .v])
  | 0xFF => some (.modrm fun n _ =>
      match n with
      | 2 => some (.call, [.rm (.fixed 8)])
      | 4 => some (.jmp, [.rm (.fixed 8)])
      | 6 => some (.push, [.rm .stk])
      | _ => none)
  | _ => none
where
  shift (n : Nat) (s : List Slot) : Option Form :=
    match n with
    | 4 => some (.shl, s)
    | 5 => some (.shr, s)
    | 7 => some (.sar, s)
    | _ => none
  unary (n : Nat) (s : List Slot) : Option Form :=
    match n with
    | 2 => some (.not, s)
    | 4 => some (.mul, s)
    | 6 => some (.div, s)
    | 7 => some (.idiv, s)
    | _ => none

/-- A vector instruction chosen by its mandatory prefix: none, 66, F3, F2. -/
def byPrefix (h : Head) (np p66 f3 f2 : Option Form) : Option Info :=
  let f := if h.rep = 0xF3 then f3 else if h.rep = 0xF2 then f2 else if h.p66 then p66 else np
  f.map fun f => .modrm fun _ _ => some f

/-- The two-byte opcode map. -/
def map2 (h : Head) : Option Info :=
  let o := h.op
  if 0x80 ≤ o ∧ o < 0x90 then some (.plain (.jcc (o - 0x80), [.rel32]))
  else if 0x90 ≤ o ∧ o < 0xA0 then
    some (.modrm fun _ _ => some (.setcc (o - 0x90), [.rm b1]))
  else match o with
  | 0x10 => byPrefix h (some (.movups, [.regx, .rmx 16])) none
      (some (.movss, [.regx, .rmx 4])) (some (.movsd, [.regx, .rmx 8]))
  | 0x11 => byPrefix h (some (.movups, [.rmx 16, .regx])) none
      (some (.movss, [.rmx 4, .regx])) (some (.movsd, [.rmx 8, .regx]))
  | 0x28 => byPrefix h (some (.movaps, [.regx, .rmx 16])) none none none
  | 0x29 => byPrefix h (some (.movaps, [.rmx 16, .regx])) none none none
  | 0x2A => byPrefix h none none
      (some (.cvtsi2ss, [.regx, .rm .y])) (some (.cvtsi2sd, [.regx, .rm .y]))
  | 0x2C => byPrefix h none none
      (some (.cvttss2si, [.reg .y, .rmx 4])) (some (.cvttsd2si, [.reg .y, .rmx 8]))
  | 0x2E => byPrefix h (some (.ucomiss, [.regx, .rmx 4])) (some (.ucomisd, [.regx, .rmx 8])) none none
  | 0x54 => byPrefix h (some (.andps, [.regx, .rmx 16])) none none none
  | 0x55 => byPrefix h (some (.andnps, [.regx, .rmx 16])) none none none
  | 0x56 => byPrefix h (some (.orps, [.regx, .rmx 16])) none none none
  | 0x58 => byPrefix h none none (some (.addss, [.regx, .rmx 4])) (some (.addsd, [.regx, .rmx 8]))
  | 0x59 => byPrefix h none none (some (.mulss, [.regx, .rmx 4])) (some (.mulsd, [.regx, .rmx 8]))
  | 0x5A => byPrefix h none none
      (some (.cvtss2sd, [.regx, .rmx 4])) (some (.cvtsd2ss, [.regx, .rmx 8]))
  | 0x5B => byPrefix h (some (.cvtdq2ps, [.regx, .rmx 16])) (some (.cvtps2dq, [.regx, .rmx 16]))
      none none
  | 0x5C => byPrefix h none none (some (.subss, [.regx, .rmx 4])) (some (.subsd, [.regx, .rmx 8]))
  | 0x5E => byPrefix h none none (some (.divss, [.regx, .rmx 4])) (some (.divsd, [.regx, .rmx 8]))
  | 0xB6 => some (.modrm fun _ _ => some (.movzx, [.reg .v, .rm b1]))
  | 0xB7 => some (.modrm fun _ _ => some (.movzx, [.reg .v, .rm (.fixed 2)]))
  | 0xBE => some (.modrm fun _ _ => some (.movsx, [.reg .v, .rm b1]))
  | 0xBF => some (.modrm fun _ _ => some (.movsx, [.reg .v, .rm (.fixed 2)]))
  | 0xEF => byPrefix h none (some (.pxor, [.regx, .rmx 16])) none none
  | _ => none

def info (h : Head) : Option Info := if h.two then map2 h else map1 h

/-! ## Operands -/

/-- A general register; without REX, the byte registers 4 to 7 are the high halves. -/
def gpr (h : Head) (n w : Nat) : Opnd :=
  if w = 1 ∧ h.rex = none ∧ 4 ≤ n ∧ n < 8 then .high (n - 4) else .gpr n w

/-- The size an immediate occupies. -/
def Slot.immBytes (h : Head) : Slot → Nat
  | .ib _ | .rel8 => 1
  | .iz s => if h.size s = 2 then 2 else 4
  | .iv s => h.size s
  | .rel32 => 4
  | _ => 0

/-- The operand in a place. -/
def Slot.operand (h : Head) (m : ModRm) : Slot → Opnd
  | .rm s =>
    match m.rm with
    | .reg n => gpr h n (h.size s)
    | _ => .mem (h.size s)
  | .reg s => gpr h m.reg (h.size s)
  | .rmx n =>
    match m.rm with
    | .reg r => .xmm r
    | _ => .mem n
  | .regx => .xmm m.reg
  | .opr s => gpr h (h.op % 8 + h.b) (h.size s)
  | .acc s => .gpr 0 (h.size s)
  | .cl => .gpr 1 1
  | .sti =>
    match m.rm with
    | .reg n => .st (n % 8)
    | _ => .mem 0
  | .ib s | .iz s | .iv s => .imm (h.size s)
  | .rel8 | .rel32 => .rel

def immBytes (h : Head) (s : List Slot) : Nat := (s.map (Slot.immBytes h)).sum

/-- The immediate, last in the instruction. -/
def immediate (n : Nat) (l : List Nat) : Option (Option Int × List Nat) :=
  if n = 0 then some (none, l) else (signed n l).map fun (v, l) => (some v, l)

/-- One instruction, and what follows. -/
def decode (l : List Nat) : Option (Ins × List Nat) :=
  match decodeHead false 0 l with
  | none => none
  | some (h, l) =>
    match info h with
    | none => none
    | some (.plain (mn, s)) =>
      match immediate (immBytes h s) l with
      | none => none
      | some (v, l) => some (⟨mn, s.map (Slot.operand h ⟨0, .reg 0⟩), none, v⟩, l)
    | some (.modrm f) =>
      match modrmHead h l with
      | none => none
      | some (m, l) =>
        match address m.rm l with
        | none => none
        | some (a, l) =>
          match f (m.reg % 8) a.isSome with
          | none => none
          | some (mn, s) =>
            match immediate (immBytes h s) l with
            | none => none
            | some (v, l) => some (⟨mn, s.map (Slot.operand h m), a, v⟩, l)

end Verif.Encode.Intel
