import Verif.Tac

/-!
# Instruction encoding

Model of src/backend/x86_64/encoding.c.

* Bytes are natural numbers; `Code.val` is `val[0 .. len)`.  The size of the buffer
  is a theorem (C44), not part of the model.
* A register is the number given in src/backend/x86_64/encoding.h:12-48, from 1 for
  `%rax`; 0 means no register.
* The union of an integer immediate is its 64-bit pattern, read as a signed number.
* The operands of an instruction are one of nine shapes (`Ops`) instead of a tag
  and two unions.  The second operand of a one-operand instruction has width 0, as
  the constructors in src/backend/x86_64/compile.c leave it.
* `none` is a failed assertion, or `error ("Unsupported instruction.")`.
* Relocations and references to labels are collected in `Code.fix` instead of being
  handed to src/backend/x86_64/elf.c; the four bytes they are about are zero.
-/

namespace Verif.Encode

/-! ## src/backend/x86_64/encoding.h:115-190, `enum opcode`: the row of the table
where an instruction starts. -/

@[match_pattern] abbrev oADD : Nat := 0
@[match_pattern] abbrev oAND : Nat := 2
@[match_pattern] abbrev oCALL : Nat := 5
@[match_pattern] abbrev oCMP : Nat := 7
@[match_pattern] abbrev oCxy : Nat := 10
@[match_pattern] abbrev oDIV : Nat := 12
@[match_pattern] abbrev oIDIV : Nat := 13
@[match_pattern] abbrev oJcc : Nat := 14
@[match_pattern] abbrev oJMP : Nat := 15
@[match_pattern] abbrev oLEA : Nat := 16
@[match_pattern] abbrev oLEAVE : Nat := 17
@[match_pattern] abbrev oMOV : Nat := 18
@[match_pattern] abbrev oMOV_STR : Nat := 23
@[match_pattern] abbrev oMOVSX : Nat := 24
@[match_pattern] abbrev oMOVZX : Nat := 26
@[match_pattern] abbrev oMUL : Nat := 28
@[match_pattern] abbrev oNOT : Nat := 29
@[match_pattern] abbrev oOR : Nat := 30
@[match_pattern] abbrev oPOP : Nat := 32
@[match_pattern] abbrev oPUSH : Nat := 33
@[match_pattern] abbrev oRET : Nat := 36
@[match_pattern] abbrev oSAR : Nat := 37
@[match_pattern] abbrev oSETcc : Nat := 39
@[match_pattern] abbrev oSHL : Nat := 40
@[match_pattern] abbrev oSHR : Nat := 42
@[match_pattern] abbrev oSUB : Nat := 44
@[match_pattern] abbrev oTEST : Nat := 46
@[match_pattern] abbrev oXOR : Nat := 48
@[match_pattern] abbrev oADDS : Nat := 50
@[match_pattern] abbrev oANDNPS : Nat := 52
@[match_pattern] abbrev oANDPS : Nat := 53
@[match_pattern] abbrev oCVTPS2DQ : Nat := 54
@[match_pattern] abbrev oCVTDQ2PS : Nat := 55
@[match_pattern] abbrev oCVTSI2S : Nat := 56
@[match_pattern] abbrev oCVTS2S : Nat := 58
@[match_pattern] abbrev oCVTTS2SI : Nat := 60
@[match_pattern] abbrev oDIVS : Nat := 62
@[match_pattern] abbrev oMULS : Nat := 64
@[match_pattern] abbrev oORPS : Nat := 66
@[match_pattern] abbrev oSUBS : Nat := 67
@[match_pattern] abbrev oMOVAP : Nat := 69
@[match_pattern] abbrev oMOVS : Nat := 71
/-- `movups`: the rows to and from a vector register are separate, as they do not say
which instruction they belong to. -/
@[match_pattern] abbrev oMOVUPS : Nat := 75
@[match_pattern] abbrev oMOVUPS_ST : Nat := 76
@[match_pattern] abbrev oUCOMIS : Nat := 77
@[match_pattern] abbrev oPXOR : Nat := 79
@[match_pattern] abbrev oFADDP : Nat := 80
@[match_pattern] abbrev oFDIVRP : Nat := 81
@[match_pattern] abbrev oFILD : Nat := 82
@[match_pattern] abbrev oFISTP : Nat := 85
@[match_pattern] abbrev oFLD : Nat := 88
@[match_pattern] abbrev oFLDZ : Nat := 92
@[match_pattern] abbrev oFLDCW : Nat := 93
@[match_pattern] abbrev oFMULP : Nat := 94
@[match_pattern] abbrev oFNSTCW : Nat := 95
@[match_pattern] abbrev oFSTP : Nat := 96
@[match_pattern] abbrev oFSUBRP : Nat := 100
@[match_pattern] abbrev oFUCOMIP : Nat := 101
@[match_pattern] abbrev oFXCH : Nat := 102

@[match_pattern] abbrev AX : Nat := 1
@[match_pattern] abbrev CX : Nat := 2
@[match_pattern] abbrev SP : Nat := 5
@[match_pattern] abbrev BP : Nat := 6
@[match_pattern] abbrev SI : Nat := 7
@[match_pattern] abbrev DI : Nat := 8

/-- `ADDR_NORMAL`, `ADDR_GLOBAL_OFFSET`, `ADDR_PLT`. -/
inductive AType
  | normal
  | got
  | plt
  deriving DecidableEq, Repr

/-- src/backend/x86_64/encoding.h:74-90, `struct address`. -/
structure Addr where
  sym : Option (AType × Nat)
  disp : Int
  base : Nat
  index : Nat
  scale : Nat
  deriving DecidableEq, Repr

/-- src/backend/x86_64/encoding.h:97-113, `struct immediate`, without strings. -/
inductive ImmVal
  | int (q : Int)
  | addr (a : Addr)
  deriving DecidableEq, Repr

structure Imm where
  width : Nat
  val : ImmVal
  deriving DecidableEq, Repr

/-- `optype`, `source` and `dest` of src/backend/x86_64/encoding.h:213-238. -/
inductive Ops
  | none (w : Nat)
  | imm (i : Imm)
  | reg (w r : Nat)
  | mem (w : Nat) (a : Addr)
  | regReg (ws a w b : Nat)
  | regMem (ws r w : Nat) (a : Addr)
  | memReg (ws : Nat) (a : Addr) (w r : Nat)
  | immReg (i : Imm) (w r : Nat)
  | immMem (i : Imm) (w : Nat) (a : Addr)
  deriving DecidableEq, Repr

/-- src/backend/x86_64/encoding.h:213-238, `struct instruction`. -/
structure Instr where
  opcode : Nat
  cc : Nat
  pfx : Nat
  ops : Ops
  deriving DecidableEq, Repr

/-- src/backend/x86_64/encoding.c:79-127, `struct encoding`. -/
structure Enc where
  opc : Nat
  mnemonic : String
  suffix : Bool
  pfx : List Nat
  opcode : List Nat
  opextra : Nat
  modrm : Nat
  optype : Nat
  w0 : Nat
  impl0 : Nat
  w1 : Nat
  impl1 : Nat
  reverse : Bool
  dword : Bool
  deriving DecidableEq, Repr

/-- src/backend/x86_64/encoding.c:128-292, `encodings`. -/
def encodings : List Enc := [
  ⟨0, "add", true, [], [0x00], 5, 0x00, 56, 0, 0, 0, 0, false, false⟩,
  ⟨0, "add", true, [], [0x80], 3, 0x00, 192, 0, 0, 0, 0, false, true⟩,
  ⟨2, "and", false, [], [0x20], 5, 0x00, 56, 0, 0, 0, 0, false, false⟩,
  ⟨2, "and", false, [], [0x24], 1, 0x00, 64, 0, 0, 0, 2, false, true⟩,
  ⟨2, "and", false, [], [0x80], 3, 0x20, 192, 0, 0, 0, 0, false, true⟩,
  ⟨5, "call", false, [], [0xE8], 0, 0x00, 1, 8, 0, 0, 0, false, false⟩,
  ⟨5, "call", true, [], [0xFF], 0, 0x10, 6, 8, 0, 0, 0, false, false⟩,
  ⟨7, "cmp", false, [], [0x38], 5, 0x00, 56, 0, 0, 0, 0, false, false⟩,
  ⟨7, "cmp", false, [], [0x3C], 1, 0x00, 64, 7, 0, 7, 2, false, false⟩,
  ⟨7, "cmp", false, [], [0x80], 3, 0x38, 192, 0, 0, 0, 0, false, false⟩,
  ⟨10, "cdq", false, [], [0x99], 0, 0x00, 0, 4, 0, 0, 0, false, false⟩,
  ⟨10, "cqo", false, [], [0x99], 0, 0x00, 0, 8, 0, 0, 0, false, false⟩,
  ⟨12, "div", false, [], [0xF6], 1, 0x30, 6, 0, 0, 0, 0, false, false⟩,
  ⟨13, "idiv", false, [], [0xF6], 1, 0x38, 6, 0, 0, 0, 0, false, false⟩,
  ⟨14, "j", false, [], [0x0F, 0x80], 8, 0x00, 1, 8, 0, 0, 0, false, true⟩,
  ⟨15, "jmp", false, [], [0xE9], 2, 0x00, 1, 8, 0, 0, 0, false, true⟩,
  ⟨16, "lea", true, [], [0x8D], 0, 0x00, 32, 8, 0, 8, 0, false, false⟩,
  ⟨17, "leave", false, [], [0xC9], 0, 0x00, 0, 0, 0, 0, 0, false, false⟩,
  ⟨18, "mov", true, [], [0x88], 5, 0x00, 56, 0, 0, 0, 0, false, false⟩,
  ⟨18, "mov", true, [], [0xB8], 17, 0x00, 64, 7, 0, 7, 0, false, false⟩,
  ⟨18, "mov", true, [], [0xC6], 1, 0x00, 64, 0, 0, 0, 0, false, true⟩,
  ⟨18, "movq", false, [], [0xB8], 17, 0x00, 64, 8, 0, 8, 0, false, false⟩,
  ⟨18, "mov", true, [], [0xC6], 1, 0x00, 128, 0, 0, 0, 0, false, true⟩,
  ⟨23, "movs", false, [], [0xA4], 1, 0x00, 0, 0, 0, 0, 0, false, false⟩,
  ⟨24, "movslq", false, [], [0x63], 0, 0x00, 40, 4, 0, 8, 0, true, false⟩,
  ⟨24, "movs", false, [], [0x0F, 0xBE], 1, 0x00, 40, 3, 0, 12, 0, true, false⟩,
  ⟨26, "movzlq", false, [], [0x0F, 0xB7], 0, 0x00, 40, 4, 0, 8, 0, true, false⟩,
  ⟨26, "movz", false, [], [0x0F, 0xB6], 1, 0x00, 40, 3, 0, 12, 0, true, false⟩,
  ⟨28, "mul", false, [], [0xF6], 1, 0x20, 6, 0, 0, 0, 0, false, false⟩,
  ⟨29, "not", false, [], [0xF6], 1, 0x10, 6, 0, 0, 0, 0, false, false⟩,
  ⟨30, "or", false, [], [0x08], 5, 0x00, 56, 0, 0, 0, 0, false, false⟩,
  ⟨30, "or", false, [], [0x80], 3, 0x08, 192, 0, 0, 0, 0, false, true⟩,
  ⟨32, "pop", false, [], [0x58], 16, 0x00, 2, 8, 0, 0, 0, false, false⟩,
  ⟨33, "push", false, [], [0x50], 16, 0x00, 2, 8, 0, 0, 0, false, false⟩,
  ⟨33, "push", false, [], [0x68], 0, 0x00, 1, 8, 0, 0, 0, false, true⟩,
  ⟨33, "push", false, [], [0xFF], 0, 0x30, 4, 8, 0, 0, 0, false, false⟩,
  ⟨36, "ret", false, [], [0xC3], 0, 0x00, 0, 0, 0, 0, 0, false, false⟩,
  ⟨37, "sar", false, [], [0xC0], 1, 0xF8, 64, 1, 0, 0, 0, false, false⟩,
  ⟨37, "sar", false, [], [0xD2], 1, 0xF8, 8, 1, 1, 0, 0, false, false⟩,
  ⟨39, "set", false, [], [0x0F, 0x90], 8, 0xC0, 2, 1, 0, 0, 0, false, false⟩,
  ⟨40, "shl", false, [], [0xC0], 1, 0xE0, 64, 1, 0, 0, 0, false, false⟩,
  ⟨40, "shl", false, [], [0xD2], 1, 0xE0, 8, 1, 1, 0, 0, false, false⟩,
  ⟨42, "shr", false, [], [0xC0], 1, 0xE8, 64, 1, 0, 0, 0, false, false⟩,
  ⟨42, "shr", false, [], [0xD2], 1, 0xE8, 8, 1, 1, 0, 0, false, false⟩,
  ⟨44, "sub", false, [], [0x28], 3, 0x00, 56, 0, 0, 0, 0, false, false⟩,
  ⟨44, "sub", false, [], [0x80], 3, 0x28, 192, 0, 0, 0, 0, false, true⟩,
  ⟨46, "test", false, [], [0x84], 1, 0x00, 56, 0, 0, 0, 0, false, false⟩,
  ⟨46, "test", false, [], [0xF6], 1, 0xC0, 64, 0, 0, 0, 0, false, false⟩,
  ⟨48, "xor", false, [], [0x30], 5, 0x00, 56, 0, 0, 0, 0, false, false⟩,
  ⟨48, "xor", false, [], [0x80], 3, 0xF0, 192, 0, 0, 0, 0, false, true⟩,
  ⟨50, "addss", false, [0xF3], [0x0F, 0x58], 0, 0x00, 40, 4, 0, 4, 0, true, false⟩,
  ⟨50, "addsd", false, [0xF2], [0x0F, 0x58], 0, 0x00, 40, 8, 0, 8, 0, true, false⟩,
  ⟨0, "andnps", false, [], [0x0F, 0x55], 0, 0x00, 40, 4, 0, 4, 0, true, false⟩,
  ⟨0, "andps", false, [], [0x0F, 0x54], 0, 0x00, 40, 4, 0, 4, 0, true, false⟩,
  ⟨0, "cvtps2dq", false, [0x66], [0x0F, 0x5B], 0, 0x00, 40, 4, 0, 4, 0, true, false⟩,
  ⟨0, "cvtdq2ps", false, [], [0x0F, 0x5B], 0, 0x00, 40, 4, 0, 4, 0, true, false⟩,
  ⟨56, "cvtsi2ss", false, [0xF3], [0x0F, 0x2A], 0, 0x00, 40, 12, 0, 4, 0, true, false⟩,
  ⟨56, "cvtsi2sd", false, [0xF2], [0x0F, 0x2A], 0, 0x00, 40, 12, 0, 8, 0, true, false⟩,
  ⟨58, "cvtss2sd", false, [0xF3], [0x0F, 0x5A], 0, 0x00, 40, 4, 0, 8, 0, true, false⟩,
  ⟨58, "cvtsd2ss", false, [0xF2], [0x0F, 0x5A], 0, 0x00, 40, 8, 0, 4, 0, true, false⟩,
  ⟨60, "cvttss2si", false, [0xF3], [0x0F, 0x2C], 0, 0x00, 40, 4, 0, 12, 0, true, false⟩,
  ⟨60, "cvttsd2si", false, [0xF2], [0x0F, 0x2C], 0, 0x00, 40, 8, 0, 12, 0, true, false⟩,
  ⟨62, "divss", false, [0xF3], [0x0F, 0x5E], 0, 0x00, 40, 4, 0, 4, 0, true, false⟩,
  ⟨62, "divsd", false, [0xF2], [0x0F, 0x5E], 0, 0x00, 40, 8, 0, 8, 0, true, false⟩,
  ⟨64, "mulss", false, [0xF3], [0x0F, 0x59], 0, 0x00, 40, 4, 0, 4, 0, true, false⟩,
  ⟨64, "mulsd", false, [0xF2], [0x0F, 0x59], 0, 0x00, 40, 8, 0, 8, 0, true, false⟩,
  ⟨0, "orps", false, [], [0x0F, 0x56], 0, 0x00, 40, 4, 0, 4, 0, true, false⟩,
  ⟨67, "subss", false, [0xF3], [0x0F, 0x5C], 0, 0x00, 40, 4, 0, 4, 0, true, false⟩,
  ⟨67, "subsd", false, [0xF2], [0x0F, 0x5C], 0, 0x00, 40, 8, 0, 8, 0, true, false⟩,
  ⟨69, "movaps", false, [], [0x0F, 0x28], 0, 0x00, 40, 4, 0, 4, 0, true, false⟩,
  ⟨69, "movaps", false, [], [0x0F, 0x29], 0, 0x00, 16, 4, 0, 4, 0, false, false⟩,
  ⟨71, "movss", false, [0xF3], [0x0F, 0x10], 0, 0x00, 40, 4, 0, 4, 0, true, false⟩,
  ⟨71, "movss", false, [0xF3], [0x0F, 0x11], 0, 0x00, 16, 4, 0, 4, 0, false, false⟩,
  ⟨71, "movsd", false, [0xF2], [0x0F, 0x10], 0, 0x00, 40, 8, 0, 8, 0, true, false⟩,
  ⟨71, "movsd", false, [0xF2], [0x0F, 0x11], 0, 0x00, 16, 8, 0, 8, 0, false, false⟩,
  ⟨0, "movups", false, [], [0x0F, 0x10], 0, 0x00, 40, 4, 0, 4, 0, true, false⟩,
  ⟨0, "movups", false, [], [0x0F, 0x11], 0, 0x00, 16, 4, 0, 4, 0, false, false⟩,
  ⟨77, "ucomiss", false, [], [0x0F, 0x2E], 0, 0x00, 40, 4, 0, 4, 0, true, false⟩,
  ⟨77, "ucomisd", false, [0x66], [0x0F, 0x2E], 0, 0x00, 40, 8, 0, 8, 0, true, false⟩,
  ⟨79, "pxor", false, [0x66], [0x0F, 0xEF], 0, 0x00, 40, 8, 0, 8, 0, true, false⟩,
  ⟨80, "faddp", false, [], [0xDE], 0, 0x00, 2, 0, 0, 0, 0, false, false⟩,
  ⟨81, "fdivrp", false, [], [0xDE], 0, 0x38, 2, 0, 0, 0, 0, false, false⟩,
  ⟨82, "filds", false, [], [0xDF], 0, 0x00, 4, 2, 0, 2, 0, false, false⟩,
  ⟨82, "fildl", false, [], [0xDB], 0, 0x00, 4, 4, 0, 4, 0, false, false⟩,
  ⟨82, "fildq", false, [], [0xDF], 0, 0x28, 4, 8, 0, 8, 0, false, false⟩,
  ⟨85, "fistps", false, [], [0xDF], 0, 0x18, 4, 2, 0, 2, 0, false, false⟩,
  ⟨85, "fistpl", false, [], [0xDB], 0, 0x18, 4, 4, 0, 4, 0, false, false⟩,
  ⟨85, "fistpq", false, [], [0xDF], 0, 0x38, 4, 8, 0, 8, 0, false, false⟩,
  ⟨88, "flds", false, [], [0xD9], 0, 0x00, 4, 4, 0, 4, 0, false, false⟩,
  ⟨88, "fldl", false, [], [0xDD], 0, 0x00, 4, 8, 0, 8, 0, false, false⟩,
  ⟨88, "fldt", false, [], [0xDB], 0, 0x28, 4, 0, 0, 0, 0, false, false⟩,
  ⟨88, "fld", false, [], [0xD9], 0, 0x00, 2, 0, 0, 0, 0, false, false⟩,
  ⟨92, "fldz", false, [], [0xD9, 0xEE], 0, 0x00, 0, 0, 0, 0, 0, false, false⟩,
  ⟨93, "fldcw", false, [], [0xD9], 0, 0x28, 4, 0, 0, 0, 0, false, false⟩,
  ⟨94, "fmulp", false, [], [0xDE], 0, 0x08, 2, 0, 0, 0, 0, false, false⟩,
  ⟨95, "fnstcw", false, [], [0xD9], 0, 0x38, 4, 0, 0, 0, 0, false, false⟩,
  ⟨96, "fstps", false, [], [0xD9], 0, 0x18, 4, 4, 0, 8, 0, false, false⟩,
  ⟨96, "fstpl", false, [], [0xDD], 0, 0x18, 4, 8, 0, 8, 0, false, false⟩,
  ⟨96, "fstpt", false, [], [0xDB], 0, 0x38, 4, 0, 0, 0, 0, false, false⟩,
  ⟨96, "fstp", false, [], [0xDD], 0, 0x18, 2, 0, 0, 0, 0, false, false⟩,
  ⟨100, "fsubrp", false, [], [0xDE], 0, 0x28, 2, 0, 0, 0, 0, false, false⟩,
  ⟨101, "fucomip", false, [], [0xDF], 0, 0x28, 2, 0, 0, 0, 0, false, false⟩,
  ⟨102, "fxch", false, [], [0xD9], 0, 0x08, 2, 0, 0, 0, 0, false, false⟩
]

/-- A place in the code to be filled in later. -/
inductive Fix
  /-- `elf_add_relocation`: type, symbol, offset into the instruction, addend -/
  | reloc (type : Nat) (sym pos : Nat) (addend : Int)
  /-- `elf_text_displacement`: label, offset into the instruction, addend -/
  | label (sym pos : Nat) (addend : Int)
  deriving DecidableEq, Repr

structure Code where
  val : List Nat
  fix : List Fix
  deriving DecidableEq, Repr

/-- `c->val[c->len++] = b`, several times. -/
def Code.push (c : Code) (bs : List Nat) : Code := { c with val := c.val ++ bs }

/-- `c->val[c->len - k] |= v`. -/
def Code.orBack (c : Code) (k v : Nat) : Code :=
  { c with val := c.val.modify (c.val.length - k) (· ||| v) }

def flag (b : Bool) (v : Nat) : Nat := if b then v else 0

/-- src/backend/x86_64/encoding.c:14, `reg3`. -/
def reg3 (r : Nat) : Nat := (r + 7) % 8

/-- src/backend/x86_64/encoding.c:15-16, `is_64_bit_reg`. -/
def is64 (r : Nat) : Bool := (9 ≤ r && r ≤ 16) || (25 ≤ r && r ≤ 32)

/-- src/backend/x86_64/encoding.c:18-19. -/
def inByteRange (x : Int) : Bool := -128 ≤ x && x ≤ 127
def in32BitRange (x : Int) : Bool := -2147483648 ≤ x && x ≤ 2147483647

/-- src/backend/x86_64/encoding.c:29-37. -/
def REX : Nat := 0x40
def rexW (w : Nat) : Nat := flag (w == 8) 8
def rexR (r : Nat) : Nat := flag (is64 r) 4
def rexX (a : Addr) : Nat := flag (is64 a.index) 2
def rexB (r : Nat) : Nat := flag (is64 r) 1
def enableRexW (op : Nat) : Bool := op ≤ oXOR || op == oCVTTS2SI || op == oCVTSI2S

/-- The tests of `opextra`, src/backend/x86_64/encoding.c:53-63. -/
def Enc.opxW (e : Enc) : Bool := e.opextra &&& 1 == 1
def Enc.opxS (e : Enc) : Bool := e.opextra &&& 2 == 2
def Enc.opxD (e : Enc) : Bool := e.opextra &&& 4 == 4
def Enc.opxTttn (e : Enc) : Bool := e.opextra &&& 8 == 8
def Enc.opxReg (e : Enc) : Bool := e.opextra &&& 16 == 16

/-- The low `n` bytes of a number, least significant first. -/
def le : Nat → Int → List Nat
  | 0, _ => []
  | n + 1, x => (x % 256).toNat :: le n (x / 256)

/-- src/backend/x86_64/encoding.c:295-350, `encode_modrm_sib_disp`: the bytes. -/
def modrmSibDisp (reg : Nat) (a : Addr) : Option (List Nat) :=
  if a.sym.isSome then none
  else if ¬ (a.base ≠ 0 ∨ a.disp = 0) then none
  else if ¬ (a.scale = 0 ∨ a.scale = 1 ∨ a.scale = 2 ∨ a.scale = 4 ∨ a.scale = 8) then none
  else
    let hasSib : Bool := a.index ≠ 0 || a.base = 0 || reg3 a.base = reg3 SP || a.scale > 1
    let hasDisp : Bool := a.base = 0 || a.disp ≠ 0 || reg3 a.base = reg3 BP
    let modrm := (reg % 8) * 8 ||| (if hasSib then 4 else reg3 a.base)
    let modrm :=
      if !inByteRange a.disp then modrm ||| 0x80
      else if hasDisp && a.base ≠ 0 then modrm ||| 0x40
      else modrm
    let sib :=
      if hasSib then
        [((if a.index ≠ 0 then reg3 a.index else reg3 SP) * 8
          ||| (if a.scale = 2 then 1 else if a.scale = 4 then 2 else if a.scale = 8 then 3 else 0) * 64)
          ||| (if a.base ≠ 0 then reg3 a.base else 5)]
      else []
    let disp :=
      if !inByteRange a.disp || a.base = 0 then le 4 a.disp
      else if hasDisp then le 1 a.disp
      else []
    some (modrm :: (sib ++ disp))

/-- `R_X86_64_PC32`, `R_X86_64_PLT32`, `R_X86_64_GOTPCREL`. -/
abbrev relPC32 : Nat := 2
abbrev relPLT32 : Nat := 4
abbrev relGOTPCREL : Nat := 9

/-- src/backend/x86_64/encoding.c:360-386, `encode_address`; also returns the number
of bytes. -/
def encodeAddress (c : Code) (reg : Nat) (a : Addr) (addend : Nat) : Option (Code × Nat) :=
  match a.sym with
  | some (t, s) =>
    let c := c.push [(reg % 8) * 8 ||| 5]
    match t with
    | .plt => none
    | _ =>
      let rel := if t = .got then relGOTPCREL else relPC32
      some (⟨c.val ++ [0, 0, 0, 0], c.fix ++ [.reloc rel s c.val.length (a.disp - addend)]⟩, 5)
  | none =>
    match modrmSibDisp reg a with
    | none => none
    | some bs => some (c.push bs, bs.length)

/-- src/backend/x86_64/encoding.c:392-404, `default_operand_size`. -/
def defaultOperandSize (op : Nat) : Nat :=
  if op = oCALL ∨ op = oPUSH ∨ op = oPOP ∨ op = oJMP ∨ op = oJcc then 8 else 4

/-- src/backend/x86_64/encoding.c:406-414, `encode_opcode`. -/
def encodeOpcode (c : Code) (e : Enc) : Code :=
  c.push (e.opcode.take 2)

/-- The REX prefix with `W` only where enabled: src/backend/x86_64/encoding.c:428-430
and elsewhere. -/
def withW (rex op w : Nat) : Nat :=
  if enableRexW op && w != defaultOperandSize op then rex ||| rexW w else rex

def pushRex (c : Code) (rex : Nat) (force : Bool) : Code :=
  if rex != REX || force then c.push [rex] else c

/-- src/backend/x86_64/encoding.c:416-454, `encode_reg_reg`. -/
def encodeRegReg (c : Code) (e : Enc) (ws w a b : Nat) : Option Code :=
  if e.impl1 ≠ 0 then none
  else
    let rex := withW (REX ||| rexB b) e.opc w
    let rex := if e.impl0 = 0 then rex ||| rexR a else rex
    let c := pushRex c rex false
    let c := encodeOpcode c e
    let c :=
      if e.opxW then
        let ws := if e.impl0 ≠ 0 then w else ws
        c.orBack 1 (flag (ws != 1) 1)
      else c
    let c := c.push [0xC0 ||| e.modrm ||| reg3 b]
    if e.impl0 = 0 then
      if e.modrm ≠ 0 then none else some (c.orBack 1 (reg3 a * 8))
    else some c

/-- src/backend/x86_64/encoding.c:456-489, `encode_mem_reg`. -/
def encodeMemReg (c : Code) (e : Enc) (w : Nat) (d : Bool) (mw : Nat) (a : Addr) (b : Nat) :
    Option Code :=
  if e.impl1 ≠ 0 then none
  else
    let rex := withW (REX ||| rexR b ||| rexX a ||| rexB a.base) e.opc w
    let c := pushRex c rex ((b == SI || b == DI) && w == 1)
    let c := encodeOpcode c e
    let c := if e.opxW then c.orBack 1 (flag (mw != 1) 1) else c
    let c := if e.opxD then c.orBack 1 (flag d 2) else c
    (encodeAddress c (reg3 b) a 0).map (·.1)

/-- src/backend/x86_64/encoding.c:491-543, `encode_immediate`; also returns the
number of bytes. -/
def encodeImmediate (c : Code) (i : Imm) (sx : Nat) (dword : Bool) : Option (Code × Nat) :=
  match i.val with
  | .int q =>
    if i.width = 1 ∨ (sx ≠ 0 ∧ inByteRange q = true) then
      let c := if sx ≠ 0 then c.orBack sx 2 else c
      some (c.push (le 1 q), 1)
    else if i.width = 2 then some (c.push (le 2 q), 2)
    else if i.width = 4 ∨ dword = true then
      if i.width = 4 ∨ in32BitRange q = true then some (c.push (le 4 q), 4) else none
    else if i.width = 8 then some (c.push (le 8 q), 8)
    else none
  | .addr a =>
    match a.sym with
    | none => none
    | some (t, s) =>
      if dword then
        if t = .normal then
          some (⟨c.val ++ [0, 0, 0, 0], c.fix ++ [.label s c.val.length (a.disp - 4)]⟩, 4)
        else none
      else if t = .normal ∨ t = .plt then
        some (⟨c.val ++ [0, 0, 0, 0],
          c.fix ++ [.reloc (if t = .normal then relPC32 else relPLT32) s c.val.length a.disp]⟩, 4)
      else none

/-- src/backend/x86_64/encoding.c:545-591, `encode_imm_reg`. -/
def encodeImmReg (c : Code) (e : Enc) (w : Nat) (i : Imm) (b : Nat) : Option Code :=
  let rex := REX ||| rexW w ||| rexB b
  let c := pushRex c rex ((b == SI || b == DI) && w == 1)
  let c := encodeOpcode c e
  let w' := if e.opxW then (if e.opxReg then flag (w != 1) 8 else flag (w != 1) 1) else w
  let c := if e.opxW then c.orBack 1 w' else c
  if e.opxReg ∧ (e.modrm ≠ 0 ∨ e.impl1 ≠ 0) then none
  else
    let c :=
      if e.opxReg then c.orBack 1 (reg3 b)
      else if e.impl1 = 0 then c.push [0xC0 ||| e.modrm ||| reg3 b]
      else c
    let d := if e.opxReg then 1 else if e.impl1 = 0 then 2 else 0
    let d := if e.opxS = false ∨ w' = 0 then 0 else d
    (encodeImmediate c i d e.dword).map (·.1)

/-- src/backend/x86_64/encoding.c:593-617, `imm_encoding_width`. -/
def immEncodingWidth (i : Imm) (signExtend max32 : Bool) : Nat :=
  match i.val with
  | .int q =>
    if i.width = 1 ∨ (signExtend = true ∧ inByteRange q = true) then 1
    else if i.width = 2 then 2
    else if i.width = 4 ∨ max32 = true then 4
    else 8
  | .addr _ => 4

/-- src/backend/x86_64/encoding.c:619-660, `encode_imm_mem`. -/
def encodeImmMem (c : Code) (e : Enc) (w : Nat) (i : Imm) (a : Addr) : Option Code :=
  let rex := REX ||| rexW w ||| rexX a ||| rexB a.base
  let c := pushRex c rex false
  let c := encodeOpcode c e
  let c := if e.opxW then c.orBack 1 (flag (w != 1) 1) else c
  let iw := immEncodingWidth i e.opxS e.dword
  match encodeAddress c (e.modrm / 8 % 8) a iw with
  | none => none
  | some (c, n) =>
    let d := if e.opxS then n + 1 else 0
    match encodeImmediate c i d e.dword with
    | none => none
    | some (c, m) => if m = iw then some c else none

/-- src/backend/x86_64/encoding.c:662-678, `encode_none`. -/
def encodeNone (c : Code) (e : Enc) (w : Nat) : Code :=
  let c := pushRex c (withW REX e.opc w) false
  let c := encodeOpcode c e
  if e.opxW then c.orBack 1 (flag (w != 1) 1) else c

/-- src/backend/x86_64/encoding.c:680-719, `encode_reg`. -/
def encodeReg (c : Code) (e : Enc) (w r cc : Nat) : Option Code :=
  let c := pushRex c (withW (REX ||| rexB r) e.opc w) false
  let c := encodeOpcode c e
  let c := if e.opxW then c.orBack 1 (flag (w != 1) (if e.opxReg then 8 else 1)) else c
  if e.opxTttn ∧ e.opextra ≠ 8 then none
  else
    let c := if e.opxTttn then c.orBack 1 cc else c
    if e.opxReg then
      if e.modrm ≠ 0 then none else some (c.orBack 1 (reg3 r))
    else some (c.push [0xC0 ||| e.modrm ||| reg3 r])

/-- src/backend/x86_64/encoding.c:721-744, `encode_mem`. -/
def encodeMem (c : Code) (e : Enc) (w : Nat) (a : Addr) : Option Code :=
  let c := pushRex c (withW (REX ||| rexX a ||| rexB a.base) e.opc w) false
  let c := encodeOpcode c e
  let c := if e.opxW then c.orBack 1 (flag (w != 1) 1) else c
  (encodeAddress c (e.modrm / 8 % 8) a 0).map (·.1)

/-- src/backend/x86_64/encoding.c:746-771, `encode_imm`. -/
def encodeImm (c : Code) (e : Enc) (w : Nat) (i : Imm) (cc : Nat) : Option Code :=
  let c := pushRex c (withW REX e.opc w) false
  let c := encodeOpcode c e
  if e.opxTttn ∧ e.opextra ≠ 8 then none
  else
    let c := if e.opxTttn then c.orBack 1 cc else c
    (encodeImmediate c i 1 e.dword).map (·.1)

def Ops.mask : Ops → Nat
  | .none _ => 0
  | .imm _ => 1
  | .reg _ _ => 2
  | .mem _ _ => 4
  | .regReg _ _ _ _ => 8
  | .regMem _ _ _ _ => 16
  | .memReg _ _ _ _ => 32
  | .immReg _ _ _ => 64
  | .immMem _ _ _ => 128

/-- `instr.source.width`. -/
def Ops.sourceWidth : Ops → Nat
  | .none w => w
  | .imm i => i.width
  | .reg w _ => w
  | .mem w _ => w
  | .regReg ws _ _ _ => ws
  | .regMem ws _ _ _ => ws
  | .memReg ws _ _ _ => ws
  | .immReg i _ _ => i.width
  | .immMem i _ _ => i.width

/-- `instr.dest.width`. -/
def Ops.destWidth : Ops → Nat
  | .regReg _ _ w _ => w
  | .regMem _ _ w _ => w
  | .memReg _ _ w _ => w
  | .immReg _ w _ => w
  | .immMem _ w _ => w
  | _ => 0

/-- `instr.source.reg.r`, where the source is a register. -/
def Ops.sourceReg : Ops → Option Nat
  | .reg _ r => some r
  | .regReg _ a _ _ => some a
  | .regMem _ r _ _ => some r
  | _ => Option.none

/-- `instr.dest.reg.r`, where the destination is a register. -/
def Ops.destReg : Ops → Option Nat
  | .regReg _ _ _ b => some b
  | .memReg _ _ _ r => some r
  | .immReg _ _ r => some r
  | _ => Option.none

/-- src/backend/x86_64/encoding.c:773-797, `operand_size`. -/
def operandSize (i : Instr) : Nat :=
  match i.ops with
  | .none w => w
  | .imm im => im.width
  | .reg w _ => w
  | .mem w _ => w
  | o => if i.opcode = oCVTSI2S then o.sourceWidth else o.destWidth

/-- src/backend/x86_64/encoding.c:799-807, `is_32_bit_imm`. -/
def is32BitImm (i : Imm) : Bool :=
  i.width ≤ 4 || match i.val with
    | .int q => in32BitRange q
    | .addr _ => true

def Ops.theImm : Ops → Option Imm
  | .imm i => some i
  | .immReg i _ _ => some i
  | .immMem i _ _ => some i
  | _ => Option.none

/-- `IMPL_CX` is 1 and `IMPL_AX` is 2. -/
def implicitOk (impl : Nat) (r : Option Nat) : Bool :=
  match impl with
  | 0 => true
  | 1 => r == some CX
  | 2 => r == some AX
  | _ => false

/-- src/backend/x86_64/encoding.c:809-853, `match_instruction_encoding`. -/
def matchesRow (o : Ops) (e : Enc) : Bool :=
  o.mask == (e.optype &&& o.mask)
    && (match o.theImm with
        | some i => !(e.dword && !is32BitImm i)
        | none => true)
    && implicitOk e.impl0 o.sourceReg && implicitOk e.impl1 o.destReg
    && !(e.w0 != 0 && (e.w0 &&& o.sourceWidth) == 0)
    && !(o.destWidth != 0 && e.w1 != 0 && (e.w1 &&& o.destWidth) == 0)

/-- The rows tried: the first, and those following with the same opcode. -/
def candidates (op : Nat) : List Enc :=
  match encodings.drop op with
  | [] => []
  | e :: r => e :: r.takeWhile (·.opc == op)

/-- src/backend/x86_64/encoding.c:855-872, `find_encoding`. -/
def findEncoding (i : Instr) : Option Enc :=
  (candidates i.opcode).find? (matchesRow i.ops)

/-- The prefixes: src/backend/x86_64/encoding.c:1071-1083. -/
def start (e : Enc) (pfx w : Nat) : Code :=
  ⟨e.pfx ++ (if pfx ≠ 0 then [pfx] else []) ++ (if w = 2 then [0x66] else []), []⟩

/-- src/backend/x86_64/encoding.c:1065-1122, `encode`. -/
def encode (i : Instr) : Option Code :=
  match findEncoding i with
  | none => none
  | some e =>
    let w := operandSize i
    let c := start e i.pfx w
    match i.ops with
    | .none _ => some (encodeNone c e w)
    | .reg _ r => encodeReg c e w r i.cc
    | .mem _ a => encodeMem c e w a
    | .imm im => encodeImm c e w im i.cc
    | .regReg ws a _ b => if e.reverse then encodeRegReg c e ws w b a else encodeRegReg c e ws w a b
    | .memReg ws a _ r => encodeMemReg c e w true ws a r
    | .regMem _ r wd a => encodeMemReg c e w false wd a r
    | .immReg im _ r => encodeImmReg c e w im r
    | .immMem im _ a => encodeImmMem c e w im a

end Verif.Encode
