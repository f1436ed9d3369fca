import Verif.Encode.Model
import Verif.Encode.Decode

/-!
# What the compiler asks for

The instruction a request stands for, by the meaning of its name in the Intel manual,
and the requests for which the encoder is claimed to be right.  Neither looks at the
table of encodings.
-/

namespace Verif.Encode

open Intel (Mn Opnd Mem Ins)

def widths : List Nat := [1, 2, 4, 8]
/-- The general registers and the vector registers, as the compiler numbers them. -/
def gprs : List Nat := List.range' 1 16
def xmms : List Nat := List.range' 17 16

/-- A general register of the compiler. -/
def G (r w : Nat) : Opnd := .gpr (r - 1) w
/-- A vector register of the compiler. -/
def X (r : Nat) : Opnd := .xmm (r - 17)

/-- Two-operand arithmetic, moves and tests. -/
def arith : Nat → Option Mn
  | oADD => some .add
  | oAND => some .and
  | oCMP => some .cmp
  | oMOV => some .mov
  | oOR => some .or
  | oSUB => some .sub
  | oTEST => some .test
  | oXOR => some .xor
  | _ => none

def shift : Nat → Option Mn
  | oSAR => some .sar
  | oSHL => some .shl
  | oSHR => some .shr
  | _ => none

def unary : Nat → Option Mn
  | oDIV => some .div
  | oIDIV => some .idiv
  | oMUL => some .mul
  | oNOT => some .not
  | _ => none

/-- Vector instructions by operand widths: the instruction, whether source and
destination are vector registers, and the size of a source in memory. -/
def vector (op ws w : Nat) : Option (Mn × Bool × Bool × Nat) :=
  match op, ws, w with
  | oADDS, 4, 4 => some (.addss, true, true, 4)
  | oADDS, 8, 8 => some (.addsd, true, true, 8)
  | oSUBS, 4, 4 => some (.subss, true, true, 4)
  | oSUBS, 8, 8 => some (.subsd, true, true, 8)
  | oMULS, 4, 4 => some (.mulss, true, true, 4)
  | oMULS, 8, 8 => some (.mulsd, true, true, 8)
  | oDIVS, 4, 4 => some (.divss, true, true, 4)
  | oDIVS, 8, 8 => some (.divsd, true, true, 8)
  | oCVTSI2S, 4, 4 => some (.cvtsi2ss, false, true, 4)
  | oCVTSI2S, 8, 4 => some (.cvtsi2ss, false, true, 8)
  | oCVTSI2S, 4, 8 => some (.cvtsi2sd, false, true, 4)
  | oCVTSI2S, 8, 8 => some (.cvtsi2sd, false, true, 8)
  | oCVTS2S, 4, 8 => some (.cvtss2sd, true, true, 4)
  | oCVTS2S, 8, 4 => some (.cvtsd2ss, true, true, 8)
  | oCVTTS2SI, 4, 4 => some (.cvttss2si, true, false, 4)
  | oCVTTS2SI, 4, 8 => some (.cvttss2si, true, false, 4)
  | oCVTTS2SI, 8, 4 => some (.cvttsd2si, true, false, 8)
  | oCVTTS2SI, 8, 8 => some (.cvttsd2si, true, false, 8)
  | oMOVAP, 4, 4 => some (.movaps, true, true, 16)
  | oMOVS, 4, 4 => some (.movss, true, true, 4)
  | oMOVS, 8, 8 => some (.movsd, true, true, 8)
  | oUCOMIS, 4, 4 => some (.ucomiss, true, true, 4)
  | oUCOMIS, 8, 8 => some (.ucomisd, true, true, 8)
  | oPXOR, 8, 8 => some (.pxor, true, true, 16)
  | oANDNPS, 4, 4 => some (.andnps, true, true, 16)
  | oANDPS, 4, 4 => some (.andps, true, true, 16)
  | oORPS, 4, 4 => some (.orps, true, true, 16)
  | oCVTPS2DQ, 4, 4 => some (.cvtps2dq, true, true, 16)
  | oCVTDQ2PS, 4, 4 => some (.cvtdq2ps, true, true, 16)
  | oMOVUPS, 4, 4 => some (.movups, true, true, 16)
  | _, _, _ => none

/-- Vector instructions to memory: the instruction and the size. -/
def vectorStore (op ws w : Nat) : Option (Mn × Nat) :=
  match op, ws, w with
  | oMOVAP, 4, 4 => some (.movaps, 16)
  | oMOVS, 4, 4 => some (.movss, 4)
  | oMOVS, 8, 8 => some (.movsd, 8)
  | oMOVUPS_ST, 4, 4 => some (.movups, 16)
  | _, _, _ => none

/-- Floating-point stack instructions on memory: the instruction and the size.  The width
may be left open where the name says it all. -/
def x87mem (op w : Nat) : Option (Mn × Nat) :=
  match op, w with
  | oFILD, 2 => some (.fild, 2)
  | oFILD, 4 => some (.fild, 4)
  | oFILD, 8 => some (.fild, 8)
  | oFISTP, 2 => some (.fistp, 2)
  | oFISTP, 4 => some (.fistp, 4)
  | oFISTP, 8 => some (.fistp, 8)
  | oFLD, 4 => some (.fld, 4)
  | oFLD, 8 => some (.fld, 8)
  | oFLD, 16 => some (.fld, 10)
  | oFLD, 0 => some (.fld, 10)
  | oFSTP, 4 => some (.fstp, 4)
  | oFSTP, 8 => some (.fstp, 8)
  | oFSTP, 16 => some (.fstp, 10)
  | oFSTP, 0 => some (.fstp, 10)
  | oFLDCW, 2 => some (.fldcw, 2)
  | oFLDCW, 0 => some (.fldcw, 2)
  | oFNSTCW, 2 => some (.fnstcw, 2)
  | oFNSTCW, 0 => some (.fnstcw, 2)
  | _, _ => none

/-- Floating-point stack instructions on a register; the compiler uses the names of
the assembler, in which `fsubrp` and `fdivrp` are what the manual calls `fsubp` and
`fdivp`. -/
def x87reg : Nat → Option Mn
  | oFADDP => some .faddp
  | oFDIVRP => some .fdivp
  | oFMULP => some .fmulp
  | oFSUBRP => some .fsubp
  | oFLD => some .fld
  | oFSTP => some .fstp
  | oFUCOMIP => some .fucomip
  | oFXCH => some .fxch
  | _ => none

/-- An address: a symbol is reached relative to the instruction pointer, by a
displacement filled in later. -/
def memOf (a : Addr) : Mem :=
  match a.sym with
  | some _ => .rip 0
  | none =>
    .sib (if a.base = 0 then none else some (a.base - 1))
      (if a.index = 0 then none else some (a.index - 1, if a.scale = 0 then 1 else a.scale)) a.disp

/-- An immediate number used as a number of `w` bytes. -/
def immOf (w : Nat) (q : Int) : Int := q.bmod (256 ^ w)

/-- What a request means. -/
def meaning (i : Instr) : Option Ins :=
  match i.ops with
  | .regReg ws a w b =>
    match arith i.opcode, shift i.opcode, vector i.opcode ws w with
    | some m, _, _ => some ⟨m, [G b w, G a w], none, none⟩
    | _, some m, _ => some ⟨m, [G b w, G a 1], none, none⟩
    | _, _, some (m, xs, xd, _) =>
      some ⟨m, [if xd then X b else G b w, if xs then X a else G a ws], none, none⟩
    | _, _, _ =>
      match i.opcode with
      | oMOVSX => some ⟨.movsx, [G b w, G a ws], none, none⟩
      | oMOVZX => some ⟨.movzx, [G b w, G a ws], none, none⟩
      | _ => none
  | .memReg ws a w r =>
    match arith i.opcode, vector i.opcode ws w with
    -- the order of the operands of a test does not matter
    | some .test, _ => some ⟨.test, [.mem w, G r w], memOf a, none⟩
    | some m, _ => some ⟨m, [G r w, .mem w], memOf a, none⟩
    | _, some (m, _, xd, n) => some ⟨m, [if xd then X r else G r w, .mem n], memOf a, none⟩
    | _, _ =>
      match i.opcode with
      | oMOVSX => some ⟨.movsx, [G r w, .mem ws], memOf a, none⟩
      | oMOVZX => some ⟨.movzx, [G r w, .mem ws], memOf a, none⟩
      | oLEA => some ⟨.lea, [G r w, .mem 0], memOf a, none⟩
      | _ => none
  | .regMem ws r w a =>
    match arith i.opcode, vectorStore i.opcode ws w with
    | some m, _ => some ⟨m, [.mem w, G r w], memOf a, none⟩
    | _, some (m, n) => some ⟨m, [.mem n, X r], memOf a, none⟩
    | _, _ => none
  | .immReg ⟨_, .int q⟩ w r =>
    match arith i.opcode, shift i.opcode with
    | some m, _ => some ⟨m, [G r w, .imm w], none, some (immOf w q)⟩
    | _, some m => some ⟨m, [G r w, .imm 1], none, some (immOf 1 q)⟩
    | _, _ => none
  | .immMem ⟨_, .int q⟩ w a =>
    (arith i.opcode).map fun m => ⟨m, [.mem w, .imm w], memOf a, some (immOf w q)⟩
  | .reg w r =>
    match unary i.opcode, x87reg i.opcode with
    | some m, _ => some ⟨m, [G r w], none, none⟩
    | _, some m => some ⟨m, [.st (r - 34)], none, none⟩
    | _, _ =>
      match i.opcode with
      | oCALL => some ⟨.call, [G r w], none, none⟩
      | oPUSH => some ⟨.push, [G r w], none, none⟩
      | oPOP => some ⟨.pop, [G r w], none, none⟩
      | oSETcc => some ⟨.setcc i.cc, [G r w], none, none⟩
      | _ => none
  | .mem w a =>
    match unary i.opcode, x87mem i.opcode w with
    | some m, _ => some ⟨m, [.mem w], memOf a, none⟩
    | _, some (m, n) => some ⟨m, [.mem n], memOf a, none⟩
    | _, _ =>
      match i.opcode with
      | oCALL => some ⟨.call, [.mem w], memOf a, none⟩
      | oPUSH => some ⟨.push, [.mem w], memOf a, none⟩
      | _ => none
  | .imm ⟨w, .int q⟩ =>
    if i.opcode = oPUSH then some ⟨.push, [.imm w], none, some (immOf w q)⟩ else none
  | .imm ⟨_, .addr _⟩ =>
    -- the distance is filled in later
    match i.opcode with
    | oCALL => some ⟨.call, [.rel], none, some 0⟩
    | oJMP => some ⟨.jmp, [.rel], none, some 0⟩
    | oJcc => some ⟨.jcc i.cc, [.rel], none, some 0⟩
    | _ => none
  | .none w =>
    match i.opcode with
    | oCxy => some ⟨if w = 8 then .cqo else .cdq, [], none, none⟩
    | oLEAVE => some ⟨.leave, [], none, none⟩
    | oRET => some ⟨.ret, [], none, none⟩
    | oMOV_STR => some ⟨.movs (i.pfx == 0xF3) w, [], none, none⟩
    | oFLDZ => some ⟨.fldconst, [.st 6], none, none⟩
    | _ => none
  | _ => none

/-! ## Distances filled in later -/

/-- The address among the operands. -/
def Ops.address : Ops → Option Addr
  | .imm ⟨_, .addr a⟩ | .mem _ a | .regMem _ _ _ a | .memReg _ a _ _ | .immMem _ _ a => Option.some a
  | _ => Option.none

/-- The symbol a request refers to, how, and the displacement from it. -/
def Instr.ref (i : Instr) : Option (AType × Nat × Int) :=
  i.ops.address.bind fun a => a.sym.map fun (t, s) => (t, s, a.disp)

/-- A jump within the function. -/
def Instr.jumps (i : Instr) : Bool := i.opcode == oJMP || i.opcode == oJcc

/-- A number of four bytes in two's complement. -/
def distance (z : List Nat) : Int :=
  if 2 * Intel.value z < 256 ^ 4 then (Intel.value z : Int) else (Intel.value z : Int) - 256 ^ 4

/-- The same instruction with another distance from the instruction pointer. -/
def reach (ins : Ins) (d : Int) : Ins :=
  match ins.mem with
  | some _ => { ins with mem := some (.rip d) }
  | none => { ins with imm := some d }

/-- The relocation type, by the manual of the object file format. -/
def refType : AType → Nat
  | .normal => 2
  | .plt => 4
  | .got => 9

/-- A request without a symbol is complete as it is.  One with a symbol has four bytes
that are left open: whatever is stored there is the distance of the instruction read
back.  The encoder reports the place of these bytes, the symbol, and as addend the
displacement less the number of bytes after them; for a jump within the function the
four bytes themselves are subtracted too. -/
def Links (i : Instr) (c : Code) (ins : Ins) : Prop :=
  match i.ref with
  | none => c.fix = []
  | some (ty, s, disp) => ∃ pre post, pre ≠ [] ∧ c.val = pre ++ ([0, 0, 0, 0] ++ post)
      ∧ (∀ z t, z.length = 4 → Intel.decode (pre ++ (z ++ (post ++ t))) = some (reach ins (distance z), t))
      ∧ c.fix = [if i.jumps then .label s pre.length (disp - post.length - 4)
        else .reloc (refType ty) s pre.length (disp - post.length)]

/-! ## Well-formed requests -/

/-- An address that can be encoded: registers are general registers, `%rsp` is no
index, the displacement fits in 32 bits; without a base there is no displacement. -/
def Addr.Ok (a : Addr) : Prop :=
  match a.sym with
  | some (t, _) => t ≠ .plt ∧ is64 a.base = false ∧ is64 a.index = false
  | none =>
    (a.base = 0 ∧ a.disp = 0 ∨ a.base ∈ gprs) ∧ (a.index = 0 ∨ a.index ∈ gprs ∧ a.index ≠ SP)
      ∧ a.scale ∈ [0, 1, 2, 4, 8] ∧ -2147483648 ≤ a.disp ∧ a.disp ≤ 2147483647

/-- Registers that can be named at a width.  The byte registers of `%rsp`, `%rbp`,
`%rsi` and `%rdi` need a REX prefix, which two-register and one-register forms never
add for them. -/
def regsA (w : Nat) : List Nat := if w = 1 then gprs.filter (fun r => r < 5 || r > 8) else gprs

/-- The other forms add the prefix for `%rsi` and `%rdi`. -/
def regsB (w : Nat) : List Nat := if w = 1 then gprs.filter (fun r => r < 5 || r > 6) else gprs

/-- The immediate forms of the arithmetic operations, on a register: the value must
fit, and comparing 8 bytes works for single bytes only. -/
def immRegOk (op w : Nat) (q : Int) : Bool :=
  match op with
  | oMOV => w != 1
  | oTEST => w != 8
  | oCMP => w != 8 || inByteRange q
  | _ => w != 8 || in32BitRange q

/-- On memory, single bytes work with `mov` only. -/
def immMemOk (op w : Nat) (q : Int) : Bool :=
  match op with
  | oMOV => w != 8 || in32BitRange q
  | oTEST => false
  | oCMP => w != 1 && (w != 8 || inByteRange q)
  | _ => w != 1 && (w != 8 || in32BitRange q)

/-- The requests the encoder is claimed to be right for. -/
def Good (i : Instr) : Prop :=
  match i.ops with
  | .regReg ws a w b => i.pfx = 0 ∧
    ((arith i.opcode).isSome ∧ ws = w ∧ w ∈ widths ∧ a ∈ regsA w ∧ b ∈ regsA w
      ∨ (shift i.opcode).isSome ∧ ws = 1 ∧ a = CX ∧ w ∈ widths ∧ b ∈ regsA w
      ∨ (∃ m xs xd n, vector i.opcode ws w = some (m, xs, xd, n)
          ∧ a ∈ (if xs then xmms else gprs) ∧ b ∈ (if xd then xmms else gprs))
      ∨ i.opcode = oMOVSX ∧ ws = 4 ∧ w = 8 ∧ a ∈ gprs ∧ b ∈ gprs
      ∨ (i.opcode = oMOVSX ∨ i.opcode = oMOVZX) ∧ (ws = 1 ∨ ws = 2) ∧ (w = 4 ∨ w = 8)
          ∧ a ∈ regsA ws ∧ b ∈ gprs)
  | .memReg ws a w r => i.pfx = 0 ∧ a.Ok ∧
    ((arith i.opcode).isSome ∧ i.opcode ≠ oSUB ∧ ws = w ∧ w ∈ widths ∧ r ∈ regsB w
      ∨ (∃ m xs xd n, vector i.opcode ws w = some (m, xs, xd, n)
          ∧ r ∈ (if xd then xmms else gprs))
      ∨ i.opcode = oMOVSX ∧ ws = 4 ∧ w = 8 ∧ r ∈ gprs
      ∨ (i.opcode = oMOVSX ∨ i.opcode = oMOVZX) ∧ (ws = 1 ∨ ws = 2) ∧ (w = 4 ∨ w = 8) ∧ r ∈ gprs
      ∨ i.opcode = oLEA ∧ ws = 8 ∧ w = 8 ∧ r ∈ gprs)
  | .regMem ws r w a => i.pfx = 0 ∧ a.Ok ∧
    ((arith i.opcode).isSome ∧ ws = w ∧ w ∈ widths ∧ r ∈ regsB w
      ∨ (vectorStore i.opcode ws w).isSome ∧ r ∈ xmms)
  | .immReg ⟨wi, .int q⟩ w r => i.pfx = 0 ∧ w ∈ widths ∧ r ∈ regsB w ∧
    ((arith i.opcode).isSome ∧ wi = w ∧ immRegOk i.opcode w q
      ∨ (shift i.opcode).isSome ∧ wi = 1)
  | .immMem ⟨wi, .int q⟩ w a => i.pfx = 0 ∧ a.Ok ∧ w ∈ widths ∧ (arith i.opcode).isSome
      ∧ wi = w ∧ immMemOk i.opcode w q
  | .reg w r => i.pfx = 0 ∧
    ((unary i.opcode).isSome ∧ i.cc = 0 ∧ w ∈ widths ∧ r ∈ regsA w
      ∨ (i.opcode = oCALL ∨ i.opcode = oPUSH ∨ i.opcode = oPOP) ∧ i.cc = 0 ∧ w = 8 ∧ r ∈ gprs
      ∨ i.opcode = oSETcc ∧ i.cc < 16 ∧ w = 1 ∧ r ∈ regsA 1)
  | .mem w a => i.pfx = 0 ∧ a.Ok ∧
    ((unary i.opcode).isSome ∧ w ∈ widths
      ∨ (x87mem i.opcode w).isSome
      ∨ (i.opcode = oCALL ∨ i.opcode = oPUSH) ∧ w = 8)
  | .imm ⟨w, .int q⟩ => i.pfx = 0 ∧ i.opcode = oPUSH ∧ w = 8 ∧ in32BitRange q = true
  | .imm ⟨w, .addr a⟩ => i.pfx = 0 ∧ w = 8 ∧
    (i.opcode = oCALL ∧ (∃ s, a.sym = some (.normal, s) ∨ a.sym = some (.plt, s))
      ∨ (i.opcode = oJMP ∨ i.opcode = oJcc ∧ i.cc < 16) ∧ ∃ s, a.sym = some (.normal, s))
  | .none w =>
    i.opcode = oCxy ∧ i.pfx = 0 ∧ (w = 4 ∨ w = 8)
      ∨ (i.opcode = oLEAVE ∨ i.opcode = oRET ∨ i.opcode = oFLDZ) ∧ i.pfx = 0 ∧ w = 0
      ∨ i.opcode = oMOV_STR ∧ (i.pfx = 0 ∨ i.pfx = 0xF3) ∧ w ∈ widths
  | _ => False

end Verif.Encode
