import Verif.Bytes
import Verif.Encode.Spec

/-!
# AT&T assembly language

The names of registers and the meaning of instructions as the GNU assembler documents
them ("x86-Dependent Features" of its manual) and by the names of the Intel manual,
which also numbers the registers.  Nothing here looks at the compiler's tables.

`att` gives the instruction of a mnemonic with its operands.  It has no value for text
the assembler rejects, such as operands of different widths or without any width, and for
instructions the compiler does not know at all.
-/

namespace Verif.Asm.Att

open Encode.Intel (Mn Opnd Mem Ins)
open Encode (immOf)

/-! ## Registers -/

def low : List Bytes := [str% "a", str% "c", str% "d", str% "b"]
def index : List Bytes := [str% "sp", str% "bp", str% "si", str% "di"]
def number : List Bytes :=
  [str% "8", str% "9", str% "10", str% "11", str% "12", str% "13", str% "14", str% "15"]

/-- The name of the general register `n` at a width of `w` bytes. -/
def gprName (n w : Nat) : Option Bytes :=
  if h : n < 4 then
    let c := low[n]'h
    match w with
    | 1 => some (c ++ str% "l")
    | 2 => some (c ++ str% "x")
    | 4 => some (str% "e" ++ c ++ str% "x")
    | 8 => some (str% "r" ++ c ++ str% "x")
    | _ => none
  else if h : n - 4 < 4 then
    let c := index[n - 4]'h
    match w with
    | 1 => some (c ++ str% "l")
    | 2 => some c
    | 4 => some (str% "e" ++ c)
    | 8 => some (str% "r" ++ c)
    | _ => none
  else if h : n - 8 < 8 then
    let c := str% "r" ++ number[n - 8]'h
    match w with
    | 1 => some (c ++ str% "b")
    | 2 => some (c ++ str% "w")
    | 4 => some (c ++ str% "d")
    | 8 => some c
    | _ => none
  else none

/-- Decimal digits. -/
def dec : List Bytes := (List.range 10).map fun d => [48 + UInt8.ofNat d]

def xmmName (n : Nat) : Option Bytes :=
  if h : n < 8 then some (str% "xmm" ++ [48 + UInt8.ofNat n])
  else if h : n - 8 < 8 then some (str% "xmm" ++ number[n - 8]'h)
  else none

/-! ## Instructions -/

/-- An operand as it is written. -/
inductive Arg
  | gpr (n w : Nat)
  | xmm (n : Nat)
  | imm (q : Int)
  /-- memory, perhaps at a distance from a symbol -/
  | mem (m : Mem) (ref : Option (Encode.AType × Nat × Int))
  /-- the place of a jump or call -/
  | target (l : Nat)
  deriving DecidableEq, Repr

/-- What the operand refers to. -/
def Arg.ref : Arg → Option (Encode.AType × Nat × Int)
  | .mem _ r => r
  | .target l => some (.normal, l, 0)
  | _ => none

/-- The operands an instruction takes. -/
inductive Form
  /-- two operands of one width -/
  | bin (mn : Mn) (w : Option Nat)
  /-- by an immediate or `%cl` -/
  | shift (mn : Mn) (w : Option Nat)
  /-- one operand -/
  | un (mn : Mn) (w : Option Nat)
  /-- from one width to another -/
  | ext (mn : Mn) (ws w : Nat)
  | lea (w : Option Nat)
  /-- vector registers, or a source of `n` bytes in memory; perhaps also to memory -/
  | vec (mn : Mn) (n : Nat) (store : Bool)
  /-- from a number in a register or memory to a vector register -/
  | fromInt (mn : Mn) (w : Option Nat)
  /-- from a vector register, or `n` bytes of memory, to a number in a register -/
  | toInt (mn : Mn) (n : Nat) (w : Option Nat)
  /-- eight bytes -/
  | stack (mn : Mn)
  | call
  /-- `n` bytes of memory -/
  | fmem (mn : Mn) (n : Nat)
  | jump (mn : Mn)
  | set (c : Nat)
  | plain (mn : Mn)
  deriving DecidableEq, Repr

def suffixes : List (Bytes × Nat) := [(str% "b", 1), (str% "w", 2), (str% "l", 4), (str% "q", 8)]

/-- A name without and with the suffix for the width. -/
def sized (n : Bytes) (f : Option Nat → Form) (sfx : List (Bytes × Nat)) : List (Bytes × Form) :=
  (n, f none) :: sfx.map fun s => (n ++ s.1, f (some s.2))

/-- The conditions, by number, with their synonyms. -/
def conditions : List (Bytes × Nat) := [
  (str% "o", 0), (str% "no", 1), (str% "b", 2), (str% "c", 2), (str% "nae", 2), (str% "ae", 3),
  (str% "nb", 3), (str% "nc", 3), (str% "e", 4), (str% "z", 4), (str% "ne", 5), (str% "nz", 5),
  (str% "be", 6), (str% "na", 6), (str% "a", 7), (str% "nbe", 7), (str% "s", 8), (str% "ns", 9),
  (str% "p", 10), (str% "pe", 10), (str% "np", 11), (str% "po", 11), (str% "l", 12), (str% "nge", 12),
  (str% "ge", 13), (str% "nl", 13), (str% "le", 14), (str% "ng", 14), (str% "g", 15), (str% "nle", 15)]

/-- The two-operand integer instructions. -/
def bins : List (Bytes × Mn) := [
  (str% "add", .add), (str% "and", .and), (str% "cmp", .cmp), (str% "mov", .mov), (str% "or", .or),
  (str% "sub", .sub), (str% "test", .test), (str% "xor", .xor)]

def names : List (Bytes × Form) :=
  bins.flatMap (fun p => sized p.1 (.bin p.2) suffixes)
  ++ [(str% "sar", Mn.sar), (str% "shl", .shl), (str% "shr", .shr)].flatMap
      (fun p => sized p.1 (.shift p.2) suffixes)
  ++ [(str% "div", Mn.div), (str% "idiv", .idiv), (str% "mul", .mul), (str% "not", .not)].flatMap
      (fun p => sized p.1 (.un p.2) suffixes)
  ++ sized (str% "lea") .lea [(str% "w", 2), (str% "l", 4), (str% "q", 8)]
  ++ [ (str% "movslq", .ext .movsx 4 8),
    (str% "movsbl", .ext .movsx 1 4), (str% "movsbq", .ext .movsx 1 8),
    (str% "movswl", .ext .movsx 2 4), (str% "movswq", .ext .movsx 2 8),
    (str% "movzbl", .ext .movzx 1 4), (str% "movzbq", .ext .movzx 1 8),
    (str% "movzwl", .ext .movzx 2 4), (str% "movzwq", .ext .movzx 2 8),
    (str% "addss", .vec .addss 4 false), (str% "addsd", .vec .addsd 8 false),
    (str% "subss", .vec .subss 4 false), (str% "subsd", .vec .subsd 8 false),
    (str% "mulss", .vec .mulss 4 false), (str% "mulsd", .vec .mulsd 8 false),
    (str% "divss", .vec .divss 4 false), (str% "divsd", .vec .divsd 8 false),
    (str% "cvtss2sd", .vec .cvtss2sd 4 false), (str% "cvtsd2ss", .vec .cvtsd2ss 8 false),
    (str% "ucomiss", .vec .ucomiss 4 false), (str% "ucomisd", .vec .ucomisd 8 false),
    (str% "pxor", .vec .pxor 16 false),
    (str% "andps", .vec .andps 16 false), (str% "andnps", .vec .andnps 16 false),
    (str% "orps", .vec .orps 16 false), (str% "cvtps2dq", .vec .cvtps2dq 16 false),
    (str% "cvtdq2ps", .vec .cvtdq2ps 16 false),
    (str% "movaps", .vec .movaps 16 true), (str% "movups", .vec .movups 16 true),
    (str% "movss", .vec .movss 4 true), (str% "movsd", .vec .movsd 8 true) ]
  ++ sized (str% "cvtsi2ss") (.fromInt .cvtsi2ss) [(str% "l", 4), (str% "q", 8)]
  ++ sized (str% "cvtsi2sd") (.fromInt .cvtsi2sd) [(str% "l", 4), (str% "q", 8)]
  ++ sized (str% "cvttss2si") (.toInt .cvttss2si 4) [(str% "l", 4), (str% "q", 8)]
  ++ sized (str% "cvttsd2si") (.toInt .cvttsd2si 8) [(str% "l", 4), (str% "q", 8)]
  ++ [ (str% "push", .stack .push), (str% "pushq", .stack .push),
    (str% "pop", .stack .pop), (str% "popq", .stack .pop),
    (str% "call", .call), (str% "callq", .call), (str% "jmp", .jump .jmp),
    (str% "flds", .fmem .fld 4), (str% "fldl", .fmem .fld 8), (str% "fldt", .fmem .fld 10),
    (str% "fstps", .fmem .fstp 4), (str% "fstpl", .fmem .fstp 8), (str% "fstpt", .fmem .fstp 10),
    (str% "filds", .fmem .fild 2), (str% "fildl", .fmem .fild 4), (str% "fildq", .fmem .fild 8),
    (str% "fistps", .fmem .fistp 2), (str% "fistpl", .fmem .fistp 4), (str% "fistpq", .fmem .fistp 8),
    (str% "fldcw", .fmem .fldcw 2), (str% "fldcww", .fmem .fldcw 2),
    (str% "fnstcw", .fmem .fnstcw 2), (str% "fnstcww", .fmem .fnstcw 2),
    (str% "cdq", .plain .cdq), (str% "cltd", .plain .cdq), (str% "cqo", .plain .cqo),
    (str% "cqto", .plain .cqo), (str% "leave", .plain .leave), (str% "ret", .plain .ret),
    (str% "movsb", .plain (.movs false 1)), (str% "movsw", .plain (.movs false 2)),
    (str% "movsl", .plain (.movs false 4)), (str% "movsq", .plain (.movs false 8)) ]
  ++ conditions.map (fun c => (str% "j" ++ c.1, .jump (.jcc c.2)))
  ++ conditions.map (fun c => (str% "set" ++ c.1, .set c.2))

/-- The form of a name. -/
def lookup (m : Bytes) : Option Form := (names.find? (·.1 == m)).map (·.2)

/-- The width of an instruction: what the suffix says, or what the registers say.  They
must agree. -/
def width (w : Option Nat) (rs : List Nat) : Option Nat :=
  match w with
  | some w => if rs.all (· == w) then some w else none
  | none =>
    match rs with
    | [] => none
    | r :: rs => if rs.all (· == r) then some r else none

/-- An immediate may be given as a signed or an unsigned number of the width.  Except for
`mov` to a register, an instruction on eight bytes has an immediate of four, sign
extended. -/
def immFits (mn : Mn) (toReg : Bool) (w : Nat) (q : Int) : Bool :=
  if w = 8 then
    if mn = .mov ∧ toReg then -9223372036854775808 ≤ q && q ≤ 18446744073709551615
    else -2147483648 ≤ q && q ≤ 2147483647
  else -(2 ^ (8 * w - 1) : Int) ≤ q && q ≤ 2 ^ (8 * w) - 1

/-- Two operands, source first. -/
def binMeaning (mn : Mn) (w : Option Nat) : List Arg → Option Ins
  | [.gpr a wa, .gpr b wb] =>
    (width w [wa, wb]).map fun w => ⟨mn, [.gpr b w, .gpr a w], none, none⟩
  | [.mem m _, .gpr b wb] =>
    -- the order of the operands of a test does not matter
    (width w [wb]).map fun w =>
      ⟨mn, if mn = .test then [.mem w, .gpr b w] else [.gpr b w, .mem w], some m, none⟩
  | [.gpr a wa, .mem m _] => (width w [wa]).map fun w => ⟨mn, [.mem w, .gpr a w], some m, none⟩
  | [.imm q, .gpr b wb] =>
    (width w [wb]).bind fun w =>
      if immFits mn true w q then some ⟨mn, [.gpr b w, .imm w], none, some (immOf w q)⟩ else none
  | [.imm q, .mem m _] =>
    (width w []).bind fun w =>
      if immFits mn false w q then some ⟨mn, [.mem w, .imm w], some m, some (immOf w q)⟩ else none
  | _ => none

def meaning : Form → List Arg → Option Ins
  | .bin mn w, args => binMeaning mn w args
  | .shift mn w, [.imm q, .gpr b wb] =>
    (width w [wb]).bind fun w =>
      if -128 ≤ q ∧ q < 256 then some ⟨mn, [.gpr b w, .imm 1], none, some (immOf 1 q)⟩ else none
  | .shift mn w, [.gpr a wa, .gpr b wb] =>
    if a = 1 ∧ wa = 1 then (width w [wb]).map fun w => ⟨mn, [.gpr b w, .gpr 1 1], none, none⟩
    else none
  | .un mn w, [.gpr b wb] => (width w [wb]).map fun w => ⟨mn, [.gpr b w], none, none⟩
  | .un mn w, [.mem m _] => (width w []).map fun w => ⟨mn, [.mem w], some m, none⟩
  | .ext mn ws w, [.gpr a wa, .gpr b wb] =>
    if wa = ws ∧ wb = w then some ⟨mn, [.gpr b w, .gpr a ws], none, none⟩ else none
  | .ext mn ws w, [.mem m _, .gpr b wb] =>
    if wb = w then some ⟨mn, [.gpr b w, .mem ws], some m, none⟩ else none
  | .lea w, [.mem m _, .gpr b wb] =>
    (width w [wb]).map fun w => ⟨.lea, [.gpr b w, .mem 0], some m, none⟩
  | .vec mn _ _, [.xmm a, .xmm b] => some ⟨mn, [.xmm b, .xmm a], none, none⟩
  | .vec mn n _, [.mem m _, .xmm b] => some ⟨mn, [.xmm b, .mem n], some m, none⟩
  | .vec mn n true, [.xmm a, .mem m _] => some ⟨mn, [.mem n, .xmm a], some m, none⟩
  | .fromInt mn w, [.gpr a wa, .xmm b] =>
    (width w [wa]).bind fun w =>
      if w = 4 ∨ w = 8 then some ⟨mn, [.xmm b, .gpr a w], none, none⟩ else none
  -- without a suffix, memory of four bytes
  | .fromInt mn w, [.mem m _, .xmm b] => some ⟨mn, [.xmm b, .mem (w.getD 4)], some m, none⟩
  | .toInt mn _ w, [.xmm a, .gpr b wb] =>
    (width w [wb]).bind fun w =>
      if w = 4 ∨ w = 8 then some ⟨mn, [.gpr b w, .xmm a], none, none⟩ else none
  | .toInt mn n w, [.mem m _, .gpr b wb] =>
    (width w [wb]).bind fun w =>
      if w = 4 ∨ w = 8 then some ⟨mn, [.gpr b w, .mem n], some m, none⟩ else none
  | .stack mn, [.gpr b 8] => some ⟨mn, [.gpr b 8], none, none⟩
  | .stack .push, [.mem m _] => some ⟨.push, [.mem 8], some m, none⟩
  | .stack .push, [.imm q] =>
    if immFits .push false 8 q then some ⟨.push, [.imm 8], none, some q⟩ else none
  | .call, [.gpr b 8] => some ⟨.call, [.gpr b 8], none, none⟩
  | .call, [.mem m _] => some ⟨.call, [.mem 8], some m, none⟩
  | .call, [.target _] => some ⟨.call, [.rel], none, some 0⟩
  | .jump mn, [.target _] => some ⟨mn, [.rel], none, some 0⟩
  | .fmem mn n, [.mem m _] => some ⟨mn, [.mem n], some m, none⟩
  | .set c, [.gpr b 1] => some ⟨.setcc c, [.gpr b 1], none, none⟩
  | .plain mn, [] => some ⟨mn, [], none, none⟩
  | _, _ => none

/-- The instruction of a mnemonic with its operands, source first. -/
def att (m : Bytes) (args : List Arg) : Option Ins := (lookup m).bind fun f => meaning f args

end Verif.Asm.Att
