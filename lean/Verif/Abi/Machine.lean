import Verif.Tac

/-!
# The machine the emitted code runs on

General purpose and vector registers and byte addressed memory: enough of an x86-64 for
the code which passes arguments, sets up frames and copies objects.  Registers are
numbered as in `enum reg` (src/backend/x86_64/encoding.h:15-30).

Values of registers are integers; what an instruction stores is their low bytes.
Addresses do not wrap around.
-/

namespace Verif.Abi

/-- Byte `j` of a number. -/
def byteAt (v : Int) (j : Nat) : UInt8 := UInt8.ofNat (v / 256 ^ j % 256).toNat

/-- The `n` low bytes of a number, least significant first. -/
def le (n : Nat) (v : Int) : List UInt8 := (List.range n).map (byteAt v)

/-- The number with the given bytes. -/
def val : List UInt8 → Int
  | [] => 0
  | b :: bs => (b.toNat : Int) + 256 * val bs

/-- The signed number with the given bytes. -/
def sval (bs : List UInt8) : Int :=
  if 2 * val bs < 256 ^ bs.length then val bs else val bs - 256 ^ bs.length

abbrev Mem := Int → UInt8

/-- `n` bytes from address `a`. -/
def rd (m : Mem) (a : Int) (n : Nat) : List UInt8 := (List.range n).map fun j : Nat => m (a + j)

/-- Memory with `bs` written to address `a`. -/
def wr (m : Mem) (a : Int) (bs : List UInt8) : Mem := fun x =>
  if a ≤ x then (bs[(x - a).toNat]?).getD (m x) else m x

def AX := 1
def CX := 2
def DX := 3
def BX := 4
def SP := 5
def BP := 6
def SI := 7
def DI := 8
def R8 := 9
def R9 := 10
def R11 := 12
def R12 := 13
def R13 := 14
def R14 := 15
def R15 := 16
def IP := 33
/-- `XMM0 + n`. -/
def XMM (n : Nat) : Nat := 17 + n

/-- State of the machine. -/
structure M where
  reg : Nat → Int
  mem : Mem

/-- An address: register and displacement, two registers and a displacement, or the address
of a symbol, which the code computes relative to the instruction pointer. -/
inductive Ea
  | base (r : Nat) (o : Int)
  | index (r x : Nat) (o : Int)
  | abs (a : Int)
  deriving DecidableEq, Repr

def M.ea (s : M) : Ea → Int
  | .base r o => s.reg r + o
  | .index r x o => s.reg r + s.reg x + o
  | .abs a => a

/-- Instructions. -/
inductive Ins
  /-- `mov`, `movss`, `movsd` from memory. -/
  | ld (w d : Nat) (a : Ea)
  /-- `movsx`, `movzx` from `w` bytes of memory to `dw` bytes of a register. -/
  | ldx (signed : Bool) (w dw d : Nat) (a : Ea)
  /-- `mov`, `movss`, `movsd`, `movaps` to memory. -/
  | st (w s : Nat) (a : Ea)
  | lea (d : Nat) (a : Ea)
  /-- `mov`, `movss`, `movsd` between registers. -/
  | mov (w d s : Nat)
  | movx (signed : Bool) (w dw d s : Nat)
  /-- `mov` of a constant. -/
  | movi (w d : Nat) (v : Int)
  /-- `xor` of a register with itself. -/
  | zero (d : Nat)
  /-- `add` or `sub` of a constant, 64 bits. -/
  | addi (d : Nat) (v : Int)
  /-- `add` of a constant to `w` bytes of a register. -/
  | addw (w d : Nat) (v : Int)
  /-- `mov` of a constant to memory. -/
  | sti (w : Nat) (v : Int) (a : Ea)
  /-- `add` of a constant to memory. -/
  | addm (w : Nat) (v : Int) (a : Ea)
  | push (r : Nat)
  | pushm (a : Ea)
  | pushi (v : Int)
  | pop (r : Nat)
  /-- `rep movsq`. -/
  | repMovsq
  /-- `call`; the return address is `ra`. -/
  | call (ra : Int)
  | ret
  | leave
  deriving DecidableEq, Repr

def M.set (s : M) (r : Nat) (v : Int) : M := { s with reg := fun x => if x = r then v else s.reg x }

def M.write (s : M) (a : Int) (bs : List UInt8) : M := { s with mem := wr s.mem a bs }

/-- A register after `w` bytes are moved into it: 32 bit operations clear the upper half of
a general purpose register, narrower ones leave the rest alone.  Loads of vector registers
clear the rest, moves between them do not. -/
def merged (keep : Bool) (w : Nat) (old v : Int) : Int :=
  if keep then old - old % 256 ^ w + v % 256 ^ w else v % 256 ^ w

def M.pushBytes (s : M) (bs : List UInt8) : M :=
  (s.write (s.reg SP - 8) bs).set SP (s.reg SP - 8)

/-- One step of `rep movsq`. -/
def M.movsq (s : M) : M :=
  (((s.write (s.reg DI) (rd s.mem (s.reg SI) 8)).set SI (s.reg SI + 8)).set DI (s.reg DI + 8))

def M.movsqs : Nat → M → M
  | 0, s => s
  | n + 1, s => M.movsqs n s.movsq

/-- A constant operand of `w` bytes: but for `movi`, it is encoded in at most 4 bytes, and extended with its sign if the operation is of 8. -/
def encoded (w : Nat) (v : Int) : Int := if w = 8 then sval (le 4 v) else v

def step (s : M) : Ins → M
  | .ld w d a => s.set d (merged (decide (w < 4)) w (s.reg d) (val (rd s.mem (s.ea a) w)))
  | .ldx sg w dw d a =>
    let bs := rd s.mem (s.ea a) w
    s.set d (merged (decide (dw < 4)) dw (s.reg d) (if sg then sval bs else val bs))
  | .st w r a => s.write (s.ea a) (le w (s.reg r))
  | .lea d a => s.set d (s.ea a)
  | .mov w d r => s.set d (merged (decide (w < 4) || decide (17 ≤ d)) w (s.reg d) (s.reg r))
  | .movx sg w dw d r =>
    let bs := le w (s.reg r)
    s.set d (merged (decide (dw < 4)) dw (s.reg d) (if sg then sval bs else val bs))
  | .movi w d v => s.set d (merged (decide (w < 4)) w (s.reg d) v)
  | .zero d => s.set d 0
  | .addi d v => s.set d (s.reg d + v)
  | .addw w d v => s.set d (merged (decide (w < 4)) w (s.reg d) (s.reg d + encoded w v))
  | .sti w v a => s.write (s.ea a) (le w (encoded w v))
  | .addm w v a => s.write (s.ea a) (le w (val (rd s.mem (s.ea a) w) + encoded w v))
  | .push r => s.pushBytes (le 8 (s.reg r))
  | .pushm a => s.pushBytes (rd s.mem (s.ea a) 8)
  | .pushi v => s.pushBytes (le 8 (encoded 8 v))
  | .pop r => (s.set SP (s.reg SP + 8)).set r (val (rd s.mem (s.reg SP) 8))
  | .repMovsq => (M.movsqs (s.reg CX).toNat s).set CX 0
  | .call ra => s.pushBytes (le 8 ra)
  | .ret => (s.set SP (s.reg SP + 8)).set IP (val (rd s.mem (s.reg SP) 8))
  | .leave => (s.set SP (s.reg BP + 8)).set BP (val (rd s.mem (s.reg BP) 8))

def run (s : M) (is : List Ins) : M := is.foldl step s

end Verif.Abi
