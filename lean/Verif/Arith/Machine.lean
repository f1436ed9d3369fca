import Verif.Conv.Machine

/-!
# A machine with arithmetic

The machine of `Conv/Machine.lean` with the integer instructions for the operators of C (Intel
SDM, vol. 2).  Division may fault.
-/

namespace Verif.Arith

open Verif.Abi (M Ea val sval le rd merged encoded AX CX DX)
open Verif.Conv (CM CIns Opd low)

/-- Operations of two operands. -/
inductive Alu
  | add | sub | and | or | xor
  deriving DecidableEq, Repr

/-- Of operands of `w` bytes; what is more than `w` bytes is to be ignored. -/
def Alu.eval (w : Nat) (a b : Int) : Alu → Int
  | .add => a + b
  | .sub => a - b
  | .and => ((a % 256 ^ w).toNat &&& (b % 256 ^ w).toNat : Nat)
  | .or => ((a % 256 ^ w).toNat ||| (b % 256 ^ w).toNat : Nat)
  | .xor => ((a % 256 ^ w).toNat ^^^ (b % 256 ^ w).toNat : Nat)

/-- Operands are of `w` bytes; `d` is the register that is changed. -/
inductive AIns
  | conv (i : CIns)
  /-- `d := d o s`, of two registers. -/
  | alu (o : Alu) (w d s : Nat)
  /-- `d := d o v`, with a constant. -/
  | alui (o : Alu) (w d : Nat) (v : Int)
  /-- `d := d o memory`. -/
  | alum (o : Alu) (w d : Nat) (a : Ea)
  /-- `memory := memory o s`. -/
  | alus (o : Alu) (w : Nat) (a : Ea) (s : Nat)
  /-- `memory := memory o v`. -/
  | alusi (o : Alu) (w : Nat) (a : Ea) (v : Int)
  | not (w d : Nat)
  /-- `rdx:rax := rax * operand`, unsigned. -/
  | mul (w : Nat) (s : Opd)
  /-- `cltd`, `cqto`: the sign of `rax` in `rdx`. -/
  | cxy (w : Nat)
  /-- `div`, `idiv`: `rdx:rax` by the operand, quotient in `rax`, remainder in `rdx`. -/
  | div (signed : Bool) (w : Nat) (s : Opd)
  /-- Shifts by `%cl`. -/
  | shlc (w d : Nat)
  | shrc (signed : Bool) (w d : Nat)
  deriving DecidableEq, Repr

def set (s : M) (w d : Nat) (v : Int) : M := s.set d (merged (decide (w < 4)) w (s.reg d) v)

/-- The unsigned number an operand is. -/
def operand (s : M) (w : Nat) : Opd → Int
  | .reg r => s.reg r % 256 ^ w
  | .mem a => val (rd s.mem (s.ea a) w)

/-- The same bits as a signed number. -/
def signed (w : Nat) (v : Int) : Int := if 2 * v < 256 ^ w then v else v - 256 ^ w

/-- How far the processor shifts: 5 bits of `%cl`, or 6 for operands of 64 bits. -/
def count (s : M) (w : Nat) : Nat := (s.reg CX % (if w = 8 then 64 else 32)).toNat

def exec (s : M) : AIns → Option M
  | .conv _ => none
  | .alu o w d r => some (set s w d (o.eval w (s.reg d) (s.reg r)))
  | .alui o w d v => some (set s w d (o.eval w (s.reg d) (encoded w v)))
  | .alum o w d a => some (set s w d (o.eval w (s.reg d) (val (rd s.mem (s.ea a) w))))
  | .alus o w a r => some (s.write (s.ea a) (le w (o.eval w (val (rd s.mem (s.ea a) w)) (s.reg r))))
  | .alusi o w a v => some (s.write (s.ea a) (le w (o.eval w (val (rd s.mem (s.ea a) w)) (encoded w v))))
  | .not w d => some (set s w d (-1 - s.reg d))
  | .mul w o =>
    let p := s.reg AX % 256 ^ w * operand s w o
    some (set (set s w AX p) w DX (p / 256 ^ w))
  | .cxy w => some (set s w DX (if low w (s.reg AX) < 0 then -1 else 0))
  | .div false w o =>
    let n := s.reg DX % 256 ^ w * 256 ^ w + s.reg AX % 256 ^ w
    let d := operand s w o
    if d = 0 ∨ 256 ^ w ≤ n / d then none
    else some (set (set s w AX (n / d)) w DX (n % d))
  | .div true w o =>
    let n := signed w (s.reg DX % 256 ^ w) * 256 ^ w + s.reg AX % 256 ^ w
    let d := signed w (operand s w o)
    let q := n.tdiv d
    if d = 0 ∨ 256 ^ w ≤ 2 * q ∨ 2 * q < -256 ^ w then none
    else some (set (set s w AX q) w DX (n.tmod d))
  | .shlc w d => some (set s w d (s.reg d * 2 ^ count s w))
  | .shrc sg w d =>
    some (set s w d ((if sg then signed w (s.reg d % 256 ^ w) else s.reg d % 256 ^ w) / 2 ^ count s w))

/-- One instruction; none if it faults. -/
def step (enc : Nat → Option ℚ → List UInt8) (s : CM) : AIns → Option CM
  | .conv i => some (Conv.step enc s i)
  | i => if s.skip = none then do some { s with m := (← exec s.m i) } else some s

def run (enc : Nat → Option ℚ → List UInt8) (s : CM) : List AIns → Option CM
  | [] => some s
  | i :: is => do run enc (← step enc s i) is

end Verif.Arith
