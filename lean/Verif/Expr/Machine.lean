import Verif.Arith.Machine
import Verif.Compare.Spec

/-!
# A machine with flags

The machine of `Arith/Machine.lean` with `CMP` and `SETcc` (Intel SDM, vol. 2).  Other
instructions leave the flags in a state that is not known.
-/

namespace Verif.Expr

open Verif.Abi (M Ea val rd)
open Verif.Conv (CM)
open Verif.Arith (AIns)
open Verif.Compare (Flags CC cmpFlags)

/-- An operand of `CMP`. -/
inductive Arg
  | reg (r : Nat)
  | mem (a : Ea)
  | imm (n : Int)
  deriving DecidableEq, Repr

inductive XIns
  | a (i : AIns)
  /-- `CMP` of `w` bytes, with the difference `d - s`. -/
  | cmp (w : Nat) (d s : Arg)
  /-- The byte of register `r` is 1 if the condition holds, and 0 otherwise. -/
  | setcc (c : CC) (r : Nat)
  deriving DecidableEq, Repr

/-- The flags are none if they are not known. -/
abbrev XM := CM × Option Flags

/-- A number that has the bits of the operand. -/
def Arg.value (s : M) (w : Nat) : Arg → Int
  | .reg r => s.reg r
  | .mem a => val (rd s.mem (s.ea a) w)
  | .imm n => Abi.encoded w n

/-- The parity flag: an even number of bits in the low byte. -/
def parity {w : Nat} (x : BitVec w) : Bool := (List.range 8).foldl (fun b i => b != x.getLsbD i) true

def compareFlags (w : Nat) (a b : Int) : Flags :=
  cmpFlags (BitVec.ofInt (8 * w) a) (BitVec.ofInt (8 * w) b) (parity (BitVec.ofInt (8 * w) a - BitVec.ofInt (8 * w) b))

def step (enc : Nat → Option ℚ → List UInt8) (s : XM) : XIns → Option XM
  | .a i => (Arith.step enc s.1 i).map (·, none)
  | .cmp w d r => some (s.1, some (compareFlags w (d.value s.1.m w) (r.value s.1.m w)))
  | .setcc c r => s.2.map fun f => ({ s.1 with m := Arith.set s.1.m 1 r (if c.eval f then 1 else 0) }, some f)

def run (enc : Nat → Option ℚ → List UInt8) (s : XM) : List XIns → Option XM
  | [] => some s
  | i :: r => (step enc s i).bind (run enc · r)

end Verif.Expr
