import Verif.Abi.Machine
import Mathlib.Algebra.Order.Field.Power
import Mathlib.Algebra.Order.Field.Rat
import Mathlib.Algebra.Order.Floor.Ring
import Mathlib.Algebra.Order.Floor.Semiring
import Mathlib.Data.Rat.Floor
import Mathlib.Data.Int.Log
import Mathlib.Tactic.FieldSimp
import Mathlib.Tactic.Positivity
import Mathlib.Tactic.Linarith

/-!
# Numbers of floating point types

What the bytes of a `float`, `double` or `long double` mean (IEEE 754, Intel SDM vol. 1, 4.2),
and rounding to the nearest, ties to even.
-/

namespace Verif.Conv

/-- To the nearest integer, ties to the even one. -/
def halfEven (q : ℚ) : Int :=
  if q - ⌊q⌋ < 1 / 2 then ⌊q⌋
  else if 1 / 2 < q - ⌊q⌋ then ⌊q⌋ + 1
  else if ⌊q⌋ % 2 = 0 then ⌊q⌋ else ⌊q⌋ + 1

/-- The unit in the last of `p` places. -/
def ulp (p : Nat) (x : ℚ) : ℚ := (2 : ℚ) ^ (Int.log 2 |x| - ((p : Int) - 1))

/-- `x` rounded to `p` bits.  There are no bounds on the exponent here. -/
def rnd (p : Nat) (x : ℚ) : ℚ := halfEven (x / ulp p x) * ulp p x

/-- Towards zero: what C99 6.3.1.4 asks for when a number becomes an integer. -/
def trunc (x : ℚ) : Int := if 0 ≤ x then ⌊x⌋ else -⌊-x⌋

/-- Significant bits of a type of `w` bytes. -/
def prec (w : Nat) : Nat := if w = 4 then 24 else if w = 8 then 53 else 64

/-- An IEEE 754 number with `eb` bits of exponent and `fb` bits of fraction; none for infinity
and NaN. -/
def ieee (eb fb n : Nat) : Option ℚ :=
  let sign : ℚ := if n / 2 ^ (eb + fb) % 2 = 1 then -1 else 1
  let e : Nat := n / 2 ^ fb % 2 ^ eb
  let f : Nat := n % 2 ^ fb
  let bias : Int := 2 ^ (eb - 1) - 1
  if e = 2 ^ eb - 1 then none
  else if e = 0 then some (sign * (f : ℚ) * 2 ^ (1 - bias - fb))
  else some (sign * ((2 ^ fb + f : Nat) : ℚ) * 2 ^ ((e : Int) - bias - fb))

/-- The 80 bit format. -/
def x87 (n : Nat) : Option ℚ :=
  let sign : ℚ := if n / 2 ^ 79 % 2 = 1 then -1 else 1
  let e : Nat := n / 2 ^ 64 % 2 ^ 15
  let f : Nat := n % 2 ^ 64
  if e = 2 ^ 15 - 1 then none else some (sign * (f : ℚ) * 2 ^ (((max e 1 : Nat) : Int) - 16383 - 63))

/-- The number represented by 4, 8 or 10 bytes. -/
def num (bs : List UInt8) : Option ℚ :=
  let n := (Abi.val bs).toNat
  if bs.length = 4 then ieee 8 23 n
  else if bs.length = 8 then ieee 11 52 n
  else if bs.length = 10 then x87 n
  else none

/-- Can be written with `p` bits. -/
def Rep (p : Nat) (x : ℚ) : Prop := ∃ (s : Int) (e : Int), s.natAbs < 2 ^ p ∧ x = s * (2 : ℚ) ^ e

end Verif.Conv
