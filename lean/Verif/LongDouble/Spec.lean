import Verif.Tac

/-!
# The values of type `long double`

The 80 bit format of the x87 unit (Intel SDM vol. 1, 4.2.2): a sign, 15 bits of exponent,
and 64 bits of significand with an explicit integer bit.
-/

namespace Verif.LongDouble

/-- The ten bytes of a `long double`, as fields. -/
structure LD where
  sign : Bool
  exp : BitVec 15
  sig : BitVec 64
  deriving DecidableEq, Repr

namespace LD

/-- Exponent all ones and a fraction that is not zero. -/
def isNaN (x : LD) : Bool := decide (x.exp.toNat = 32767 ∧ x.sig.toNat ≠ 2 ^ 63)

/-- The number, scaled by `2 ^ (16383 + 63)`.  Denormal numbers (exponent 0) have the scale of
exponent 1.  Infinity comes out larger than every finite number, which is what comparisons
need. -/
def number (x : LD) : Int :=
  (if x.sign then -1 else 1) * ((x.sig.toNat * 2 ^ (max x.exp.toNat 1) : Nat) : Int)

/-- What the processor produces: the integer bit is set exactly when the exponent is not 0. -/
def Proper (x : LD) : Prop := 2 ^ 63 ≤ x.sig.toNat ↔ x.exp.toNat ≠ 0

instance (x : LD) : Decidable x.Proper := inferInstanceAs (Decidable (_ ↔ _))

def isZero (x : LD) : Bool := decide (x.exp.toNat = 0 ∧ x.sig.toNat = 0)

def isFinite (x : LD) : Bool := decide (x.exp.toNat ≠ 32767)

/-- The same with the other sign: what unary minus means (IEC 60559). -/
def negated (x : LD) : LD := { x with sign := !x.sign }

/-- `r` is the difference of finite `a` and `b` in the default rounding mode, when that
difference can be represented: an exact difference of zero is `+0`, but for `-0 - +0`. -/
structure IsDifference (a b r : LD) : Prop where
  proper : r.Proper
  finite : r.isFinite
  number : r.number = a.number - b.number
  zero : r.isZero → r.sign = (a.isZero && b.isZero && a.sign && !b.sign)

end LD

/-- `2 ^ e * s` as numerator and denominator. -/
def scaled (s : Nat) (e : Int) : Nat × Nat :=
  if 0 ≤ e then (s * 2 ^ e.toNat, 1) else (s, 2 ^ (-e).toNat)

/-- What C99 6.4.4.2 asks of a constant with the exact value `n / d`: the nearest value, or
the next one to either side of it.  The distance is then at most one and a half units in the
last of `p` places, and this is the condition.  The value is `s * 2 ^ e` with
`2 ^ (p - 1) ≤ s < 2 ^ p`. -/
def Acceptable (n d s : Nat) (e : Int) : Prop :=
  let v := scaled s e
  let u := scaled 1 e
  -- 2 * |v - n/d| ≤ 3 * u
  2 * ((v.1 * d : Nat) - (n * v.2 : Nat) : Int).natAbs * u.2 ≤ 3 * u.1 * (v.2 * d)

instance (n d s : Nat) (e : Int) : Decidable (Acceptable n d s e) :=
  inferInstanceAs (Decidable (_ ≤ _))

end Verif.LongDouble
