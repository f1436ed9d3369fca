import Verif.Arith.Model
import Verif.Conv.Spec

/-!
# What the operators of C mean

C99 6.5.3.3, 6.5.5-6.5.7, 6.5.10-6.5.12, for operands that have been converted to a common
type.  None is undefined behaviour.
-/

namespace Verif.Arith

open Verif.Abi (M Src Place AX CX DX R11 le val rd isTempInt)
open Verif.Conv (CM Val IsSize)

/-- The integer type of `w` bytes has the number. -/
def Has (w : Nat) (sg : Bool) (c : Int) : Prop :=
  if sg then -(2 ^ (8 * w - 1)) ≤ c ∧ c < 2 ^ (8 * w - 1) else 0 ≤ c ∧ c < 2 ^ (8 * w)

instance (w sg c) : Decidable (Has w sg c) := by unfold Has; infer_instance

/-- The result of an operation: unsigned numbers are reduced, a signed one must be in the range of
the type. -/
def result (w : Nat) (sg : Bool) (c : Int) : Option Int :=
  if sg then (if Has w sg c then some c else none) else some (c % 2 ^ (8 * w))

/-- The bits of a number in two's complement. -/
def bits (w : Nat) (a : Int) : Nat := (a % 2 ^ (8 * w)).toNat

/-- The number that bits stand for. -/
def number (w : Nat) (sg : Bool) (k : Nat) : Int := if sg ∧ 2 ^ (8 * w - 1) ≤ k then (k : Int) - 2 ^ (8 * w) else k

def meaning (w : Nat) (sg : Bool) (a b : Int) : Op → Option Int
  | .add => result w sg (a + b)
  | .sub => result w sg (a - b)
  | .mul => result w sg (a * b)
  | .div => if b = 0 then none else result w sg (a.tdiv b)
  | .mod => if b = 0 ∨ ¬ Has w sg (a.tdiv b) then none else some (a.tmod b)
  | .and => some (number w sg (bits w a &&& bits w b))
  | .or => some (number w sg (bits w a ||| bits w b))
  | .xor => some (number w sg (bits w a ^^^ bits w b))
  | .shl =>
    if 0 ≤ b ∧ b < 8 * w ∧ (sg → 0 ≤ a) then result w sg (a * 2 ^ b.toNat) else none
  | .shr => if 0 ≤ b ∧ b < 8 * w then some (a / 2 ^ b.toNat) else none

/-- An operand as the parser makes it: a constant, the address of an object, a variable, which may
be in a register for temporaries, or an object behind a pointer, which may be in such a
register; a bit-field is inside of what its type covers. -/
structure Operand (s : M) (v : Val) : Prop where
  size : IsSize v.sz
  imm : ∀ n, v.src = .imm n → v.field = none
  addr : ∀ p, v.src = .addr p → v.field = none ∧ v.sz = 8 ∧ ∀ r, p ≠ .temp r
  temp : ∀ r, v.src = .place (.temp r) → isTempInt r ∧ v.field = none
  pointer : ∀ r o, v.src = .deref (.temp r) o → isTempInt r ∧ 0 ≤ s.reg r ∧ s.reg r < 256 ^ 8
  field : ∀ off width, v.field = some (off, width) →
    0 < width ∧ width < 64 ∧ off + width ≤ 8 * (if v.sz ≤ 4 then 4 else 8) ∧ width ≤ 8 * v.sz

/-- A target: no constant and no address, and a field does not go beyond its storage unit. -/
structure Target (s : M) (v : Val) : Prop extends Operand s v where
  noImm : ∀ n, v.src ≠ .imm n
  noAddr : ∀ p, v.src ≠ .addr p
  inside : ∀ off width, v.field = some (off, width) → off + width ≤ 8 * v.sz

/-- Registers that any code may change. -/
def scratch : List Nat := [AX, CX, DX, R11]

/-- The target has been given the number `c`, as far as it has room for it, and nothing else has
changed but scratch registers. -/
structure Assigned (s t : CM) (v : Val) (c : Int) : Prop where
  same : t = { s with m := t.m }
  /-- A target in a register. -/
  temp : ∀ r, v.src = .place (.temp r) → t.m.reg r % 256 ^ v.sz = c % 256 ^ v.sz ∧ t.m.mem = s.m.mem
  full : ∀ r, v.src = .place (.temp r) → v.sz = 8 → 0 ≤ t.m.reg r ∧ t.m.reg r < 256 ^ 8
  reg : ∀ r, r ∉ scratch → v.src ≠ .place (.temp r) → t.m.reg r = s.m.reg r
  /-- An object in memory. -/
  plain : (∀ r, v.src ≠ .place (.temp r)) → v.field = none → rd t.m.mem (v.src.object s.m) v.sz = le v.sz c
  /-- The bits of a field, and the others of its storage unit. -/
  field : ∀ off width, v.field = some (off, width) →
    val (rd t.m.mem (v.src.object s.m) v.sz) / 2 ^ off % 2 ^ width = c % 2 ^ width ∧
    val (rd t.m.mem (v.src.object s.m) v.sz) % 2 ^ off = val (rd s.m.mem (v.src.object s.m) v.sz) % 2 ^ off ∧
    val (rd t.m.mem (v.src.object s.m) v.sz) / 2 ^ (off + width) = val (rd s.m.mem (v.src.object s.m) v.sz) / 2 ^ (off + width)
  mem : ∀ x, x < v.src.object s.m ∨ v.src.object s.m + v.sz ≤ x → t.m.mem x = s.m.mem x

/-- Without a target, the number is in a register. -/
structure Result (s t : CM) (r w : Nat) (c : Int) : Prop where
  same : t = { s with m := t.m }
  low : t.m.reg r % 256 ^ w = c % 256 ^ w
  reg : ∀ r, r ∉ scratch → t.m.reg r = s.m.reg r
  mem : t.m.mem = s.m.mem

/-- The number `c` of `w` bytes is assigned to the target, or in a register if there is none. -/
def Outcome (s t : CM) (v : Option Val) (r w : Nat) (c : Int) : Prop :=
  match v with
  | none => Result s t r w c
  | some x => Assigned s t x c

/-- What a target can hold. -/
def Room (v : Val) (c : Int) : Prop :=
  let k := match v.field with
    | none => 8 * v.sz
    | some (_, width) => width
  if v.signed then -(2 ^ (k - 1)) ≤ c ∧ c < 2 ^ (k - 1) else 0 ≤ c ∧ c < 2 ^ k

end Verif.Arith
