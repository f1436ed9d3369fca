import Verif.Types.Spec

/-!
# Values of integer constant operations in C (C99 6.3.1.3, 6.5), LP64, two's complement
-/

namespace Verif.Fold.Spec
open Verif.Types.Spec

/-- Number of value and sign bits of an integer type other than `_Bool`. -/
def width : Basic → Nat
  | .char | .uchar => 8
  | .short | .ushort => 16
  | .int | .uint => 32
  | _ => 64

/-- The type can represent the value. -/
def fits (t : Basic) (n : Int) : Prop := ∃ lo hi, t.range = some (lo, hi) ∧ lo ≤ n ∧ n ≤ hi

/-- Conversion, 6.3.1.2 and 6.3.1.3; to a signed type that can not represent the value: modulo 2^width. -/
def conv (t : Basic) (n : Int) : Int :=
  if t = .bool then (if n = 0 then 0 else 1)
  else if t.isSigned then n.bmod (2 ^ width t)
  else n % 2 ^ width t

/-- The result of an arithmetic operation: reduced for unsigned types, undefined if a signed type can not represent it. -/
def result (t : Basic) (n : Int) : Option Int :=
  match t.range with
  | some (lo, hi) => if t.isSigned then (if lo ≤ n ∧ n ≤ hi then some n else none) else some (n % 2 ^ width t)
  | none => none

/-- Value of a bit pattern of the type's width. -/
def ofBits (t : Basic) (x : BitVec (width t)) : Int := if t.isSigned then x.toInt else x.toNat

inductive Op
  | mul | div | mod | add | sub | and | or | xor | shl | shr | eq | ne | ge | gt

/-- Type and value of `x op y`, `none` when C does not define it.  Right shift of a negative value is arithmetic. -/
def binary (op : Op) (a b : Basic) (x y : Int) : Option (Basic × Int) :=
  let t := a.common b
  let l := conv t x
  let r := conv t y
  match op with
  | .mul => (result t (l * r)).map (t, ·)
  | .div => if r = 0 then none else (result t (l.tdiv r)).map (t, ·)
  | .mod => if r = 0 ∨ result t (l.tdiv r) = none then none else some (t, l - r * l.tdiv r)
  | .add => (result t (l + r)).map (t, ·)
  | .sub => (result t (l - r)).map (t, ·)
  | .and => some (t, ofBits t (BitVec.ofInt _ l &&& BitVec.ofInt _ r))
  | .or => some (t, ofBits t (BitVec.ofInt _ l ||| BitVec.ofInt _ r))
  | .xor => some (t, ofBits t (BitVec.ofInt _ l ^^^ BitVec.ofInt _ r))
  | .shl =>
    let p := a.promote
    if 0 ≤ y ∧ y < width p ∧ (p.isSigned = true → 0 ≤ x) then (result p (x * 2 ^ y.toNat)).map (p, ·) else none
  | .shr =>
    let p := a.promote
    if 0 ≤ y ∧ y < width p then some (p, x / 2 ^ y.toNat) else none
  | .eq => some (.int, if l = r then 1 else 0)
  | .ne => some (.int, if l = r then 0 else 1)
  | .ge => some (.int, if r ≤ l then 1 else 0)
  | .gt => some (.int, if r < l then 1 else 0)

/-- `~x`: all bits inverted. -/
def complement (a : Basic) (x : Int) : Basic × Int :=
  (a.promote, ofBits a.promote (~~~(BitVec.ofInt _ x)))

/-- `-x`. -/
def negate (a : Basic) (x : Int) : Option (Basic × Int) := (result a.promote (-x)).map (a.promote, ·)

end Verif.Fold.Spec
