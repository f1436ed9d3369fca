import Verif.Types.Model

/-!
# Constant folding (src/parser/eval.c)

A constant operand is its `Type` and the 64 bits of `union value` (`imm.i` reads them as signed, `imm.u` as unsigned).
Integer types only; floating point cases are not modelled.  Outcomes: a constant, `runtime` when the operation is not
folded (division by zero), `diag` for a diagnosed error, `ub` when the compiler itself would execute undefined behaviour
(signed overflow of `long`, shift counts outside 0..63, left shift of a negative `long`, division overflow) and `crash`
for a failed assertion.
-/

namespace Verif.Fold
open Verif.Types

/-- `struct var` of kind `IMMEDIATE`. -/
structure Imm where
  ty : Ty
  v : BitVec 64
  deriving DecidableEq, Repr

inductive Out
  | const (i : Imm)
  | runtime
  | diag
  | ub
  | crash
  deriving DecidableEq, Repr

/-- `is_signed`, type.h:67. -/
def isSigned (t : Ty) : Bool := !t.isUnsigned && t.isInteger

/-- The casts `(signed char)`, `(short)`, `(int)` of the host followed by conversion to `long`. -/
def signedCast (w : Nat) (v : BitVec 64) : BitVec 64 := (v.setWidth w).signExtend 64

/-- The casts `(unsigned char)` etc. followed by conversion to `unsigned long`. -/
def unsignedCast (w : Nat) (v : BitVec 64) : BitVec 64 := (v.setWidth w).setWidth 64

/-- `imm_signed`, eval.c:147-171 (`T_BOOL` is excluded by the assertion). -/
def immSigned (t : Ty) (n : BitVec 64) : Out :=
  if isSigned t then
    match t.of with
    | .char => .const ⟨t, signedCast 8 n⟩
    | .short => .const ⟨t, signedCast 16 n⟩
    | .int => .const ⟨t, signedCast 32 n⟩
    | .long => .const ⟨t, n⟩
    | _ => .crash
  else .crash

/-- `imm_unsigned`, eval.c:173-187: `0xFFFFFFFFu >> ((4 - size) * 8)` is a mask of `8 * size` bits. -/
def immUnsigned (t : Ty) (n : BitVec 64) : Out :=
  if t.isUnsigned then
    if scalarSize t < 8 then
      if scalarSize t = 4 ∨ scalarSize t = 2 ∨ scalarSize t = 1 then
        .const ⟨t, n &&& (0xFFFFFFFF#64 >>> ((4 - scalarSize t) * 8))⟩
      else .crash
    else .const ⟨t, n⟩
  else .crash

/-- `convert`, eval.c:348-414, for integer source types. -/
def convert (v : BitVec 64) (to : Ty) : Option (BitVec 64) :=
  match to.of with
  | .bool => some (if v ≠ 0 then 1 else 0)
  | .char => some (if isSigned to then signedCast 8 v else unsignedCast 8 v)
  | .short => some (if isSigned to then signedCast 16 v else unsignedCast 16 v)
  | .int => some (if isSigned to then signedCast 32 v else unsignedCast 32 v)
  | .long | .pointer => some v
  | _ => none

/-- `cast_operand`, eval.c:416-439, on a constant. -/
def castOperand (i : Imm) (t : Ty) : Option Imm :=
  if i.ty = t then some i
  else (convert i.v t).map fun v => ⟨t, v⟩

/-- Signed `long` arithmetic of the host: undefined when the exact result does not fit. -/
def hostLong (x : Int) : Option (BitVec 64) :=
  if -2 ^ 63 ≤ x ∧ x < 2 ^ 63 then some (BitVec.ofInt 64 x) else none

inductive Op
  | mul | div | mod | add | sub | and | or | xor | shl | shr | eq | ne | ge | gt
  deriving DecidableEq, Repr

/-- The host operation on `imm.i`. -/
def signedOp (op : Op) (l r : BitVec 64) : Option (BitVec 64) :=
  match op with
  | .mul => hostLong (l.toInt * r.toInt)
  | .div => if r = 0 then none else hostLong (l.toInt.tdiv r.toInt)
  | .mod => if r = 0 ∨ (hostLong (l.toInt.tdiv r.toInt)).isNone then none else hostLong (l.toInt.tmod r.toInt)
  | .add => hostLong (l.toInt + r.toInt)
  | .sub => hostLong (l.toInt - r.toInt)
  | .and => some (l &&& r)
  | .or => some (l ||| r)
  | .xor => some (l ^^^ r)
  | .shl => if 0 ≤ r.toInt ∧ r.toInt < 64 ∧ 0 ≤ l.toInt then hostLong (l.toInt * 2 ^ r.toInt.toNat) else none
  | .shr => if 0 ≤ r.toInt ∧ r.toInt < 64 then some (l.sshiftRight r.toInt.toNat) else none
  | _ => none

/-- The host operation on `imm.u`. -/
def unsignedOp (op : Op) (l r : BitVec 64) : Option (BitVec 64) :=
  match op with
  | .mul => some (l * r)
  | .div => if r = 0 then none else some (BitVec.ofNat 64 (l.toNat / r.toNat))
  | .mod => if r = 0 then none else some (BitVec.ofNat 64 (l.toNat % r.toNat))
  | .add => some (l + r)
  | .sub => some (l - r)
  | .and => some (l &&& r)
  | .or => some (l ||| r)
  | .xor => some (l ^^^ r)
  | .shl => if r.toNat < 64 then some (l <<< r.toNat) else none
  | .shr => if r.toNat < 64 then some (l >>> r.toNat) else none
  | _ => none

/-- `is_signed(type) ? imm_signed(...) : imm_unsigned(...)`, e.g. eval.c:534-536. -/
def finish (op : Op) (t : Ty) (l r : BitVec 64) : Out :=
  if isSigned t then
    match signedOp op l r with
    | some n => immSigned t n
    | none => .ub
  else
    match unsignedOp op l r with
    | some n => immUnsigned t n
    | none => .ub

/-- `eval_immediate_compare`, eval.c:874-881, on integer types. -/
def compareOp (op : Op) (t : Ty) (l r : BitVec 64) : Bool :=
  match op with
  | .eq => l == r
  | .ne => l != r
  | .ge => if isSigned t then decide (r.toInt ≤ l.toInt) else decide (r.toNat ≤ l.toNat)
  | .gt => if isSigned t then decide (r.toInt < l.toInt) else decide (r.toNat < l.toNat)
  | _ => false

/-- `var_int`. -/
def immInt (b : Bool) : Imm := ⟨{ kind := .int }, if b then 1 else 0⟩

/-- `eval_mul` 512, `eval_div` 553, `eval_mod` 591, `eval_add` 631, `eval_sub` 732, `eval_cmp_eq` 883, `eval_cmp_ne` 900,
`eval_cmp_ge` 933, `eval_cmp_gt` 955, `eval_or` 977, `eval_xor` 1007, `eval_and` 1037, `eval_lshift` 1067, `eval_rshift`
1096 for two integer constants. -/
def binary (op : Op) (l r : Imm) : Out :=
  if !l.ty.isInteger || !r.ty.isInteger then .diag
  else match op with
  | .shl | .shr =>
    match promoteInteger l.ty with
    | .error _ => .crash
    | .ok t =>
      match castOperand l t with
      | none => .crash
      | some l => finish op t l.v r.v
  | .eq | .ne | .ge | .gt =>
    match usualConversion l.ty r.ty with
    | .error _ => .crash
    | .ok t =>
      match castOperand l t, castOperand r t with
      | some l, some r => .const (immInt (compareOp op t l.v r.v))
      | _, _ => .crash
  | _ =>
    match usualConversion l.ty r.ty with
    | .error _ => .crash
    | .ok t =>
      match castOperand l t, castOperand r t with
      | some l, some r => if (op = .div ∨ op = .mod) ∧ r.v = 0 then .runtime else finish op t l.v r.v
      | _, _ => .crash

/-- `eval_not`, eval.c:1125-1151. -/
def complement (i : Imm) : Out :=
  if !i.ty.isInteger then .diag
  else match promoteInteger i.ty with
  | .error _ => .crash
  | .ok t =>
    match castOperand i t with
    | none => .crash
    | some i => if isSigned t then immSigned t (~~~i.v) else immUnsigned t (~~~i.v)

/-- `eval_neg`, eval.c:1153-1185, on integers. -/
def negate (i : Imm) : Out := binary .sub (immInt false) i

/-- `eval_cast` of a constant, eval.c:441-482. -/
def cast (i : Imm) (t : Ty) : Out :=
  match castOperand i t with
  | some i => .const i
  | none => .diag

end Verif.Fold
