import Verif.Assign.Operators

/-!
# Types of operands of the other operators and of casts

Model of src/parser/eval.c:442-482 (`eval_cast`), 512-551 (`eval_mul`), 553-589 (`eval_div`), 591-629 (`eval_mod`), 977-1123
(`eval_or`, `eval_xor`, `eval_and`, `eval_lshift`, `eval_rshift`), 1125-1182 (`eval_not`, `eval_neg`) and 1313-1339 (`eval_unary_plus`), with
src/parser/typetree.c:1031-1039 (`promote_integer`), 1055-1080 (`usual_arithmetic_conversion`) and the operator `!` in
src/parser/expression.c:329-356 (`unary_expression`); of each the types only.

Simplifications.  As in Assign/Operators.
-/

namespace Verif.Assign

inductive Bin
  | mul | div | mod | and | or | xor | shl | shr
  deriving DecidableEq, Repr

inductive Un
  | plus | minus | compl | not
  deriving DecidableEq, Repr

/-- typetree.c:1031-1039 -/
def promote (t : Ty) : Ty := if sizeOf (fun _ => 0) t < 4 then intTy else t

def isReal : Ty → Bool
  | .flt _ _ => true
  | _ => false

/-- typetree.c:1055-1080 with an `int` on the left -/
def usualWithInt (t : Ty) : Ty :=
  if isReal t then t.unqualified
  else
    let u := promote t
    if 4 > sizeOf (fun _ => 0) u then intTy else u.unqualified

/-- `is_integer(usual_arithmetic_conversion(l, r))` for arithmetic types -/
def usualInteger (l r : Ty) : Bool := !(isReal l || isReal r)

/-- eval.c:512-629 and 977-1123 -/
def binTypes (op : Bin) (l r : Ty) : Typed :=
  match op with
  | .mul | .div => if !l.isArithmetic || !r.isArithmetic then .bad else .good .usual
  | .mod =>
    if l.isArithmetic && r.isArithmetic then
      (if usualInteger l r then .good .usual else .bad)
    else .bad
  | .and | .or | .xor => if !l.isInteger || !r.isInteger then .bad else .good .usual
  | .shl | .shr => if !l.isInteger || !r.isInteger then .bad else .good (.ty (promote l))

/-- eval.c:1153-1182; `long double` and integers are subtracted from an `int` zero. -/
def negTypes (t : Ty) : Typed :=
  if !t.isArithmetic then .bad
  else
    match t with
    | .flt _ s => if s = 4 || s = 8 then .good (.ty t) else .good (.ty (usualWithInt t))
    | _ => .good (.ty (usualWithInt t))

/-- eval.c:1125-1151, 1153-1182, 1313-1339 and expression.c:329-356 -/
def unTypes (sz : Nat → Nat) (op : Un) (v : Val) : Typed :=
  match op with
  | .plus =>
    if !v.ty.isArithmetic then .bad
    else if !v.ty.isInteger then .good (.ty v.ty)
    else .good (.ty (promote v.ty))
  | .minus => negTypes v.ty
  | .compl => if !v.ty.isInteger then .bad else .good (.ty (promote v.ty))
  | .not => equalTypes sz ⟨intTy, true⟩ v

/-- `is_scalar` -/
def isScalar (t : Ty) : Bool := t.isArithmetic || t.isPointer

/-- eval.c:442-482 -/
def castTypes (target t : Ty) : Res :=
  if target.isVoid then .ok
  else if !isScalar t || !isScalar target then .error
  else if t.isPointer && (match target with | .flt _ s => s = 4 || s = 8 | _ => false) then .error
  else .ok

end Verif.Assign
