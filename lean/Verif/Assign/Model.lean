import Verif.Tac

/-!
# Types of operands of assignments and conditional expressions

Model of src/parser/eval.c:1634-1709 (`has_qualifiers`, `eval_prepare_assign_pointer`, `eval_prepare_assign`), which is
also for arguments, initializers and `return`, of the check in `eval_prepare_assign_bool` (1550-1571 with
`prepare_comparison_operands`, 830-873) and of 1828-1872 (`eval_conditional_type`), with `is_nullptr` (75-79) and
src/parser/typetree.c:1082-1144 (`is_compatible`, `is_compatible_unqualified`) and 488-497 (`type_apply_qualifiers`).

Simplifications.  Types are trees (C71); there are no pointers to arrays, a function type is a number, the same for
compatible ones (C21), and complete.  Of a value there is its type and whether it is a constant that is zero.
Operands are without arrays and functions, which `rvalue` has made pointers; bit-fields are left out (C72).
-/

namespace Verif.Assign

structure Quals where
  const : Bool := false
  volatile : Bool := false
  restrict : Bool := false
  deriving DecidableEq, Repr

inductive Ty
  | void (q : Quals)
  | bool (q : Quals)
  /-- `char`, `short`, `int`, `long` -/
  | int (q : Quals) (uns : Bool) (size : Nat)
  | flt (q : Quals) (size : Nat)
  /-- a structure or union -/
  | record (q : Quals) (id : Nat)
  | fn (id : Nat)
  | ptr (q : Quals) (target : Ty)
  deriving DecidableEq, Repr

namespace Ty

def quals : Ty → Quals
  | void q | bool q | int q _ _ | flt q _ | record q _ | ptr q _ => q
  | fn _ => {}

def setQuals (q : Quals) : Ty → Ty
  | void _ => void q
  | bool _ => bool q
  | int _ u s => int q u s
  | flt _ s => flt q s
  | record _ i => record q i
  | fn i => fn i
  | ptr _ t => ptr q t

/-- `type_unqualified` -/
def unqualified (t : Ty) : Ty := t.setQuals {}

def isVoid : Ty → Bool
  | void _ => true
  | _ => false

/-- `is_object` is "not a function". -/
def isObject : Ty → Bool
  | fn _ => false
  | _ => true

def isInteger : Ty → Bool
  | bool _ | int _ _ _ => true
  | _ => false

def isArithmetic : Ty → Bool
  | bool _ | int _ _ _ | flt _ _ => true
  | _ => false

def isPointer : Ty → Bool
  | ptr _ _ => true
  | _ => false

end Ty

structure Val where
  ty : Ty
  /-- an immediate value that is zero -/
  zero : Bool
  deriving DecidableEq, Repr

/-- typetree.c:1082-1137; integers of different signedness are compatible there (C21). -/
def isCompatible : Ty → Ty → Bool
  | .void q, .void p => q = p
  | .bool q, .bool p => q = p
  | .int q _ s, .int p _ r => q = p && s = r
  | .flt q s, .flt p r => q = p && s = r
  | .record q i, .record p j => q = p && i = j
  | .fn i, .fn j => i = j
  | .ptr q t, .ptr p u => q = p && isCompatible t u
  | _, _ => false

def compatUnq (l r : Ty) : Bool := isCompatible l.unqualified r.unqualified

/-- eval.c:1634-1637 -/
def hasQualifiers (a b : Ty) : Bool :=
  (a.quals.const || !b.quals.const) && (a.quals.volatile || !b.quals.volatile)

/-- eval.c:75-79 -/
def isNullptr (v : Val) : Bool :=
  (v.ty.isInteger || match v.ty with | .ptr _ _ => true | _ => false) && v.zero

inductive Res
  | ok | warning | error
  deriving DecidableEq, Repr

/-- eval.c:1639-1673, without the value -/
def assignPointer (l : Ty) (v : Val) : Res :=
  match v.ty with
  | .ptr _ r =>
    if (compatUnq l r && hasQualifiers l r) || (l.isObject && r.isVoid && hasQualifiers l r)
        || (l.isVoid && r.isObject && hasQualifiers l r) || isNullptr v then .ok
    else .warning
  | .bool _ | .int _ _ _ => if isNullptr v then .ok else .warning
  | _ => .error

/-- eval.c:1675-1709, without the value -/
def assign (target : Ty) (v : Val) : Res :=
  match target with
  | .bool _ =>
    match v.ty with
    | .bool _ | .int _ _ _ | .flt _ _ | .ptr _ _ => .ok
    | _ => .error
  | .ptr _ l => assignPointer l v
  | .int _ _ _ | .flt _ _ => if v.ty.isArithmetic then .ok else .error
  | .record _ _ => if compatUnq target v.ty then .ok else .error
  | _ => .error

/-- typetree.c:488-497; `none` is the error of `type_set_restrict` (473-486). -/
def applyQuals (t o : Ty) : Option Ty :=
  if o.quals.restrict && !t.isPointer then none
  else some (t.setQuals ⟨t.quals.const || o.quals.const, t.quals.volatile || o.quals.volatile,
    t.quals.restrict || o.quals.restrict⟩)

/-- The type of a conditional expression: of the usual arithmetic conversions (C20), or this one. -/
inductive Cond
  | usual
  | ty (t : Ty)
  deriving DecidableEq, Repr

def isPtr : Ty → Option Ty
  | .ptr _ t => some t
  | _ => none

/-- eval.c:1842-1856: a pointer to `p` with the qualifiers of `q`, itself with those of both operands -/
def condPointer (p q t u : Ty) : Option Cond :=
  match applyQuals p q with
  | none => none
  | some p =>
    match applyQuals (.ptr {} p) t with
    | none => none
    | some r => (applyQuals r u).map .ty

/-- eval.c:1828-1872; `none` is an error. -/
def condType (a b : Val) : Option Cond :=
  if a.ty.isArithmetic && b.ty.isArithmetic then some .usual
  else
    match isPtr a.ty, isPtr b.ty with
    | some p1, some p2 =>
      if compatUnq p1 p2 || p1.isVoid then
        condPointer p1 p2 a.ty b.ty
      else if p2.isVoid then
        condPointer p2 p1 a.ty b.ty
      else none
    | some _, none => if isNullptr b then some (.ty a.ty) else none
    | none, some _ => if isNullptr a then some (.ty b.ty) else none
    | none, none =>
      if a.ty.isVoid && b.ty.isVoid then some (.ty a.ty)
      else
        match a.ty with
        | .record _ _ => if a.ty = b.ty then some (.ty a.ty) else none
        | _ => none

end Verif.Assign
