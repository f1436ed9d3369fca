import Verif.Assign.Model

/-!
# Types of operands of addition, subtraction and comparisons

Model of src/parser/eval.c:631-720 (`eval_add`), 732-828 (`eval_sub`), 830-873 (`prepare_comparison_operands`), 883-915
(`eval_cmp_eq`, `eval_cmp_ne`), 917-931 (`common_compare_type`) and 933-975 (`eval_cmp_ge`, `eval_cmp_gt`), with
src/parser/expression.c:611-652 (`relational_expression`) and src/parser/typetree.c:1146-1174 (`size_of`); of each the types only.

Simplifications.  As in Assign/Model; there are no variable length arrays.  The size of a structure or union is given, and is zero
for incomplete ones.
-/

namespace Verif.Assign

/-- The outcome for the types: an error, or a value of some type with or without a warning. -/
inductive Typed
  | bad
  | warn (c : Cond)
  | good (c : Cond)
  deriving DecidableEq, Repr

def intTy : Ty := .int {} false 4
def longTy : Ty := .int {} false 8

/-- typetree.c:1146-1174 -/
def sizeOf (sz : Nat → Nat) : Ty → Nat
  | .bool _ => 1
  | .int _ _ s | .flt _ s => s
  | .ptr _ _ => 8
  | .record _ i => sz i
  | .void _ | .fn _ => 0

/-- eval.c:681-713 and 773-801: a pointer and an integer -/
def pointerInteger (sz : Nat → Nat) (l : Ty) : Typed :=
  match l with
  | .ptr _ t => if sizeOf sz t = 0 then .bad else .good (.ty l)
  | _ => .bad

/-- eval.c:631-720, `eval_add` -/
def addTypes (sz : Nat → Nat) (a b : Ty) : Typed :=
  let swap := a.isInteger && b.isPointer
  let l := if swap then b else a
  let r := if swap then a else b
  if l.isArithmetic && r.isArithmetic then .good .usual
  else if l.isPointer && r.isInteger then pointerInteger sz l
  else .bad

/-- eval.c:732-828, `eval_sub` -/
def subTypes (sz : Nat → Nat) (l r : Ty) : Typed :=
  if l.isArithmetic && r.isArithmetic then .good .usual
  else if l.isPointer && r.isInteger then pointerInteger sz l
  else
    match l, r with
    | .ptr _ t1, .ptr _ t2 =>
      let size := sizeOf sz t2
      if size > 1 then .good (.ty longTy)
      else if size = 0 || sizeOf sz t1 ≠ size then .bad
      else .good (.ty longTy)
    | _, _ => .bad

/-- eval.c:847-872, behind the exchange of operands -/
def equalOrdered (sz : Nat → Nat) (l r : Val) : Typed :=
  if l.ty.isArithmetic && r.ty.isArithmetic then .good (.ty intTy)
  else
    match l.ty with
    | .ptr _ t1 =>
      match r.ty with
      | .ptr _ t2 =>
        if !compatUnq t1 t2 && !(t1.isVoid && sizeOf sz t2 ≠ 0) && !(t2.isVoid && sizeOf sz t1 ≠ 0)
        then .warn (.ty intTy) else .good (.ty intTy)
      | _ => if isNullptr r then .good (.ty intTy) else .warn (.ty intTy)
    | _ => .bad

/-- eval.c:838-845; the call has its operands in order. -/
def exchanged (l r : Ty) : Bool :=
  match r with
  | .ptr _ t2 =>
    match l with
    | .ptr _ t1 => t1.isVoid && !t2.isVoid
    | _ => true
  | _ => false

/-- eval.c:883-915, `eval_cmp_eq`, `eval_cmp_ne` -/
def equalTypes (sz : Nat → Nat) (l r : Val) : Typed :=
  if exchanged l.ty r.ty then equalOrdered sz r l else equalOrdered sz l r

/-- eval.c:917-931, and the type of the result -/
def commonCompare (l r : Ty) : Typed :=
  if l.isArithmetic && r.isArithmetic then .good (.ty intTy)
  else
    match l, r with
    | .ptr _ t1, .ptr _ t2 => if compatUnq t1 t2 then .good (.ty intTy) else .bad
    | _, _ => .bad

inductive Rel
  | lt | gt | le | ge
  deriving DecidableEq, Repr

/-- expression.c:611-652, `relational_expression`: `<` and `<=` are `>` and `>=` with operands exchanged. -/
def relationTypes (op : Rel) (l r : Ty) : Typed :=
  match op with
  | .lt | .le => commonCompare r l
  | .gt | .ge => commonCompare l r

end Verif.Assign
