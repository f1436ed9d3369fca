import Verif.Tac

/-!
# Sizes, and types without one

Model of `sizeof` and `_Alignof` in src/parser/expression.c:375-426 (`unary_expression`), of `is_complete`
(src/parser/typetree.c:870-882), `size_of` (1146-1174), `type_create_array` and `type_create_incomplete` (408-435), and of the end of
`array_declarator` (src/parser/declaration.c:273-293).

Simplifications.  Types have no qualifiers and no members; the size of a complete structure is given (C16).  There are no variable
length arrays and no bit-fields.  A function type has a prototype or not, which is `is_incomplete` of its tree.
-/

namespace Verif.Sizeof

inductive Ty
  | void
  /-- numbers and pointers -/
  | scalar (size : Nat)
  | fn (proto : Bool)
  /-- a structure or union, with its size if it is complete -/
  | record (size : Option Nat)
  | array (len : Option Nat) (elem : Ty)
  deriving DecidableEq, Repr

/-- typetree.c:870-882 -/
def isComplete : Ty → Bool
  | .array n _ => n.isSome
  | .fn p => p
  | _ => true

/-- typetree.c:1146-1174, with `size_t` of 64 bits -/
def sizeOf : Ty → Nat
  | .scalar s => s
  | .record s => s.getD 0
  | .array n e => (n.getD 0 * sizeOf e) % 2 ^ 64
  | .void | .fn _ => 0

/-- declaration.c:277-293 and typetree.c:408-435; `none` is an error. -/
def makeArray (n : Option Nat) (e : Ty) : Option Ty :=
  if !isComplete e then none
  else
    match n with
    | none => some (.array none e)
    | some k => if (k * sizeOf e) % 2 ^ 64 > 2 ^ 63 - 1 then none else some (.array (some k) e)

/-- expression.c:400-410 -/
def sizeofType (t : Ty) : Option Nat := if isComplete t then some (sizeOf t) else none

/-- expression.c:419-424: whether there is no error -/
def alignofType (t : Ty) : Bool :=
  !(match t with | .fn _ => true | _ => false) && sizeOf t ≠ 0

end Verif.Sizeof
