import Verif.Assign.Operators
import Verif.Assign.Spec

/-!
# Constraints of C for addition, subtraction and comparisons

C99 6.5.6, 6.5.8 and 6.5.9.
-/

namespace Verif.Assign

/-- A complete object type, where structures with the numbers of `known` are complete. -/
def Complete (known : Nat → Prop) : Ty → Prop
  | .void _ | .fn _ => False
  | .record _ i => known i
  | .bool _ | .int _ _ _ | .flt _ _ | .ptr _ _ => True

inductive AddType (known : Nat → Prop) : Ty → Ty → Cond → Prop
  | arith {a b : Ty} : IsArithmetic a → IsArithmetic b → AddType known a b .usual
  | left {q : Quals} {t b : Ty} : Complete known t → IsInteger b → AddType known (.ptr q t) b (.ty (.ptr {} t))
  | right {q : Quals} {t a : Ty} : Complete known t → IsInteger a → AddType known a (.ptr q t) (.ty (.ptr {} t))

/-- The difference of pointers is a `long`. -/
inductive SubType (known : Nat → Prop) : Ty → Ty → Cond → Prop
  | arith {a b : Ty} : IsArithmetic a → IsArithmetic b → SubType known a b .usual
  | integer {q : Quals} {t b : Ty} : Complete known t → IsInteger b → SubType known (.ptr q t) b (.ty (.ptr {} t))
  | pointer {q p : Quals} {t u : Ty} : Complete known t → Complete known u → Same t u →
      SubType known (.ptr q t) (.ptr p u) (.ty (.int {} false 8))

/-- Operands of `<` and the like -/
inductive Ordered : Ty → Ty → Prop
  | arith {a b : Ty} : IsArithmetic a → IsArithmetic b → Ordered a b
  | pointer {q p : Quals} {t u : Ty} : Same t u → IsObject t → Ordered (.ptr q t) (.ptr p u)

/-- Operands of `==` and `!=` -/
inductive Comparable : Val → Val → Prop
  | arith {a b : Val} : IsArithmetic a.ty → IsArithmetic b.ty → Comparable a b
  | pointer {q p : Quals} {t u : Ty} {y z : Bool} : Same t u → Comparable ⟨.ptr q t, y⟩ ⟨.ptr p u, z⟩
  | voidLeft {q p k : Quals} {u : Ty} {y z : Bool} : IsObject u → Comparable ⟨.ptr q (.void k), y⟩ ⟨.ptr p u, z⟩
  | voidRight {q p k : Quals} {t : Ty} {y z : Bool} : IsObject t → Comparable ⟨.ptr q t, y⟩ ⟨.ptr p (.void k), z⟩
  | nullLeft {p : Quals} {u : Ty} {a : Val} {z : Bool} : NullConstant a → Comparable a ⟨.ptr p u, z⟩
  | nullRight {q : Quals} {t : Ty} {b : Val} {y : Bool} : NullConstant b → Comparable ⟨.ptr q t, y⟩ b

end Verif.Assign
