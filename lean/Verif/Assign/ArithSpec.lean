import Verif.Assign.Arith
import Verif.Assign.OperatorsSpec

/-!
# Constraints of C for the other operators and for casts

C99 6.5.3.3, 6.5.4 (with the constraint on pointers and floating types that C11 has), 6.5.5, 6.5.7 and 6.5.10 to 6.5.12.
-/

namespace Verif.Assign

/-- The integer promotions -/
inductive Promoted : Ty → Ty → Prop
  | bool {q : Quals} : Promoted (.bool q) (.int {} false 4)
  | small {q : Quals} {u : Bool} {s : Nat} : s < 4 → Promoted (.int q u s) (.int {} false 4)
  | same {q : Quals} {u : Bool} {s : Nat} : 4 ≤ s → Promoted (.int q u s) (.int {} u s)

inductive BinType : Bin → Ty → Ty → Cond → Prop
  | mul {a b : Ty} : IsArithmetic a → IsArithmetic b → BinType .mul a b .usual
  | div {a b : Ty} : IsArithmetic a → IsArithmetic b → BinType .div a b .usual
  | mod {a b : Ty} : IsInteger a → IsInteger b → BinType .mod a b .usual
  | and {a b : Ty} : IsInteger a → IsInteger b → BinType .and a b .usual
  | or {a b : Ty} : IsInteger a → IsInteger b → BinType .or a b .usual
  | xor {a b : Ty} : IsInteger a → IsInteger b → BinType .xor a b .usual
  | shl {a b t : Ty} : Promoted a t → IsInteger b → BinType .shl a b (.ty t)
  | shr {a b t : Ty} : Promoted a t → IsInteger b → BinType .shr a b (.ty t)

inductive UnType : Un → Ty → Ty → Prop
  | plus {a t : Ty} : Promoted a t → UnType .plus a t
  | plusFloat {q : Quals} {s : Nat} : UnType .plus (.flt q s) (.flt {} s)
  | minus {a t : Ty} : Promoted a t → UnType .minus a t
  | minusFloat {q : Quals} {s : Nat} : UnType .minus (.flt q s) (.flt {} s)
  | compl {a t : Ty} : Promoted a t → UnType .compl a t
  | not {a : Ty} : IsArithmetic a → UnType .not a (.int {} false 4)
  | notPointer {q : Quals} {t : Ty} : UnType .not (.ptr q t) (.int {} false 4)

/-- `(t) e` with `e` of the second type -/
inductive Castable : Ty → Ty → Prop
  | void {q : Quals} {t : Ty} : Castable (.void q) t
  | arith {a b : Ty} : IsArithmetic a → IsArithmetic b → Castable a b
  | pointers {q p : Quals} {a b : Ty} : Castable (.ptr q a) (.ptr p b)
  | toPointer {q : Quals} {a b : Ty} : IsInteger b → Castable (.ptr q a) b
  | fromPointer {p : Quals} {a b : Ty} : IsInteger a → Castable a (.ptr p b)

end Verif.Assign
