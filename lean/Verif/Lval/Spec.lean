import Verif.Lval.Model

/-!
# Lvalues in C

Which expressions are lvalues (C99 6.5.1 p2, 6.5.2.1, 6.5.2.3 p3 and p4, 6.5.3.2 p4), and as
much of the types of expressions as is needed to say which can be assigned (6.3.2.1 p1).
-/

namespace Verif.Lval

inductive Lvalue : E → Prop
  | obj (t) : Lvalue (.obj t)
  | deref (a) : Lvalue (.deref a)
  | index (a i) : Lvalue (.index a i)
  | arrow (a m) : Lvalue (.arrow a m)
  | member {a} (m) : Lvalue a → Lvalue (.member a m)

/-- The type without qualifiers, and one for all arithmetic types. -/
def Ty.bare : Ty → Ty
  | .num _ _ => .num 0 false
  | .ptr t _ => .ptr t.bare false
  | .arr t => .arr t.bare
  | .rcd n _ => .rcd n false

abbrev number : Ty := .num 0 false

/-- `Points t u`: values of type `t`, or what they decay to, point to `u`. -/
inductive Points : Ty → Ty → Prop
  | ptr (u c) : Points (.ptr u c) u
  | arr (u) : Points (.arr u) u

/-- Types of expressions; `m` gives those of the members of records. -/
inductive HasTy (m : Nat → Nat → Option Ty) : E → Ty → Prop
  | obj (t) : HasTy m (.obj t) t.bare
  | num (k v) : HasTy m (.num k v) number
  | call (t) : HasTy m (.call t) t.bare
  | deref {a t u} : HasTy m a t → Points t u → HasTy m (.deref a) u
  | index {a i t u} : HasTy m a t → Points t u → HasTy m i number → HasTy m (.index a i) u
  | member {a n k t} : HasTy m a (.rcd n false) → m n k = some t → HasTy m (.member a k) t.bare
  | arrow {a t n k u} : HasTy m a t → Points t (.rcd n false) → m n k = some u →
      HasTy m (.arrow a k) u.bare
  | plus {a} : HasTy m a number → HasTy m (.plus a) number
  | neg {a} : HasTy m a number → HasTy m (.neg a) number
  | add {a b} : HasTy m a number → HasTy m b number → HasTy m (.add a b) number
  | sub {a b} : HasTy m a number → HasTy m b number → HasTy m (.sub a b) number
  | other {o a b} : HasTy m a number → HasTy m b number → HasTy m (.other o a b) number
  | assign {a b t} : HasTy m a t → HasTy m (.assign a b) t

/-- No cast within. -/
def NoCast : E → Prop
  | .obj _ | .num _ _ | .call _ => True
  | .cast _ _ => False
  | .deref a | .addr a | .member a _ | .arrow a _ | .plus a | .neg a | .incr a | .postIncr a => NoCast a
  | .index a b | .add a b | .sub a b | .other _ a b | .comma a b | .assign a b => NoCast a ∧ NoCast b
  | .cond c a b => NoCast c ∧ NoCast a ∧ NoCast b

/-- Not a cast, a conditional or a comma expression, an address, or pointer arithmetic, and not
a member of these. -/
inductive Plain (m : Nat → Nat → Option Ty) : E → Prop
  | obj (t) : Plain m (.obj t)
  | num (k v) : Plain m (.num k v)
  | call (t) : Plain m (.call t)
  | deref (a) : Plain m (.deref a)
  | index (a i) : Plain m (.index a i)
  | arrow (a k) : Plain m (.arrow a k)
  | member {a} (k) : Plain m a → Plain m (.member a k)
  | plus (a) : Plain m (.plus a)
  | neg (a) : Plain m (.neg a)
  | other (o a b) : Plain m (.other o a b)
  | assign (a b) : Plain m (.assign a b)
  | incr (a) : Plain m (.incr a)
  | postIncr (a) : Plain m (.postIncr a)
  | add {a b} : HasTy m a number → HasTy m b number → Plain m (.add a b)
  | sub {a b} : HasTy m a number → HasTy m b number → Plain m (.sub a b)

end Verif.Lval
