import Verif.OldStyle.Model

/-!
# Old-style function definitions in C

C89 3.7.1 (C99 6.9.1): the identifiers of the list are the parameters, in that order.  Each has the type of
its declaration, with arrays and functions as pointers, or `int` without one.  Declarations
declare only identifiers of the list, each once, with no storage class but `register` and no
initializer.  Names of types are not identifiers of the list.
-/

namespace Verif.OldStyle

/-- What C allows. -/
structure Allowed (globals : List (Name × Sym)) (ids : List Name) (ds : List Decl) : Prop where
  distinct : ids.Nodup
  types : ∀ n ∈ ids, ∀ t, globals.lookup n ≠ some ⟨t, true⟩
  once : (ds.map Decl.name).Nodup
  listed : ∀ d ∈ ds, d.name ∈ ids
  storage : ∀ d ∈ ds, d.storage = .none ∨ d.storage = .register
  init : ∀ d ∈ ds, d.init = false

/-- Arrays and functions are pointers. -/
inductive Adjust : Ty → Ty → Prop
  | arr (t : Ty) : Adjust (.arr t) (.ptr t)
  | fn (t : Ty) : Adjust (.fn t) (.ptr (.fn t))
  | int : Adjust .int .int
  | obj (n : Nat) : Adjust (.obj n) (.obj n)
  | ptr (t : Ty) : Adjust (.ptr t) (.ptr t)

/-- `t` is the type of the parameter `n`. -/
inductive TypeOf (ds : List Decl) (n : Name) : Ty → Prop
  | declared {d : Decl} {t : Ty} : d ∈ ds → d.name = n → Adjust d.ty t → TypeOf ds n t
  | undeclared : (∀ d ∈ ds, d.name ≠ n) → TypeOf ds n .int

end Verif.OldStyle
