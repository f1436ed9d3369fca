import Verif.Calls.Model

/-!
# Lists of parameters and arguments in C

C99 6.7.5.3 and 6.5.2.2.
-/

namespace Verif.Calls

/-- Parameters that are arrays or functions are pointers. -/
inductive Adjusted : Ty → Ty → Prop
  | array {t : Ty} : Adjusted (.array t) (.ptr t)
  | fn {n : Nat} : Adjusted (.fn n) (.ptr (.fn n))
  | obj {n : Nat} : Adjusted (.obj n) (.obj n)
  | ptr {t : Ty} : Adjusted (.ptr t) (.ptr t)

/-- One or more declarations with commas between them -/
inductive Decls : List PTok → List Ty → Prop
  | one {t u : Ty} : Adjusted t u → Decls [.decl t] [u]
  | more {t u : Ty} {p : List PTok} {us : List Ty} : Adjusted t u → Decls p us →
      Decls (.decl t :: .comma :: p) (u :: us)

/-- What is between the parentheses, and what it says -/
inductive Params : List PTok → Sig → Prop
  | none : Params [] ⟨[], false, false⟩
  | void : Params [.void false] ⟨[], false, true⟩
  | list {p : List PTok} {us : List Ty} : Decls p us → Params p ⟨us, false, true⟩
  | dots {p : List PTok} {us : List Ty} : Decls p us → Params (p ++ [.comma, .dots]) ⟨us, true, true⟩

/-- Arguments with commas between them -/
inductive Args : List ATok → List Nat → Prop
  | none : Args [] []
  | one {e : Nat} : Args [.expr e] [e]
  | more {e f : Nat} {p : List ATok} {es : List Nat} : Args p (f :: es) → Args (.expr e :: .comma :: p) (e :: f :: es)

/-- The number of arguments C allows; any without prototype -/
def Sig.Takes (s : Sig) (n : Nat) : Prop :=
  s.proto = true → if s.vararg = true then s.members.length ≤ n else n = s.members.length

/-- Each argument is converted to the type of its parameter; those without one are promoted. -/
def converted (s : Sig) (es : List Nat) : List Arg := es.mapIdx fun i e => (e, s.members[i]?)

end Verif.Calls
