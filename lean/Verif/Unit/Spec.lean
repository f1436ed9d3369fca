import Verif.Unit.Model

/-!
# What is needed of a unit
-/

namespace Verif.Unit

/-- The functions and objects of a unit whose code or data is needed: all that are not
inline, those declared `extern inline` (`marked`), and what a needed one refers to. -/
inductive Needed (unit : List Fn) (marked : List Nat) (refs : Nat → List Nat) : Fn → Prop
  | plain {f} : f ∈ unit → f.inlined = false → Needed unit marked refs f
  | marked {f} : f ∈ unit → f.sym ∈ marked → Needed unit marked refs f
  | ref {f g} : Needed unit marked refs f → g ∈ unit → g.sym ∈ refs f.sym → Needed unit marked refs g

/-- C99, 6.7.4p7: a definition of a function with external linkage is an inline
definition, which does not provide the function for other units, if all declarations have
`inline` and none has `extern`. -/
def InlineOnly (ds : List FnDecl) : Prop := ∀ d ∈ ds, d.inline = true ∧ d.extern = false

end Verif.Unit
