import Verif.Types.Model

/-!
# Declaration specifiers (src/parser/declaration.c)

Tokens are reduced to what `declaration_specifiers` looks at.  An identifier that names a type, and a struct or union
specifier (with or without body), are single tokens that carry their type; an enum specifier is a single token.  The
declarations made by the bodies are not modelled.
-/

namespace Verif.Specifiers
open Verif.Types

inductive Tok
  | void | bool | char | short | int | long | signed | unsigned | float | double
  | const | volatile
  | named (t : Ty)
  | enum
  | inline | noreturn | register
  | auto | static | extern | typedef
  | other (n : Nat)
  deriving DecidableEq, Repr

/-- declaration.c:632-642. -/
inductive Base
  | none | void | bool | char | int | float | double | enum | aggregate
  deriving DecidableEq, Repr

/-- declaration.c:643-648. -/
inductive Modifier
  | none | short | long | longLong
  deriving DecidableEq, Repr

/-- declaration.c:649-653. -/
inductive Sign
  | none | signed | unsigned
  deriving DecidableEq, Repr

/-- The three variables that decide on the type. -/
structure Core where
  base : Base := .none
  mod : Modifier := .none
  sign : Sign := .none
  deriving DecidableEq, Repr

/-- Storage classes, `struct declaration_specifier_info`. -/
inductive Storage
  | auto | static | extern | typedef
  deriving DecidableEq, Repr

/-- Local variables and `*info`; `errors` counts calls of `error`. -/
structure St where
  core : Core := {}
  ty : Ty := { kind := .void }
  const : Bool := false
  volatile : Bool := false
  storage : Option Storage := .none
  inline : Bool := false
  noreturn : Bool := false
  register : Bool := false
  errors : Nat := 0
  deriving DecidableEq, Repr

/-- The tokens that set one of the three variables, and the conditions for consuming them, declaration.c:667-768:
`none` is `goto done`, otherwise the new variables and whether an error was reported. -/
def coreStep (c : Core) : Tok → Option (Core × Bool)
  | .void => if c.base ≠ .none ∨ c.mod ≠ .none ∨ c.sign ≠ .none then none else some ({ c with base := .void }, false)
  | .bool => if c.base ≠ .none ∨ c.mod ≠ .none ∨ c.sign ≠ .none then none else some ({ c with base := .bool }, false)
  | .char => if c.base ≠ .none ∨ c.mod ≠ .none then none else some ({ c with base := .char }, false)
  | .short => if c.mod ≠ .none ∨ (c.base ≠ .none ∧ c.base ≠ .int) then none else some ({ c with mod := .short }, false)
  | .int => if c.base ≠ .none then none else some ({ c with base := .int }, false)
  | .long =>
    if c.base ≠ .none ∨ (c.mod ≠ .none ∧ c.mod ≠ .long) then none
    else some ({ c with mod := if c.mod = .long then .longLong else .long }, false)
  | .signed => if c.sign ≠ .none then some (c, true) else some ({ c with sign := .signed }, false)
  | .unsigned => if c.sign ≠ .none then some (c, true) else some ({ c with sign := .unsigned }, false)
  | .float => if c.base ≠ .none ∨ c.mod ≠ .none ∨ c.sign ≠ .none then none else some ({ c with base := .float }, false)
  | .double =>
    if c.base ≠ .none ∨ (c.mod ≠ .none ∧ c.mod ≠ .long) ∨ c.sign ≠ .none then none
    else some ({ c with base := .double }, false)
  | .named _ => if c.base ≠ .none ∨ c.mod ≠ .none ∨ c.sign ≠ .none then none else some ({ c with base := .aggregate }, false)
  | .enum => if c.base ≠ .none ∨ c.mod ≠ .none ∨ c.sign ≠ .none then none else some ({ c with base := .enum }, false)
  | _ => none

/-- declaration.c:819-831. -/
def setStorage (s : St) (info : Bool) (x : Storage) : St :=
  if !info ∨ s.storage.isSome then { s with errors := s.errors + 1 } else { s with storage := some x }

/-- One round of the loop, declaration.c:664-835. -/
def step (info : Bool) (s : St) (t : Tok) : Option St :=
  match t with
  | .const => some { s with const := true }
  | .volatile => some { s with volatile := true }
  | .inline => some (if !info ∨ s.inline then { s with errors := s.errors + 1 } else { s with inline := true })
  | .noreturn => some (if !info ∨ s.noreturn then { s with errors := s.errors + 1 } else { s with noreturn := true })
  | .register => some (if !info ∨ s.register then { s with errors := s.errors + 1 } else { s with register := true })
  | .auto => some (setStorage s info .auto)
  | .static => some (setStorage s info .static)
  | .extern => some (setStorage s info .extern)
  | .typedef => some (setStorage s info .typedef)
  | .named ty => match coreStep s.core (.named ty) with
    | some r => some { s with core := r.1, ty := ty }
    | none => none
  | t => match coreStep s.core t with
    | some r => some { s with core := r.1, errors := s.errors + (if r.2 then 1 else 0) }
    | none => none

/-- The loop. -/
def loop (info : Bool) : St → List Tok → St × List Tok
  | s, [] => (s, [])
  | s, t :: ts => match step info s t with
    | some s' => loop info s' ts
    | none => (s, t :: ts)

/-- The type chosen at the end, declaration.c:838-874. -/
def coreType (c : Core) (ty : Ty) : Ty :=
  match c.base with
  | .aggregate => ty
  | .void => { kind := .void }
  | .bool => { kind := .bool }
  | .char => { kind := .char, uns := c.sign == .unsigned }
  | .enum | .none | .int =>
    { kind := (match c.mod with | .none => .int | .short => .short | .long | .longLong => .long), uns := c.sign == .unsigned }
  | .float => { kind := .float }
  | .double => { kind := if c.mod = .long then .ldouble else .double }

/-- `type_set_const`, typetree.c:449-458. -/
def setConst (t : Ty) : Ty := if t.isPtr then { t with pq := { t.pq with const := true } } else { t with q := { t.q with const := true } }

/-- `type_set_volatile`, typetree.c:460-469. -/
def setVolatile (t : Ty) : Ty :=
  if t.isPtr then { t with pq := { t.pq with volatile := true } } else { t with q := { t.q with volatile := true } }

/-- The type of the specifiers, declaration.c:837-882. -/
def finalType (s : St) : Ty :=
  let t := coreType s.core s.ty
  let t := if s.const then setConst t else t
  if s.volatile then setVolatile t else t

/-- `declaration_specifiers`, declaration.c:627-885: the type, the information and the tokens left.  With `info = false`
it is a specifier-qualifier-list. -/
def declarationSpecifiers (info : Bool) (ts : List Tok) : Ty × St × List Tok :=
  let r := loop info {} ts
  (finalType r.1, r.1, r.2)

end Verif.Specifiers
