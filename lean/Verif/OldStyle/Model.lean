import Verif.Tac
import Verif.Bytes

/-!
# Old-style function definitions

Model of the parameters of `int f(a, b) char *b; { ... }`: src/parser/declaration.c:135-158
(`identifier_list`), 909-951 (`parameter_declaration_list`), 955-981 (`make_parameters_visible`) and the part of
`init_declarator` (1006-1147) and `declaration` (1190-1290) that they use, with
src/parser/typetree.c:210-254 (`add_member`) and 1233-1255 (`find_type_member`), and
src/parser/symtab.c:188-201 (`sym_lookup`) and 364-452 (`sym_make_visible`, `sym_add`).

Simplifications.  A declaration is one declarator, with the type that C84 is about; specifiers declare no
tags and no constants, and declarators with an empty name are left out.  Of what is declared before the definition there
are the names of file scope; functions that were declared only in blocks are left out.
There is no result where the compiler stops with an error or a failed assertion.
-/

namespace Verif.OldStyle

abbrev Name := Bytes

inductive Ty
  | int
  /-- another type of objects, not an array -/
  | obj (n : Nat)
  | ptr (t : Ty)
  | arr (t : Ty)
  | fn (t : Ty)
  deriving DecidableEq, Repr

inductive Storage
  | none | register | auto | typedef | static | extern
  deriving DecidableEq, Repr

/-- `char *b;` or `int a = 1;` -/
structure Decl where
  storage : Storage
  name : Name
  ty : Ty
  init : Bool
  deriving DecidableEq, Repr

/-- A symbol of file scope. -/
structure Sym where
  ty : Ty
  isTypedef : Bool
  deriving DecidableEq, Repr

/-- Members of the function type; `none` is the placeholder. -/
abbrev Members := List (Name × Option Ty)

/-- declaration.c:135-158, with the error of `add_member` for a name that is there already -/
def identifierList (globals : List (Name × Sym)) : Members → List Name → Option Members
  | ms, [] => some ms
  | ms, n :: r =>
    match globals.lookup n with
    | some ⟨_, true⟩ => none
    | _ =>
      match ms.lookup n with
      | some _ => none
      | none => identifierList globals (ms ++ [(n, none)]) r

/-- Assign the type of the first member of that name. -/
def setMember (n : Name) (t : Ty) : Members → Members
  | [] => []
  | (m, o) :: r => if m = n then (m, some t) :: r else (m, o) :: setMember n t r

/-- Types of symbols of the scope of parameters, the last one first. -/
abbrev Scope := List (Name × Ty)

/-- declaration.c:1072-1074: only arrays are adjusted. -/
def adjusted : Ty → Ty
  | .arr t => .ptr t
  | t => t

/-- A function is a declaration, with linkage (declaration.c:1030-1032).  If there is a symbol of file scope it is that
symbol, which is not added to the scope, and the assertion in 939 fails; an initializer is an error. -/
def refused (globals : List (Name × Sym)) (d : Decl) : Bool :=
  match d.ty, d.storage with
  | .fn _, .typedef => false
  | .fn _, _ => d.init || (globals.lookup d.name).isSome
  | _, _ => false

/-- declaration.c:1205-1229 for the storage class, then 1061-1081.  With `static` and `extern`, `def->symbol` of a
new definition is null (the assertion in 1070). -/
def declare (globals : List (Name × Sym)) (ms : Members) (sc : Scope) (d : Decl) :
    Option (Members × Scope) :=
  if d.storage = .static ∨ d.storage = .extern ∨ refused globals d = true then none
  else
    match ms.lookup d.name with
    | some none => some (setMember d.name (adjusted d.ty) ms, (d.name, adjusted d.ty) :: sc)
    | _ => none

/-- declaration.c:924-926 -/
def declareAll (globals : List (Name × Sym)) : Members → Scope → List Decl → Option (Members × Scope)
  | ms, sc, [] => some (ms, sc)
  | ms, sc, d :: r =>
    match declare globals ms sc d with
    | none => none
    | some (ms1, sc1) => declareAll globals ms1 sc1 r

/-- declaration.c:929-947: the type of the member and the type of its symbol.  The symbol found is of depth 1 when
it is in the scope. -/
def finish : Scope → Members → Option (List (Name × Ty × Ty))
  | _, [] => some []
  | sc, (n, o) :: r =>
    match sc.lookup n with
    | some t =>
      match o with
      | none => none
      | some u => (finish sc r).map ((n, u, t) :: ·)
    | none =>
      match o with
      | none => (finish ((n, .int) :: sc) r).map ((n, .int, .int) :: ·)
      | some _ => none

/-- The types of the parameters in the type of the function, and what the names are in its body:
declaration.c:965-978 adds the symbols in order, and `sym_lookup` finds the last. -/
structure Def where
  params : List (Name × Ty)
  body : Name → Option Ty

def define (globals : List (Name × Sym)) (ids : List Name) (ds : List Decl) : Option Def :=
  match identifierList globals [] ids with
  | none => none
  | some ms =>
    match declareAll globals ms [] ds with
    | none => none
    | some (ms1, sc) =>
      match finish sc ms1 with
      | none => none
      | some ps =>
        some ⟨ps.map fun p => (p.1, p.2.1), fun n =>
          match (ps.map fun p => (p.1, p.2.2)).reverse.lookup n with
          | some t => some t
          | none => (globals.lookup n).map Sym.ty⟩

/-- A declarator in a declaration. -/
inductive Declarator
  /-- a function with nothing, or a list of identifiers, in the parentheses -/
  | old
  | other
  deriving DecidableEq, Repr

/-- Whether the declarators of a declaration that ends with `;` are accepted: after each,
declaration.c:1055-1059 looks for declarations of parameters unless `;` follows, and a `,` does not begin one. -/
def acceptsList : List Declarator → Bool
  | [] => true
  | [_] => true
  | .old :: _ :: _ => false
  | .other :: d :: r => acceptsList (d :: r)

end Verif.OldStyle
