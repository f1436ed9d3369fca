import Verif.Tac

/-!
# Lists of parameters and of arguments

Model of src/parser/declaration.c:56-127 (`parameter_list`) with the parenthesis behind it (353-367), and of the arguments of
calls in src/parser/expression.c:169-209 (`postfix`) with `type_add_member` and `type_seal` for functions.

Simplifications.  A declaration of a parameter and an expression are one token each; a parameter is `void`, with or without a name, or has a
type that is an object, an array or a function.  Storage classes are left out.
-/

namespace Verif.Calls

inductive Ty
  | obj (n : Nat)
  | ptr (t : Ty)
  | array (t : Ty)
  | fn (n : Nat)
  deriving DecidableEq, Repr

inductive PTok
  | void (named : Bool)
  | decl (t : Ty)
  | comma | dots | rparen
  deriving DecidableEq, Repr

/-- What a function type has of its parameters -/
structure Sig where
  members : List Ty
  vararg : Bool
  /-- not `is_incomplete` -/
  proto : Bool
  deriving DecidableEq, Repr

/-- declaration.c:95-99 -/
def adjust : Ty → Ty
  | .array t => .ptr t
  | .fn n => .ptr (.fn n)
  | t => t

/-- The loop in declaration.c:77-118, behind parameters `ms`; `none` is an error. -/
def paramList (ms : List Ty) : List PTok → Option (Sig × List PTok)
  | .rparen :: r => some (⟨ms, false, !ms.isEmpty⟩, .rparen :: r)
  | .void _ :: r => if ms = [] then some (⟨[], false, true⟩, r) else none
  | .decl t :: .comma :: .dots :: r => some (⟨ms ++ [adjust t], true, true⟩, r)
  | .decl t :: .comma :: r => paramList (ms ++ [adjust t]) r
  | .decl t :: r => some (⟨ms ++ [adjust t], false, true⟩, r)
  | _ => none

/-- declaration.c:353-367, from behind the parenthesis to behind the other one -/
def params (toks : List PTok) : Option (Sig × List PTok) :=
  match paramList [] toks with
  | some (s, .rparen :: r) => some (s, r)
  | _ => none

inductive ATok
  | expr (e : Nat)
  | comma | rparen
  deriving DecidableEq, Repr

/-- An argument and the type it is converted to, `none` for the default promotions -/
abbrev Arg := Nat × Option Ty

/-- expression.c:180-195 -/
def fixed : List Ty → List ATok → Option (List Arg × List ATok)
  | [], toks => some ([], toks)
  | [t], .expr e :: r => some ([(e, some t)], r)
  | t :: u :: ts, .expr e :: .comma :: r => (fixed (u :: ts) r).map fun p => ((e, some t) :: p.1, p.2)
  | _, _ => none

/-- expression.c:197-203 -/
def varargs : List ATok → Option (List Arg × List ATok)
  | .rparen :: r => some ([], .rparen :: r)
  | .comma :: .expr e :: r => (varargs r).map fun p => ((e, none) :: p.1, p.2)
  | _ => none

/-- expression.c:169-205, from behind the parenthesis to behind the other one -/
def call (s : Sig) (toks : List ATok) : Option (List Arg × List ATok) :=
  match fixed s.members toks with
  | none => none
  | some (as, r) =>
    match if s.vararg then varargs r else some ([], r) with
    | some (bs, .rparen :: q) => some (as ++ bs, q)
    | _ => none

end Verif.Calls
