import Verif.Tac
import Verif.Bytes

/-!
# Tags

Model of src/parser/declaration.c:478-525 (`struct_or_union_declaration`) and 564-595
(`enum_declaration`), with the scopes of tags that declaration.c:356-364 (parameters) and
src/parser/statement.c:691-698 (blocks) open and close.

Simplifications.  Of a program there are the specifiers with tags and the scopes.  A type is the
number `type_create` gives it, and it is complete once `type_seal` has given it a size; lists of
members have at least one member, as the assertion in line 517 demands.  `enum E` without a list is left out: it
is `int` whatever `E` is.  There is no result where the compiler stops with an error.
-/

namespace Verif.Tags

abbrev Name := Bytes

inductive Kind
  | struct | union | enum
  deriving DecidableEq, Repr

structure Tag where
  kind : Kind
  id : Nat
  deriving DecidableEq, Repr

inductive Prog
  | nil
  /-- a block, or the parameters of a prototype -/
  | scope (body rest : Prog)
  /-- a function definition -/
  | func (params body rest : Prog)
  /-- `struct S` or `union S`, or a declaration that is just `struct S;` -/
  | ref (union : Bool) (name : Name) (alone : Bool) (rest : Prog)
  /-- `struct S { members }` -/
  | defn (union : Bool) (name : Name) (members rest : Prog)
  /-- `enum E { ... }` -/
  | enumDef (name : Name) (rest : Prog)
  deriving DecidableEq, Repr

def recKind (u : Bool) : Kind := if u then .union else .struct

/-- What is seen of a specifier: the type, and whether it is complete. -/
structure Out where
  id : Nat
  complete : Bool
  deriving DecidableEq, Repr

structure State where
  /-- `ns_tag`, the innermost scope first -/
  scopes : List (List (Name × Tag))
  next : Nat
  /-- types that have a size, and tags of enumerations with the mark -/
  done : List Nat
  deriving DecidableEq, Repr

/-- src/parser/symtab.c:188-201, `sym_lookup` -/
def lookup (s : State) (n : Name) : Option Tag := s.scopes.flatten.lookup n

/-- Whether the symbol that is found is of the current depth. -/
def here (s : State) (n : Name) : Option Tag := (s.scopes.headD []).lookup n

/-- `type_create` and `sym_add` -/
def add (s : State) (n : Name) (k : Kind) : State × Nat :=
  match s.scopes with
  | [] => (⟨[[(n, ⟨k, s.next⟩)]], s.next + 1, s.done⟩, s.next)
  | h :: t => (⟨((n, ⟨k, s.next⟩) :: h) :: t, s.next + 1, s.done⟩, s.next)

/-- declaration.c:488-505 -/
def tagOf (s : State) (k : Kind) (n : Name) : Option (State × Nat) :=
  match lookup s n with
  | none => some (add s n k)
  | some t => if t.kind ≠ k then none else some (s, t.id)

/-- declaration.c:571-583 -/
def enumFind (s : State) (n : Name) : Option (State × Nat) :=
  match here s n with
  | none => some (add s n .enum)
  | some t => if t.kind ≠ .enum then none else some (s, t.id)

/-- declaration.c:584-591 -/
def enumTag (s : State) (n : Name) : Option State :=
  match enumFind s n with
  | none => none
  | some (s, i) => if i ∈ s.done then none else some { s with done := i :: s.done }

def push (s : State) : State := { s with scopes := [] :: s.scopes }

def pop (s : State) : State := { s with scopes := s.scopes.tail }

/-- The specifiers of a program, in order. -/
def parse (s : State) : Prog → Option (State × List Out)
  | .nil => some (s, [])
  | .scope b r =>
    match parse (push s) b with
    | none => none
    | some (s1, o1) =>
      match parse (pop s1) r with
      | none => none
      | some (s2, o2) => some (s2, o1 ++ o2)
  | .func ps b r =>
    match parse (push s) ps with
    | none => none
    | some (s1, o1) =>
      match parse (push (pop s1)) b with
      | none => none
      | some (s2, o2) =>
        match parse (pop s2) r with
        | none => none
        | some (s3, o3) => some (s3, o1 ++ o2 ++ o3)
  | .ref u n _ r =>
    match tagOf s (recKind u) n with
    | none => none
    | some (s1, i) =>
      match parse s1 r with
      | none => none
      | some (s2, o) => some (s2, ⟨i, decide (i ∈ s1.done)⟩ :: o)
  | .defn u n m r =>
    match tagOf s (recKind u) n with
    | none => none
    | some (s1, i) =>
      if i ∈ s1.done then none
      else
        match parse s1 m with
        | none => none
        | some (s2, o1) =>
          match parse { s2 with done := i :: s2.done } r with
          | none => none
          | some (s3, o2) => some (s3, ⟨i, false⟩ :: (o1 ++ o2))
  | .enumDef n r =>
    match enumTag s n with
    | none => none
    | some s1 => parse s1 r

def start : State := ⟨[[]], 0, []⟩

end Verif.Tags
