import Verif.Tac
import Verif.Bytes

/-!
# Enumeration constants

Model of src/parser/declaration.c:527-556, `enumerator_list`, with
src/parser/symtab.c:188-201 (`sym_lookup`) and 383-452 (`sym_add`) for constants.

Simplifications.  The only names are enumeration constants; blocks open and close scopes.  A constant expression is
any function of the values of the names in it (its value is C22), of integer type.  The addition in
`count++` is undefined beyond the range of `int`.
-/

namespace Verif.Enums

abbrev Name := Bytes

/-- A constant expression, given the constants in scope: its value in 64 bits, or no value. -/
abbrev Ex := (Name → Option Int) → Option Int

inductive Prog
  | nil
  | scope (body rest : Prog)
  /-- `enum { a, b = e, ... }` -/
  | enum (list : List (Name × Option Ex)) (rest : Prog)
  /-- an expression somewhere -/
  | use (e : Ex) (rest : Prog)

inductive Err
  | diagnosed | undef
  deriving DecidableEq, Repr

/-- What is seen of a program: values of constants where they are declared, and of expressions. -/
inductive Out
  | const (n : Name) (v : Int)
  | value (v : Int)
  deriving DecidableEq, Repr

def intMax : Int := 2147483647

/-- Conversion to `int`, as gcc has it. -/
def toInt (v : Int) : Int := (v + 2147483648) % 4294967296 - 2147483648

/-- `ns_ident`, the innermost scope first -/
abbrev State := List (List (Name × Int))

def lookup (s : State) (n : Name) : Option Int := s.flatten.lookup n

/-- `sym_add`, and the assignment in line 551: a constant that is there at file scope is given the new
value, and in blocks it is hidden by another one. -/
def add (s : State) (n : Name) (v : Int) : State :=
  match s with
  | [] => [[(n, v)]]
  | h :: t => ((n, v) :: h) :: t

/-- declaration.c:538-544 -/
def given (s : State) (count : Int) : Option Ex → Option Int
  | none => some count
  | some e => (e (lookup s)).map toInt

/-- declaration.c:535-555, from some value of `count` on -/
def enumerators (s : State) (count : Int) :
    List (Name × Option Ex) → Except Err (State × List Out)
  | [] => .ok (s, [])
  | (n, e) :: r =>
    match given s count e with
    | none => .error .diagnosed
    | some c =>
      if c = intMax then .error .undef
      else
        match enumerators (add s n c) (c + 1) r with
        | .error e => .error e
        | .ok (s, o) => .ok (s, .const n c :: o)

def parse (s : State) : Prog → Except Err (State × List Out)
  | .nil => .ok (s, [])
  | .scope b r =>
    match parse ([] :: s) b with
    | .error e => .error e
    | .ok (s1, o1) =>
      match parse s1.tail r with
      | .error e => .error e
      | .ok (s2, o2) => .ok (s2, o1 ++ o2)
  | .enum l r =>
    match enumerators s 0 l with
    | .error e => .error e
    | .ok (s1, o1) =>
      match parse s1 r with
      | .error e => .error e
      | .ok (s2, o2) => .ok (s2, o1 ++ o2)
  | .use e r =>
    match e (lookup s) with
    | none => .error .diagnosed
    | some v =>
      match parse s r with
      | .error e => .error e
      | .ok (s, o) => .ok (s, .value v :: o)

/-- The values seen in a whole file. -/
def outputs (p : Prog) : Except Err (List Out) := (parse [[]] p).map (·.2)

end Verif.Enums
