import Verif.Declarator.Model

/-!
# Declarators, as C99 6.7.5 has them

The type of a declarator for a type: `* D` is `D` for a pointer to the type, `D[n]` is `D` for an array of the type, `D(...)` is `D` for a function that
returns the type, `(D)` is `D`, and a name, or nothing where it is left out, has the type.
-/

namespace Verif.Declarator

inductive Q
  | const
  | volatile
  | restrict
  deriving DecidableEq, Repr

mutual
/-- Pointers with their qualifiers, from left to right, and what follows. -/
inductive Dcl
  | mk (ps : List (List Q)) (d : Dir)

inductive Dir
  | name (n : Nat)
  | abs
  | paren (d : Dcl)
  | arr (d : Dir) (n : Option Nat)
  | fn (d : Dir) (a : Args)

inductive Args
  | none
  | void (s : Sp)
  | some (ps : Ps)

/-- Parameters; `va`: `...` follows. -/
inductive Ps
  | last (s : Sp) (d : Dcl) (va : Bool)
  | cons (s : Sp) (d : Dcl) (r : Ps)

/-- Specifiers: of any kind, or a typedef name. -/
inductive Sp
  | kw (t : Ty)
  | td (n : Nat) (t : Ty)
end

/-! ### As text -/

def lenToks : Option Nat → List Tok
  | some k => [.num k]
  | none => []

def Q.tok : Q → Tok
  | .const => .const
  | .volatile => .volatile
  | .restrict => .restrict

def starToks (l : List Q) : List Tok := .star :: l.map Q.tok

def Sp.toks : Sp → List Tok
  | .kw t => [.spec t]
  | .td n t => [.tname n t]

mutual
def Dcl.toks : Dcl → List Tok
  | .mk ps d => (ps.map starToks).flatten ++ d.toks

def Dir.toks : Dir → List Tok
  | .name n => [.ident n]
  | .abs => []
  | .paren d => .lp :: d.toks ++ [.rp]
  | .arr d n => d.toks ++ .lb :: lenToks n ++ [.rb]
  | .fn d a => d.toks ++ .lp :: a.toks ++ [.rp]

def Args.toks : Args → List Tok
  | .none => []
  | .void s => s.toks
  | .some ps => ps.toks

def Ps.toks : Ps → List Tok
  | .last s d va => s.toks ++ d.toks ++ if va then [.comma, .dots] else []
  | .cons s d r => s.toks ++ d.toks ++ .comma :: r.toks
end

/-! ### Meaning -/

def Sp.type : Sp → Ty
  | .kw t => t
  | .td _ t => t

/-- The qualifiers in a list. -/
def qualsOf (l : List Q) : Quals := ⟨decide (.const ∈ l), decide (.volatile ∈ l), decide (.restrict ∈ l)⟩

def pointersTo (t : Ty) (ps : List (List Q)) : Ty := ps.foldl (fun t l => .ptr (qualsOf l) t) t

/-- Parameters are no arrays and no functions: 6.7.5.3p7 and p8. -/
def asParameter : Ty → Ty
  | .arr _ t => .ptr {} t
  | .fn r ps => .ptr {} (.fn r ps)
  | t => t

mutual
def Dcl.type (t : Ty) : Dcl → Ty
  | .mk ps d => d.type (pointersTo t ps)

def Dir.type (t : Ty) : Dir → Ty
  | .name _ => t
  | .abs => t
  | .paren d => d.type t
  | .arr d n => d.type (.arr n t)
  | .fn d a => d.type (.fn t a.types)

def Args.types : Args → Option (List Ty × Bool)
  | .none => none
  | .void _ => some ([], false)
  | .some ps => some ps.types

def Ps.types : Ps → List Ty × Bool
  | .last s d va => ([asParameter (d.type s.type)], va)
  | .cons s d r => (asParameter (d.type s.type) :: r.types.1, r.types.2)
end

mutual
def Dcl.ident : Dcl → Option Nat
  | .mk _ d => d.ident

def Dir.ident : Dir → Option Nat
  | .name n => some n
  | .abs => none
  | .paren d => d.ident
  | .arr d _ => d.ident
  | .fn d _ => d.ident
end

/-! ### What C allows -/

/-- Elements of arrays are no functions, and have a size. -/
def Ty.element : Ty → Bool
  | .arr none _ => false
  | .fn _ _ => false
  | _ => true

/-- Functions return no arrays and no functions. -/
def Ty.returned : Ty → Bool
  | .arr _ _ => false
  | .fn _ _ => false
  | _ => true

/-- In parentheses is something, and it does not begin with `[`. -/
def Dir.opens : Dir → Bool
  | .name _ => true
  | .abs => false
  | .paren _ => true
  | .arr d _ => d.opens
  | .fn .abs _ => true
  | .fn d _ => d.opens

def Dcl.opens : Dcl → Bool
  | .mk ps d => !ps.isEmpty || d.opens

mutual
def Dcl.Ok (t : Ty) : Dcl → Prop
  | .mk ps d => d.Ok (pointersTo t ps)

def Dir.Ok (t : Ty) : Dir → Prop
  | .name _ => True
  | .abs => True
  | .paren d => d.opens = true ∧ d.Ok t
  | .arr d n => t.element = true ∧ d.Ok (.arr n t)
  | .fn d a => t.returned = true ∧ a.Ok ∧ d.Ok (.fn t a.types)

def Args.Ok : Args → Prop
  | .none => True
  | .void s => s.type = .void
  | .some ps => ps.Ok

def Ps.Ok : Ps → Prop
  | .last s d _ => d.Ok s.type ∧ d.type s.type ≠ .void
  | .cons s d r => (d.Ok s.type ∧ d.type s.type ≠ .void) ∧ r.Ok
end

/-! ### Where a declarator ends -/

/-- Nothing that may be part of a declarator follows. -/
def Stop : List Tok → Prop
  | .star :: _ | .const :: _ | .volatile :: _ | .restrict :: _ | .ident _ :: _ | .tname _ _ :: _ | .lp :: _ | .lb :: _ => False
  | _ => True

end Verif.Declarator
