import Verif.Tac

/-!
# Declarators

src/parser/declaration.c:56-425: `declarator` and what it calls, and src/parser/typetree.c:501-525 (`type_patch_declarator`).  Types are trees here;
that the representation of types in the code stands for such trees, and that the functions to make types do what they say, is in Types (C71).  Left
out: lengths of arrays that are not constant, qualifiers and `static` between the brackets of a parameter, lists of identifiers (K&R), the test of the
size of an array, symbols for parameters (so identifiers and names of types are told apart by the token), and specifiers of declarations, which
are one token for their type (C28 has these).
-/

namespace Verif.Declarator

structure Quals where
  const : Bool := false
  volatile : Bool := false
  restrict : Bool := false
  deriving DecidableEq, Repr

/-- Types; functions have no parameters specified (`is_incomplete`), or types of parameters and whether there is `...`. -/
inductive Ty
  | void
  | base (k : Nat)
  | ptr (q : Quals) (t : Ty)
  | arr (n : Option Nat) (t : Ty)
  | fn (r : Ty) (ps : Option (List Ty × Bool))

/-- Tokens.  `spec`: specifiers, together; `tname`: a typedef name; `other`: anything that is no part of declarators. -/
inductive Tok
  | ident (n : Nat)
  | tname (n : Nat) (t : Ty)
  | spec (t : Ty)
  | star
  | const
  | volatile
  | restrict
  | lp
  | rp
  | lb
  | rb
  | num (k : Nat)
  | comma
  | dots
  | other (k : Nat)

/-- An error is reported; the model gives up. -/
inductive R (α : Type)
  | ok (a : α)
  | error
  | fuel

def R.bind {α β : Type} (r : R α) (f : α → R β) : R β :=
  match r with
  | .ok a => f a
  | .error => .error
  | .fuel => .fuel

def Ty.isVoid : Ty → Bool
  | .void => true
  | _ => false

/-- `is_complete`, typetree.c:870-882. -/
def Ty.complete : Ty → Bool
  | .arr none _ => false
  | .fn _ none => false
  | _ => true

/-- `type_patch_declarator`, typetree.c:501-525. -/
def patch : Ty → Ty → Ty
  | .void, target => target
  | .ptr q t, target => .ptr q (patch t target)
  | .arr n t, target => .arr n (patch t target)
  | .fn r ps, target => .fn (patch r target) ps
  | .base k, _ => .base k

/-- `pointer`, declaration.c:377-396, and the loop around it, 408-410; `inp`: a `*` was read. -/
def pointers : Ty → Bool → List Tok → Ty × List Tok
  | t, _, .star :: r => pointers (.ptr {} t) true r
  | .ptr q t, true, .const :: r => pointers (.ptr { q with const := true } t) true r
  | .ptr q t, true, .volatile :: r => pointers (.ptr { q with volatile := true } t) true r
  | .ptr q t, true, .restrict :: r => pointers (.ptr { q with restrict := true } t) true r
  | t, _, r => (t, r)

/-- `array_declarator`, declaration.c:204-297, after its `[`; `len`: `static_length` is not null. -/
def array : Nat → Bool → Ty → List Tok → R (Ty × List Tok)
  | 0, _, _, _ => .fuel
  | f + 1, len, base, s =>
    let go (n : Option Nat) (s : List Tok) : R (Ty × List Tok) :=
      (match s with
        | .lb :: r => array f false base r
        | s => .ok (base, s)).bind fun x =>
          if x.1.complete = false then .error
          else .ok (if len then .ptr {} x.1 else .arr n x.1, x.2)
    match s with
    | .rb :: r => go none r
    | .num k :: .rb :: r => go (some k) r
    | _ => .error

/-- Lines 97-101: types of parameters are adjusted. -/
def adjust : Ty → Ty
  | .arr _ t => .ptr {} t
  | .fn r ps => .ptr {} (.fn r ps)
  | t => t

/-- `declaration_specifiers`. -/
def specifiers : List Tok → R (Ty × List Tok)
  | .spec t :: r => .ok (t, r)
  | .tname _ t :: r => .ok (t, r)
  | _ => .error

/-- Lines 333-336: there is a declarator in the parentheses. -/
def nested : List Tok → Bool
  | .ident _ :: _ => true
  | .lp :: _ => true
  | .star :: _ => true
  | _ => false

mutual
/-- `parameter_declarator`, lines 400-414; `named`: `name` is not null, `len`: `length` is not null.  The result has the type and the name. -/
def declarator : Nat → Bool → Bool → Ty → List Tok → R (Ty × Option Nat × List Tok)
  | 0, _, _, _, _ => .fuel
  | f + 1, named, len, base, s => direct f named len (pointers base false s).1 (pointers base false s).2

/-- `direct_declarator`, lines 311-377. -/
def direct : Nat → Bool → Bool → Ty → List Tok → R (Ty × Option Nat × List Tok)
  | 0, _, _, _, _ => .fuel
  | f + 1, named, len, base, s =>
    (head f named s).bind fun x =>
      (suffix f (len && x.1.isVoid) base x.2.2).bind fun y => .ok (if x.1.isVoid then y.1 else patch x.1 y.1, x.2.1, y.2)

/-- Lines 322-348. -/
def head : Nat → Bool → List Tok → R (Ty × Option Nat × List Tok)
  | 0, _, _ => .fuel
  | f + 1, named, s =>
    match s with
    | .ident n :: r => if named then .ok (.void, some n, r) else .error
    | .tname n _ :: r => if named then .ok (.void, some n, r) else .error
    | .lp :: r =>
      if nested r then
        (declarator f named false .void r).bind fun x =>
          match x.2.2 with
          | .rp :: r => .ok (x.1, x.2.1, r)
          | _ => .error
      else .ok (.void, none, s)
    | _ => .ok (.void, none, s)

/-- Lines 350-371. -/
def suffix : Nat → Bool → Ty → List Tok → R (Ty × List Tok)
  | 0, _, _, _ => .fuel
  | f + 1, len, base, s =>
    match s with
    | .lb :: r => array f len base r
    | .lp :: r =>
      match r with
      | .ident _ :: _ => .error
      | _ =>
        (parameters f base [] r).bind fun y =>
          match y.2 with
          | .rp :: r => .ok (y.1, r)
          | _ => .error
    | _ => .ok (base, s)

/-- The loop of `parameter_list`, lines 77-116; `ps` are the parameters so far. -/
def parameters : Nat → Ty → List Ty → List Tok → R (Ty × List Tok)
  | 0, _, _, _ => .fuel
  | f + 1, base, ps, s =>
    match s with
    | .rp :: _ => .ok (.fn base (if ps.isEmpty then none else some (ps, false)), s)
    | _ =>
      (specifiers s).bind fun x =>
        (declarator f true true x.1 x.2).bind fun y =>
          if y.1.isVoid then
            if ps.isEmpty then .ok (.fn base (some ([], false)), y.2.2) else .error
          else
            match y.2.2 with
            | .comma :: .dots :: r => .ok (.fn base (some (ps ++ [adjust y.1], true)), r)
            | .comma :: r => parameters f base (ps ++ [adjust y.1]) r
            | r => .ok (.fn base (some (ps ++ [adjust y.1], false)), r)
end

end Verif.Declarator
