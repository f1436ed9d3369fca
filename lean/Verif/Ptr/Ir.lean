import Verif.Ptr.Spec

/-!
# What statements with two operands mean

The language between the parser and the back end: memory has bytes, temporaries have numbers.
-/

namespace Verif.Ptr

open Verif.Abi (rd wr le val sval)
open Verif.Types.Spec (Basic)
open Verif.Fold.Spec (conv fits)

/-- Memory, and the temporaries that have been assigned, with their types. -/
structure Env where
  mem : Mem
  tmps : Nat → Option (CTy × Int)

/-- A number as one of the type. -/
def view : CTy → Int → Option Int
  | .int b, x => some (conv b x)
  | .ptr _, x => some (x % 2 ^ 64)
  | _, _ => none

/-- Addresses are added like registers. -/
def wrap (x : Int) : Int := x % 2 ^ 64

variable (W : World)

/-- The value of a temporary.  It may be read as of another type of the same size, but not as `_Bool`. -/
def tmpValue (σ : Env) (k : Nat) (t : CTy) : Option Int :=
  match σ.tmps k with
  | some (s, x) => if s.size W.toDecls = t.size W.toDecls ∧ (t = .int .bool → s = t) then view t x else none
  | none => none

/-- The pointer in a symbol. -/
def pointer (σ : Env) : Sym → Option Int
  | .var i => some (val (rd σ.mem (W.addr i) 8))
  | .tmp k t => tmpValue W σ k (.ptr t)

/-- The address of what is not in a temporary. -/
def PVar.place (σ : Env) : PVar → Option Int
  | .dir (.var i) o _ => some (wrap (W.addr i + o.toNat))
  | .der s o _ => (pointer W σ s).bind fun p => if p + o.toNat < 2 ^ 64 then some (p + o.toNat) else none
  | .derImm v o _ => some (wrap (v.toNat + o.toNat))
  | _ => none

/-- The value of an operand that is a scalar. -/
def PVar.read (σ : Env) : PVar → Option Int
  | .imm t v => view t v.toInt
  | .dir (.tmp k _) o t => if o = 0 then tmpValue W σ k t else none
  | .adr (.var i) o t => view t (wrap (W.addr i + o.toNat))
  | v => (v.place W σ).bind (scalar W σ.mem v.ty)

/-- The value of an expression that is a scalar.  A cast to `_Bool` is not more than a cast to `unsigned char` for the back
end, so it is not defined here.  The numbers of a pointer and an integer are added modulo `2 ^ 64`. -/
def PExp.value (σ : Env) : PExp → Option Int
  | .cast t v => do
    let x ← v.read W σ
    if t = .int .bool ∧ v.ty ≠ t then none else view t x
  | .not t v => do
    let x ← v.read W σ
    view t (-1 - x)
  | .bin op t l r => do
    let x ← l.read W σ
    let y ← r.read W σ
    match Expr.arithOp op, Expr.compareOp op, t with
    | some o, _, .int b => Arith.meaning (Expr.size b) b.isSigned x y o
    | some .add, _, .ptr _ => some (wrap (x + y))
    | some .sub, _, .ptr _ => some (wrap (x - y))
    | _, some o, _ => some (if o.holds (some (compare x y)) then 1 else 0)
    | _, _, _ => none

def Env.setTmp (σ : Env) (k : Nat) (t : CTy) (x : Int) : Env :=
  { σ with tmps := fun j => if j = k then some (t, x) else σ.tmps j }

/-- A statement: a scalar, or a structure which is copied. -/
def PStmt.exec (σ : Env) (s : PStmt) : Option Env :=
  match s.t, s.e with
  | .dir (.tmp k t) o t', e =>
    if o = 0 ∧ t = t' then (e.value W σ).map (σ.setTmp k t) else none
  | x, .cast (.record k) v => do
    let a ← x.place W σ
    let b ← v.place W σ
    if x.ty = .record k ∧ v.ty = .record k ∧ W.Valid a (W.recs k).size ∧ W.Valid b (W.recs k).size then some { σ with mem := wr σ.mem a (rd σ.mem b (W.recs k).size) } else none
  | x, e => do
    let a ← x.place W σ
    let y ← e.value W σ
    (write W σ.mem x.ty a y).map fun m => { σ with mem := m }

def execs : Env → List PStmt → Option Env
  | σ, [] => some σ
  | σ, s :: r => (s.exec W σ).bind (execs · r)

end Verif.Ptr
