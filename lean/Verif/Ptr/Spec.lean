import Verif.Ptr.Model
import Verif.Expr.Spec

/-!
# What expressions with pointers mean

C99 6.2.6.1, 6.3.2, 6.5.  Objects are bytes at addresses, and a pointer is an address.  Nothing here is about the code.
-/

namespace Verif.Ptr

open Verif.Abi (rd wr le val sval)
open Verif.Types.Spec (Basic)
open Verif.Fold.Spec (conv fits)

/-- Where variables are, and which bytes belong to objects. -/
structure World extends Decls where
  addr : Nat → Int
  valid : Int → Bool

/-- All of `n` bytes belong to objects. -/
def World.Valid (W : World) (a : Int) (n : Nat) : Prop := ∀ i < n, W.valid (a + i) = true

instance (W : World) (a : Int) (n : Nat) : Decidable (W.Valid a n) := by unfold World.Valid; infer_instance

abbrev Mem := Int → UInt8

/-- No object is beyond this. -/
def top : Int := 2 ^ 63

/-- The number that the bytes of a scalar type are; a `_Bool` is 0 or 1. -/
def number (mem : Mem) (t : CTy) (a : Int) : Option Int :=
  match t with
  | .int .bool => if val (rd mem a 1) ≤ 1 then some (val (rd mem a 1)) else none
  | .int b => some (if b.isSigned then sval (rd mem a (Expr.size b)) else val (rd mem a (Expr.size b)))
  | .ptr _ => some (val (rd mem a 8))
  | _ => none

/-- The value of an object of scalar type. -/
def scalar (W : World) (mem : Mem) (t : CTy) (a : Int) : Option Int :=
  if W.Valid a (t.size W.toDecls) then number mem t a else none

/-- An expression is an lvalue, of a type and at an address, or it has a type and a value. -/
inductive Res
  | lv (t : CTy) (a : Int)
  | rv (t : CTy) (x : Int)
  deriving DecidableEq, Repr

/-- 6.3.2.1: an array is a pointer to its first element, any other lvalue is the value of the object. -/
def Res.value (W : World) (mem : Mem) : Res → Option (CTy × Int)
  | .rv t x => some (t, x)
  | .lv (.arr _ t) a => some (.ptr t, a)
  | .lv t a => (scalar W mem t a).map (t, ·)

/-- Values of the members of a structure, as declared. -/
def World.member (W : World) (k m : Nat) : Option (CTy × Nat) := ((W.recs k).members.find? fun x => x.1 = m).map (·.2)

/-- 6.5.6, `p + n` where `p` points to objects of type `t`.  Defined if it is an address. -/
def World.step (W : World) (t : CTy) (p n : Int) : Option Res :=
  let q := p + n * t.size W.toDecls
  if t.size W.toDecls ≠ 0 ∧ t.size W.toDecls < top ∧ 0 ≤ p ∧ p < top ∧ 0 ≤ q ∧ q < top then some (.rv (.ptr t) q) else none

/-- 6.5.5 to 6.5.14. -/
def World.binary (W : World) (op : Arith.Op) : CTy × Int → CTy × Int → Option Res
  | (.int a, x), (.int b, y) => (Fold.Spec.binary (Expr.specOp op) a b x y).map fun (t, z) => .rv (.int t) z
  | (.ptr t, p), (.int _, n) =>
    match op with
    | .add => W.step t p n
    | .sub => W.step t p (-n)
    | _ => none
  | (.int _, n), (.ptr t, p) => if op = .add then W.step t p n else none
  | (.ptr t, p), (.ptr s, q) =>
    if op = .sub ∧ t = s ∧ t.size W.toDecls ≠ 0 ∧ t.size W.toDecls < top ∧ 0 ≤ p ∧ p < top ∧ 0 ≤ q ∧ q < top ∧
        (p - q) % t.size W.toDecls = 0 then
      some (.rv (.int .long) ((p - q) / t.size W.toDecls))
    else none
  | _, _ => none

/-- 6.5.8, 6.5.9: pointers are compared as addresses, and with 0. -/
def World.compare (op : Compare.Rel) : CTy × Int → CTy × Int → Option Res
  | (.int a, x), (.int b, y) =>
    some (.rv (.int .int) (if op.holds (some (Ord.compare (conv (a.common b) x) (conv (a.common b) y))) then 1 else 0))
  | (.ptr t, p), (.ptr s, q) =>
    if t = s ∨ op = .eq ∨ op = .ne then some (.rv (.int .int) (if op.holds (some (Ord.compare p q)) then 1 else 0)) else none
  | (.ptr _, p), (.int _, n) =>
    if n = 0 ∧ (op = .eq ∨ op = .ne) then some (.rv (.int .int) (if op.holds (some (Ord.compare p 0)) then 1 else 0)) else none
  | (.int _, n), (.ptr _, p) =>
    if n = 0 ∧ (op = .eq ∨ op = .ne) then some (.rv (.int .int) (if op.holds (some (Ord.compare 0 p)) then 1 else 0)) else none
  | _, _ => none

/-- 6.5.4; an integer that becomes a pointer is that address. -/
def castTo : CTy → CTy × Int → Option Res
  | .int b, (.int _, x) | .int b, (.ptr _, x) => some (.rv (.int b) (conv b x))
  | .ptr t, (.ptr _, x) => some (.rv (.ptr t) x)
  | .ptr t, (.int _, x) => some (.rv (.ptr t) (x % 2 ^ 64))
  | _, _ => none

/-- 6.5.3.2: what a pointer points to. -/
def pointed : CTy × Int → Option Res
  | (.ptr t, p) => some (.lv t p)
  | _ => none

/-- 6.5.2.3. -/
def World.access (W : World) (m : Nat) : Res → Option Res
  | .lv (.record k) a => do
    let (t, off) ← W.member k m
    if 0 ≤ a ∧ a + off < top then some (.lv t (a + off)) else none
  | _ => none

/-- The meaning of an expression; none if C does not define it. -/
def E.meaning (W : World) (mem : Mem) : E → Option Res
  | .num b n => some (.rv (.int b) n)
  | .var i => some (.lv (W.var i) (W.addr i))
  | .deref e => do
    let r ← e.meaning W mem
    pointed (← r.value W mem)
  | .addr e => do
    match ← e.meaning W mem with
    | .lv t a => some (.rv (.ptr t) a)
    | _ => none
  | .index a b => do
    let x ← (← a.meaning W mem).value W mem
    let y ← (← b.meaning W mem).value W mem
    pointed (← (← W.binary .add x y).value W mem)
  | .dot e m => do W.access m (← e.meaning W mem)
  | .arrow e m => do
    let r ← e.meaning W mem
    W.access m (← pointed (← r.value W mem))
  | .cast t e => do
    let r ← e.meaning W mem
    castTo t (← r.value W mem)
  | .lnot e => do
    let (_, x) ← (← e.meaning W mem).value W mem
    some (.rv (.int .int) (if x = 0 then 1 else 0))
  | .bin op a b => do
    let x ← (← a.meaning W mem).value W mem
    let y ← (← b.meaning W mem).value W mem
    W.binary op x y
  | .rel op a b => do
    let x ← (← a.meaning W mem).value W mem
    let y ← (← b.meaning W mem).value W mem
    World.compare op x y

/-! ## Assignment -/

/-- The bytes of an object are written. -/
def write (W : World) (mem : Mem) (t : CTy) (a : Int) (x : Int) : Option Mem :=
  if W.Valid a (t.size W.toDecls) then some (wr mem a (le (t.size W.toDecls) x)) else none

/-- 6.3.2.3: a null pointer constant; `(void *) 0` is a pointer already. -/
def E.null : E → Bool
  | .num _ n => n = 0
  | _ => false

/-- 6.5.16.1: the value is converted to the type of the object. -/
def store (W : World) (mem : Mem) (t : CTy) (a : Int) (null : Bool) : CTy × Int → Option Mem
  | (s, x) =>
    match t, s with
    | .int b, .int _ => write W mem t a (conv b x)
    | .int .bool, .ptr _ => write W mem t a (if x = 0 then 0 else 1)
    | .ptr _, .ptr _ => write W mem t a x
    | .ptr _, .int _ => if null then write W mem t a 0 else none
    | _, _ => none

/-- Statements: of `l` and `e` nothing else is changed. -/
def Stm.exec (W : World) (mem : Mem) : Stm → Option Mem
  | .assign l e => do
    match ← l.meaning W mem, ← e.meaning W mem with
    | .lv (.record k) a, .lv (.record k') b =>
      if k = k' ∧ W.Valid a (W.recs k).size ∧ W.Valid b (W.recs k).size then some (wr mem a (rd mem b (W.recs k).size))
      else none
    | .lv t a, r => do store W mem t a e.null (← r.value W mem)
    | _, _ => none
  | .update op l e => do
    match ← l.meaning W mem with
    | .lv t a => do
      let x ← scalar W mem t a
      let y ← (← e.meaning W mem).value W mem
      let r ← W.binary op (t, x) y
      store W mem t a false (← r.value W mem)
    | _ => none
  | .pre up l | .post up l => do
    match ← l.meaning W mem with
    | .lv t a => do
      let x ← scalar W mem t a
      let r ← W.binary (if up then .add else .sub) (t, x) (.int .int, 1)
      store W mem t a false (← r.value W mem)
    | _ => none

def exec (W : World) : Mem → List Stm → Option Mem
  | mem, [] => some mem
  | mem, s :: r => (s.exec W mem).bind (exec W · r)

/-! ## Programs that the theorems are about -/

/-- A type that has only integers which are not floating. -/
def CTy.Ok : CTy → Prop
  | .int b => b.isFloating = false
  | .ptr t | .arr _ t => t.Ok
  | _ => True

/-- Variables are objects that have addresses; structures are less than 2 GB, and members are inside. -/
structure World.Good (W : World) : Prop where
  addr : ∀ i, 0 ≤ W.addr i ∧ W.addr i + (W.var i).size W.toDecls ≤ top
  valid : ∀ i, W.Valid (W.addr i) ((W.var i).size W.toDecls)
  small : ∀ k, (W.recs k).size < 2 ^ 31
  inside : ∀ k m t off, W.member k m = some (t, off) → off + t.size W.toDecls ≤ (W.recs k).size
  var : ∀ i, (W.var i).Ok
  member : ∀ k m t off, W.member k m = some (t, off) → t.Ok

/-- Constants are of their type, and no cast is to `_Bool` (see C86). -/
def E.Ok : E → Prop
  | .num b n => fits b n
  | .var _ => True
  | .deref e | .addr e | .dot e _ | .arrow e _ | .lnot e => e.Ok
  | .cast t e => t.Ok ∧ t ≠ .int .bool ∧ e.Ok
  | .index a b | .bin _ a b | .rel _ a b => a.Ok ∧ b.Ok

def Stm.Ok : Stm → Prop
  | .assign l e | .update _ l e => l.Ok ∧ e.Ok
  | .pre _ l | .post _ l => l.Ok

end Verif.Ptr
