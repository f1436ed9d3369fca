import Verif.Ptr.Code

/-!
# What the machine has when memory has objects
-/

namespace Verif.Ptr

open Verif.Abi (M Place Src BP isTempInt val)
open Verif.Conv (CM Val)
open Verif.Expr (Layout home Apart)
open Verif.Fold (isOpTy)

/-! ## Statements that the back end accepts -/

/-- Offsets are less than 2 GB; nothing is dereferenced that is a constant. -/
def PVar.Short : PVar → Prop
  | .imm _ _ => True
  | .dir _ o _ | .adr _ o _ | .der _ o _ => o.toNat < 2 ^ 31
  | .derImm _ _ _ => False

/-- No structure is copied, and no address of a variable is made shorter. -/
def PExp.Short (D : Decls) : PExp → Prop
  | .cast t v => v.Short ∧ t.isRecord = false ∧ (v.ty = t ∨ ∀ s o u, v = .adr s o u → t.size D = 8)
  | .not _ v => v.Short
  | .bin _ _ l r => l.Short ∧ r.Short

def PStmt.Accepted (D : Decls) (s : PStmt) : Prop := s.t.Short ∧ s.e.Short D

/-! ## Statements that the proofs are about -/

/-- A scalar type. -/
def CTy.Scalar (t : CTy) : Prop := t.Ok ∧ ((∃ b, t = .int b) ∨ ∃ u, t = .ptr u)

/-- Operands: a constant of type `_Bool` is 0 or 1; of temporaries no part is used; offsets are less than 2 GB; addresses are of
variables, and of 8 bytes; what is dereferenced is a pointer. -/
def PVar.Plain (D : Decls) : PVar → Prop
  | .imm t v => t.Scalar ∧ (t = .int .bool → v = 0 ∨ v = 1)
  | .dir s o t => t.Scalar ∧ o.toNat < 2 ^ 31 ∧ ∀ k u, s = .tmp k u → o = 0
  | .adr s o t => t.Scalar ∧ o.toNat < 2 ^ 31 ∧ (∃ i, s = .var i) ∧ t.size D = 8
  | .der s o t => t.Scalar ∧ o.toNat < 2 ^ 31 ∧ ∃ u, s.ty D = .ptr u
  | .derImm _ _ _ => False

/-- The temporaries of an operand are none of `k` and up. -/
def PVar.Before (k : Nat) : PVar → Prop
  | .dir (.tmp j _) _ _ | .der (.tmp j _) _ _ => j < k
  | _ => True

/-- Operands have the type of the operation, or a type that is converted; only addresses that are not made shorter. -/
def PExp.Plain (D : Decls) : PExp → Prop
  | .cast t v => v.Plain D ∧ t.Scalar ∧ (v.ty = t ∨ isImm v = false ∧ ∀ s o u, v = .adr s o u → t.size D = 8)
  | .not t v => v.Plain D ∧ v.ty = t ∧ ∃ b, t = .int b ∧ isOpTy b
  | .bin op t l r => l.Plain D ∧ r.Plain D ∧
    (∀ o, Expr.arithOp op = some o →
      (∃ b, t = .int b ∧ isOpTy b ∧ l.ty = t ∧ (o = .shl ∨ o = .shr ∨ r.ty = t)) ∨
        (∃ u, t = .ptr u ∧ l.ty.size D = 8 ∧ r.ty.size D = 8)) ∧
    (∀ o, Expr.compareOp op = some o → ∃ b, isOpTy b ∧ l.ty = .int b ∧ r.ty = .int b)

def PExp.Before (k : Nat) : PExp → Prop
  | .cast _ v | .not _ v => v.Before k
  | .bin _ _ l r => l.Before k ∧ r.Before k

/-- The target has the type of the expression, but a comparison may also be assigned to `_Bool`.  A temporary is assigned an
expression of temporaries before it. -/
def PStmt.Plain (D : Decls) (n : Nat) (s : PStmt) : Prop :=
  s.t.Plain D ∧ isImm s.t = false ∧ (∀ q o t, s.t ≠ .adr q o t) ∧ s.e.Plain D ∧
    (s.t.ty = s.e.ty ∨ s.t.ty = .int .bool ∧ ∃ op t l r, s.e = .bin op t l r ∧ (Expr.compareOp op).isSome) ∧
    (∀ op t l r, s.e = .bin op t l r → (Expr.compareOp op).isSome → t = .int .int ∨ t = .int .bool) ∧
    s.t.Before n ∧ s.e.Before n ∧ ∀ k u o t, s.t = .dir (.tmp k u) o t → u = t ∧ s.e.Before k

/-! ## The machine -/

/-- Where things are: variables at their addresses; temporaries, of which there are `n`, in registers that are not shared, or in
memory that does not belong to objects. -/
structure Fits (L : Layout) (W : World) (n : Nat) (bp : Int) : Prop where
  var : ∀ i, (∀ r, L.var i ≠ .temp r) ∧ home bp (L.var i) = W.addr i
  tmp : ∀ k < n, (∃ r, L.tmp k = .temp r ∧ isTempInt r) ∨ ∃ o, L.tmp k = .frame o
  regs : ∀ k < n, ∀ k' < n, ∀ r, L.tmp k = .temp r → L.tmp k' = .temp r → k = k'
  tmps : ∀ k < n, ∀ k' < n, ∀ o o', k ≠ k' → L.tmp k = .frame o → L.tmp k' = .frame o' → Apart (bp + o) 8 (bp + o') 8
  both : ∀ k < n, ∀ o, L.tmp k = .frame o → ∀ j : Nat, j < 8 → W.valid (bp + o + j) = false

/-- Objects have the bytes that they should have. -/
def Holds (W : World) (s : M) (mem : Mem) : Prop := ∀ a, W.valid a = true → s.mem a = mem a

/-- Nothing is different but objects, temporaries and scratch registers. -/
structure Untouched (L : Layout) (W : World) (n : Nat) (bp : Int) (s t : CM) : Prop where
  same : t = { s with m := t.m }
  reg : ∀ r, r ∉ Arith.scratch → (∀ k < n, L.tmp k ≠ .temp r) → t.m.reg r = s.m.reg r
  mem : ∀ a, W.valid a = false → (∀ k < n, ∀ o, L.tmp k = .frame o → a < bp + o ∨ bp + o + 8 ≤ a) → t.m.mem a = s.m.mem a

end Verif.Ptr
