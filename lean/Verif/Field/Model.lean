import Verif.Expr.Model

/-!
# Bit-fields as operands

`rvalue`, src/parser/eval.c:1212-1243, and which of the operators call it.  Variables of `Verif.Expr` that are bit-fields have a width; otherwise
everything is as there.
-/

namespace Verif.Field

open Verif.Types (Ty)
open Verif.Types.Spec (Basic)
open Verif.Fold (tyOf)
open Verif.Expr (IVar IExp Exp R asExpr identity foldOp intTy varInt)
open Verif.Compare (Rel)

/-- Declared types of variables, and widths of those that are bit-fields (`field_width`, ir.h:84). -/
structure Decls where
  ty : Nat → Basic
  width : Nat → Option Nat

variable (W : Decls)

/-- The last case of `rvalue`, eval.c:1234-1240. -/
def narrow : IVar → Bool
  | .obj i t =>
    match W.width i with
    | some w => t.isUnsigned && decide (w < 32)
    | none => false
  | _ => false

/-- `rvalue`, eval.c:1212-1243, for integers. -/
def rvalue (v : IVar) : R IVar := if narrow W v then Expr.eval (.cast intTy v) else pure v

/-- `eval_add` 643, `eval_sub` 742, `eval_cmp_eq` 889, `eval_cmp_ne` 906, `eval_cmp_ge` 941, `eval_cmp_gt` 963 have `rvalue` of both operands;
`eval_mul` 512, `eval_div` 553, `eval_mod` 591, `eval_or` 977, `eval_xor` 1007, `eval_and` 1037, `eval_lshift` 1067 and `eval_rshift` 1096 have not. -/
def promotes : Fold.Op → Bool
  | .add | .sub | .eq | .ne | .ge | .gt => true
  | _ => false

def evalBinary (op : Fold.Op) (l r : IVar) : R IExp :=
  if promotes op then do
    let l ← rvalue W l
    let r ← rvalue W r
    Expr.evalBinary op l r
  else Expr.evalBinary op l r

/-- `eval_neg`, eval.c:1153-1182. -/
def evalNeg (v : IVar) : R IExp := if v.ty.isInteger then evalBinary W .sub (varInt 0) v else R.fail

/-- `eval_cast`, eval.c:441-481, has `rvalue` at 451. -/
def evalCast (v : IVar) (t : Ty) : R IExp := do
  let v ← rvalue W v
  Expr.evalCast v t

/-- `!`, expression.c:330-355. -/
def evalNegation (e : IExp) : R IExp :=
  match e with
  | .bin .eq t l r => pure (.bin .ne t l r)
  | .bin .ne t l r => pure (.bin .eq t l r)
  | .bin .ge t l r => pure (.bin .gt t r l)
  | .bin .gt t l r => pure (.bin .ge t r l)
  | _ => do
    let v ← Expr.eval e
    evalBinary W .eq (varInt 0) v

/-- expression.c:610-681. -/
def evalRel (op : Rel) (l r : IVar) : R IExp :=
  match op with
  | .lt => evalBinary W .gt r l
  | .gt => evalBinary W .gt l r
  | .le => evalBinary W .ge r l
  | .ge => evalBinary W .ge l r
  | .eq => evalBinary W .eq l r
  | .ne => evalBinary W .ne l r

/-- expression.c:306-725 after parsing; `eval_not`, eval.c:1125-1151, and `eval_unary_plus`, eval.c:1313-1339, do not have `rvalue`. -/
def lower : Exp → R IExp
  | .const b n => pure (asExpr (.imm ⟨tyOf b {}, BitVec.ofInt 64 n⟩))
  | .var i => pure (asExpr (.obj i (tyOf (W.ty i) {})))
  | .neg e => do
    let e ← lower e
    let v ← Expr.eval e
    evalNeg W v
  | .compl e => do
    let e ← lower e
    let v ← Expr.eval e
    Expr.evalNot v
  | .plus e => do
    let e ← lower e
    let v ← Expr.eval e
    Expr.evalPlus v
  | .lnot e => do
    let e ← lower e
    evalNegation W e
  | .cast b e => do
    let e ← lower e
    let v ← Expr.eval e
    evalCast W v (tyOf b {})
  | .bin op l r => do
    let l ← lower l
    let l ← Expr.eval l
    let r ← lower r
    let r ← Expr.eval r
    evalBinary W (foldOp op) l r
  | .rel op l r => do
    let l ← lower l
    let l ← Expr.eval l
    let r ← lower r
    let r ← Expr.eval r
    evalRel W op l r

/-- `eval_prepare_assign`, eval.c:1675-1710, has `rvalue` of what is only a variable, at 1686. -/
def prepareAssign (e : IExp) (t : Ty) : R IExp :=
  match identity e with
  | some v => do
    let v ← rvalue W v
    Expr.prepareAssign (asExpr v) t
  | none => Expr.prepareAssign e t

/-- `x = e;`, where `x` is no bit-field. -/
def lowerAssign (x : Nat) (e : Exp) : R Unit := do
  let e ← lower W e
  let e ← prepareAssign W e (tyOf (W.ty x) {})
  Expr.irAssign (.obj x (tyOf (W.ty x) {})) e

def lowerAll : List (Nat × Exp) → R Unit
  | [] => pure ()
  | (x, e) :: r => do
    lowerAssign W x e
    lowerAll r

end Verif.Field
