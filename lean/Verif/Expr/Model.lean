import Verif.Expr.Machine
import Verif.Arith.Model
import Verif.Fold.Model
import Verif.Fold.Lemmas

/-!
# Whole expressions and assignments of integers

From the source to instructions: src/parser/expression.c and src/parser/eval.c make a list of
assignments with at most two operands, where temporaries have results in between, and
src/backend/x86_64/compile.c makes code of each.  Integer types without qualifiers;
bit-fields, pointers, calls, and operators that branch are not here.
-/

namespace Verif.Expr

open Verif.Abi (Place AX)
open Verif.Conv (Val)
open Verif.Arith (AIns)
open Verif.Types (Ty promoteInteger usualConversion scalarSize)
open Verif.Types.Spec (Basic)
open Verif.Fold (Imm tyOf isSigned)
open Verif.Compare (CC Form Kind Rel)

/-- `struct var`, ir.h:19-49: a constant, a variable, a temporary. -/
inductive IVar
  | imm (i : Imm)
  | obj (v : Nat) (t : Ty)
  | tmp (k : Nat) (t : Ty)
  deriving DecidableEq, Repr

def IVar.ty : IVar → Ty
  | .imm i => i.ty
  | .obj _ t => t
  | .tmp _ t => t

/-- `struct expression`, ir.h:95-119. -/
inductive IExp
  | cast (t : Ty) (v : IVar)
  | not (t : Ty) (v : IVar)
  | bin (op : Fold.Op) (t : Ty) (l r : IVar)
  deriving DecidableEq, Repr

def IExp.ty : IExp → Ty
  | .cast t _ => t
  | .not t _ => t
  | .bin _ t _ _ => t

/-- A statement `IR_ASSIGN`, ir.h:126-157. -/
structure Stmt where
  t : IVar
  e : IExp
  deriving DecidableEq, Repr

/-- What the parser does: from the number of temporaries there are, to the number there are then, and the statements
that are added.  None is an error. -/
def R (α : Type) := Nat → Option (α × Nat × List Stmt)

def R.pure {α : Type} (a : α) : R α := fun n => some (a, n, [])

def R.bind {α β : Type} (f : R α) (g : α → R β) : R β := fun n =>
  match f n with
  | none => none
  | some (a, n', st) =>
    match g a n' with
    | none => none
    | some (b, n'', st') => some (b, n'', st ++ st')

def R.fail {α : Type} : R α := fun _ => none

def R.lift {α : Type} : Option α → R α
  | none => R.fail
  | some a => R.pure a

instance : Monad R where
  pure := R.pure
  bind := R.bind

/-- `as_expr`, eval.c:201-212. -/
def asExpr (v : IVar) : IExp := .cast v.ty v

/-- `ir_assign`, eval.c:255-267. -/
def irAssign (t : IVar) (e : IExp) : R Unit := fun n => some ((), n, [⟨t, e⟩])

/-- `create_var`, eval.c:90-102. -/
def createVar (t : Ty) : R IVar := fun n => some (.tmp n t, n + 1, [])

/-- `is_identity`, ir.h:121. -/
def identity : IExp → Option IVar
  | .cast t v => if v.ty = t then some v else none
  | _ => none

/-- `eval`, eval.c:320-338. -/
def eval (e : IExp) : R IVar :=
  match identity e with
  | some v => pure v
  | none => do
    let t ← createVar e.ty
    irAssign t e
    pure t

/-- `cast_operand`, eval.c:416-439, without pointers. -/
def castOperand (v : IVar) (t : Ty) : R IVar :=
  match v with
  | .imm i => R.lift ((Fold.castOperand i t).map .imm)
  | _ => if v.ty = t then pure v else eval (.cast t v)

/-- `eval_cast`, eval.c:441-481, without pointers. -/
def evalCast (v : IVar) (t : Ty) : R IExp :=
  match v with
  | .imm i => R.lift ((Fold.castOperand i t).map fun i => asExpr (.imm i))
  | _ => if v.ty = t then pure (asExpr v) else pure (.cast t v)

/-- The end of each `eval_` function: constants are folded.  The operands have been converted, and
`Fold.binary`, which does that too, does not change them. -/
def create (op : Fold.Op) (t : Ty) (l r : IVar) : R IExp :=
  match l, r with
  | .imm i, .imm j =>
    match Fold.binary op i j with
    | .const k => pure (asExpr (.imm k))
    | .runtime => pure (.bin op t l r)
    | _ => R.fail
  | _, _ => pure (.bin op t l r)

def ok {α : Type} : Types.R α → R α
  | .ok a => R.pure a
  | .error _ => R.fail

def intTy : Ty := { kind := .int }

/-- `var_int`, eval.c:128-135. -/
def varInt (n : Int) : IVar := .imm ⟨intTy, BitVec.ofInt 64 n⟩

/-- Usual conversions of both operands. -/
def balanced (op : Fold.Op) (result : Option Ty) (l r : IVar) : R IExp := do
  let t ← ok (usualConversion l.ty r.ty)
  let l ← castOperand l t
  let r ← castOperand r t
  create op (result.getD t) l r

/-- `eval_mul` 512, `eval_div` 553, `eval_mod` 591, `eval_add` 631, `eval_sub` 732, `eval_or` 977, `eval_xor` 1007,
`eval_and` 1037 with the usual conversions; `eval_cmp_eq` 883, `eval_cmp_ne` 900, `eval_cmp_ge` 933, `eval_cmp_gt` 955 whose type
is `int`; `eval_lshift` 1067, `eval_rshift` 1096, where only the left operand is promoted. -/
def evalBinary (op : Fold.Op) (l r : IVar) : R IExp :=
  if l.ty.isInteger && r.ty.isInteger then
    match op with
    | .shl | .shr => do
      let t ← ok (promoteInteger l.ty)
      let l ← castOperand l t
      create op t l r
    | .eq | .ne | .ge | .gt => balanced op (some intTy) l r
    | _ => balanced op none l r
  else R.fail

/-- The end of `eval_not`. -/
def complement (t : Ty) (v : IVar) : R IExp :=
  match v with
  | .imm i =>
    match Fold.complement i with
    | .const k => pure (asExpr (.imm k))
    | _ => R.fail
  | _ => pure (.not t v)

/-- `eval_not`, eval.c:1125-1151. -/
def evalNot (v : IVar) : R IExp :=
  if v.ty.isInteger then do
    let t ← ok (promoteInteger v.ty)
    let v ← castOperand v t
    complement t v
  else R.fail

/-- `eval_neg`, eval.c:1153-1182. -/
def evalNeg (v : IVar) : R IExp := if v.ty.isInteger then evalBinary .sub (varInt 0) v else R.fail

/-- `eval_unary_plus`, eval.c:1313-1339. -/
def evalPlus (v : IVar) : R IExp :=
  if v.ty.isInteger then do
    let t ← ok (promoteInteger v.ty)
    match v with
    | .imm i => R.lift ((Fold.castOperand i t).map fun i => asExpr (.imm i))
    | _ => if v.ty = t then pure (asExpr v) else pure (.cast t v)
  else R.fail

/-- `!`, expression.c:330-355: a comparison is negated, anything else is compared with 0. -/
def evalNegation (e : IExp) : R IExp :=
  match e with
  | .bin .eq t l r => pure (.bin .ne t l r)
  | .bin .ne t l r => pure (.bin .eq t l r)
  | .bin .ge t l r => pure (.bin .gt t r l)
  | .bin .gt t l r => pure (.bin .ge t r l)
  | _ => do
    let v ← eval e
    evalBinary .eq (varInt 0) v

/-- Expressions of the source: constants, variables that are known by a number, `-`, `~`, `+`, `!`, casts, and operators with two
operands. -/
inductive Exp
  | const (b : Basic) (n : Int)
  | var (i : Nat)
  | neg (e : Exp)
  | compl (e : Exp)
  | plus (e : Exp)
  | lnot (e : Exp)
  | cast (b : Basic) (e : Exp)
  | bin (op : Arith.Op) (l r : Exp)
  | rel (op : Rel) (l r : Exp)
  deriving DecidableEq, Repr

def foldOp : Arith.Op → Fold.Op
  | .add => .add
  | .sub => .sub
  | .mul => .mul
  | .div => .div
  | .mod => .mod
  | .and => .and
  | .or => .or
  | .xor => .xor
  | .shl => .shl
  | .shr => .shr

/-- expression.c:610-681, where `<` and `<=` exchange the operands after both have been evaluated. -/
def evalRel (op : Rel) (l r : IVar) : R IExp :=
  match op with
  | .lt => evalBinary .gt r l
  | .gt => evalBinary .gt l r
  | .le => evalBinary .ge r l
  | .ge => evalBinary .ge l r
  | .eq => evalBinary .eq l r
  | .ne => evalBinary .ne l r

/-- expression.c:306-725 after parsing; variables have types `Γ`. -/
def lower (Γ : Nat → Basic) : Exp → R IExp
  | .const b n => pure (asExpr (.imm ⟨tyOf b {}, BitVec.ofInt 64 n⟩))
  | .var i => pure (asExpr (.obj i (tyOf (Γ i) {})))
  | .neg e => do
    let e ← lower Γ e
    let v ← eval e
    evalNeg v
  | .compl e => do
    let e ← lower Γ e
    let v ← eval e
    evalNot v
  | .plus e => do
    let e ← lower Γ e
    let v ← eval e
    evalPlus v
  | .lnot e => do
    let e ← lower Γ e
    evalNegation e
  | .cast b e => do
    let e ← lower Γ e
    let v ← eval e
    evalCast v (tyOf b {})
  | .bin op l r => do
    let l ← lower Γ l
    let l ← eval l
    let r ← lower Γ r
    let r ← eval r
    evalBinary (foldOp op) l r
  | .rel op l r => do
    let l ← lower Γ l
    let l ← eval l
    let r ← lower Γ r
    let r ← eval r
    evalRel op l r

/-- `eval_prepare_assign_bool`, eval.c:1549-1571. -/
def prepareBool (e : IExp) : R IExp :=
  if e.ty.of = .bool then pure e
  else do
    let v ← eval e
    let c ← evalBinary .ne (varInt 0) v
    match identity c with
    | some v => evalCast v (tyOf .bool {})
    | none =>
      match c with
      | .bin op _ l r => pure (.bin op (tyOf .bool {}) l r)
      | _ => R.fail

/-- `eval_prepare_assign`, eval.c:1675-1714, for integers. -/
def prepareAssign (e : IExp) (t : Ty) : R IExp :=
  if t.of = .bool then prepareBool e
  else
    match identity e with
    | some (.imm i) => R.lift ((Fold.castOperand i t).map fun i => asExpr (.imm i))
    | _ =>
      if e.ty = t then pure e
      else do
        let v ← eval e
        evalCast v t

/-- `eval_assign`, eval.c:1757-1785, to a variable. -/
def evalAssign (x : IVar) (e : IExp) : R Unit := do
  let e ← prepareAssign e x.ty
  irAssign x e

/-- `eval_copy`, eval.c:1787-1800. -/
def evalCopy (v : IVar) : R Unit := do
  let c ← createVar v.ty
  evalAssign c (asExpr v)

/-- Statements of the source: `x = e;`, `x op= e;`, `++x;` or `--x;`, `x++;` or `x--;`. -/
inductive Stm
  | assign (x : Nat) (e : Exp)
  | update (op : Arith.Op) (x : Nat) (e : Exp)
  | pre (up : Bool) (x : Nat)
  | post (up : Bool) (x : Nat)
  deriving DecidableEq, Repr

/-- expression.c:911-984, 431-446 and 228-245. -/
def lowerStm (Γ : Nat → Basic) : Stm → R Unit
  | .assign x e => do
    let e ← lower Γ e
    evalAssign (.obj x (tyOf (Γ x) {})) e
  | .update op x e => do
    let e ← lower Γ e
    let v ← eval e
    let e ← evalBinary (foldOp op) (.obj x (tyOf (Γ x) {})) v
    evalAssign (.obj x (tyOf (Γ x) {})) e
  | .pre up x => do
    let e ← evalBinary (if up then .add else .sub) (.obj x (tyOf (Γ x) {})) (varInt 1)
    evalAssign (.obj x (tyOf (Γ x) {})) e
  | .post up x => do
    evalCopy (.obj x (tyOf (Γ x) {}))
    let e ← evalBinary (if up then .add else .sub) (.obj x (tyOf (Γ x) {})) (varInt 1)
    evalAssign (.obj x (tyOf (Γ x) {})) e

def lowerAll (Γ : Nat → Basic) : List Stm → R Unit
  | [] => pure ()
  | s :: r => do
    lowerStm Γ s
    lowerAll Γ r

/-! ## Code -/

/-- Where variables and temporaries are. -/
structure Layout where
  var : Nat → Place
  tmp : Nat → Place

/-- The operand of the back end; a constant is `value.imm.i`, a `long`. -/
def IVar.val (L : Layout) : IVar → Val
  | .imm i => ⟨scalarSize i.ty, isSigned i.ty, none, .imm i.v.toInt⟩
  | .obj v t => ⟨scalarSize t, isSigned t, none, .place (L.var v)⟩
  | .tmp k t => ⟨scalarSize t, isSigned t, none, .place (L.tmp k)⟩

def arithOp : Fold.Op → Option Arith.Op
  | .add => some .add
  | .sub => some .sub
  | .mul => some .mul
  | .div => some .div
  | .mod => some .mod
  | .and => some .and
  | .or => some .or
  | .xor => some .xor
  | .shl => some .shl
  | .shr => some .shr
  | _ => none

def compareOp : Fold.Op → Option Compare.Op
  | .eq => some .eq
  | .ne => some .ne
  | .ge => some .ge
  | .gt => some .gt
  | _ => none

/-- The distinctions of `compile_compare`; all that is modelled is not through the global offset table, and no
bit-field. -/
def formOf (v : Val) : Form :=
  match v.src with
  | .imm _ => .imm
  | .place (.temp _) => .direct true
  | .place _ => .direct false
  | _ => .other

def kindOf (v : Val) : Kind := if v.signed then .signed else .unsigned

/-- A variable as an operand of `CMP`. -/
def direct (v : Val) : Option Arg :=
  match v.src with
  | .place (.temp r) => some (.reg r)
  | .place p => do some (.mem (← p.ea))
  | _ => none

def constant (v : Val) : Int :=
  match v.src with
  | .imm n => n
  | _ => 0

/-- A constant is compared with `v`, compile.c:2266-2280 and 2298-2311. -/
def compareImm (w : Nat) (v : Val) (n : Int) : Option (List XIns) :=
  match direct v with
  | some a => some [.cmp w a (.imm n)]
  | none => do some ((← Arith.load v AX).map .a ++ [.cmp w (.reg AX) (.imm n)])

/-- Lines 2312-2340. -/
def compareBoth (w : Nat) (l r : Val) : Option (List XIns) :=
  match formOf l, formOf r, direct l, direct r with
  | .direct false, _, some a, _ => do some ((← Arith.load r AX).map .a ++ [.cmp w a (.reg AX)])
  | .imm, .direct false, _, some a => do some ((← Arith.load l AX).map .a ++ [.cmp w (.reg AX) a])
  | .other, .direct false, _, some a => do some ((← Arith.load l AX).map .a ++ [.cmp w (.reg AX) a])
  | _, _, _, _ => do
    some ((← Arith.load l AX).map .a ++ (← Arith.load r Abi.CX).map .a ++ [.cmp w (.reg AX) (.reg Abi.CX)])

/-- Lines 2218-2344, `compile_compare`, of integers. -/
def compareCode (op : Compare.Op) (l r : Val) : Option (List XIns × CC) := do
  let w := l.sz
  let cc := (Compare.intCompare (kindOf l) op (w == 8) (formOf l) (formOf r)).2
  let code ← if formOf l = .imm ∧ w < 8 then compareImm w r (constant l)
    else if formOf r = .imm ∧ w < 8 then compareImm w l (constant r)
    else compareBoth w l r
  some (code, cc)

/-- `set_compare_value`, compile.c:2778-2803, of integers. -/
def setValue (cc : CC) : List XIns := [.setcc cc AX, .a (.conv (.int (.movx false 1 4 AX AX)))]

/-- `compile_cast`, compile.c:2824-2908: `Arith.cast` is about types of the same size and sign as if they were equal, but
`_Bool` and `unsigned char` are not. -/
def castCode (x : Val) (t : Ty) (v : IVar) (l : Val) : Option (List AIns) :=
  if v.ty = t then Arith.cast (some x) (scalarSize t) (isSigned t) l
  else do
    some ((← Arith.loadInt l AX (if scalarSize t < 4 then 4 else scalarSize t))
      ++ (← Arith.store AX { x with sz := scalarSize t, signed := isSigned t }))

/-- `compile_statement` 3036-3065 and `compile_assign`, compile.c:2910-2976. -/
def stmtCode (L : Layout) (s : Stmt) : Option (List XIns) :=
  let x := s.t.val L
  match s.e with
  | .cast t v => do some ((← castCode x t v (v.val L)).map .a)
  | .not _ v => do some ((← Arith.not (some x) (v.val L)).map .a)
  | .bin op t l r =>
    match arithOp op, compareOp op with
    | some o, _ => do some ((← Arith.binary o (some x) (scalarSize t) (isSigned t) (l.val L) (r.val L)).map .a)
    | _, some o => do
      let (c, cc) ← compareCode o (l.val L) (r.val L)
      some (c ++ setValue cc ++ (← Arith.store AX x).map .a)
    | none, none => none

def code (L : Layout) : List Stmt → Option (List XIns)
  | [] => some []
  | s :: r => do some ((← stmtCode L s) ++ (← code L r))

end Verif.Expr
