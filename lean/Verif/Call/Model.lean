import Verif.Expr.Model

/-!
# Calls in expressions

src/parser/expression.c:105-212 and the parts of src/parser/eval.c that it uses.  The operators are those of `Verif.Expr`;
what is added are calls of functions, whose arguments and results are integers, and whose result may also be nothing
or a pointer to a function; and the comma operator.  A call is not made where it is read: it is kept as an
expression whose parameters have been pushed, until something wants its value.
-/

namespace Verif.Call

open Verif.Types (Ty defaultPromotion)
open Verif.Types.Spec (Basic)
open Verif.Fold (tyOf)
open Verif.Expr (IVar IExp asExpr identity foldOp)
open Verif.Compare (Rel)

/-- What a function returns: an integer, nothing, or a pointer to a function of the type with this number. -/
inductive Ret
  | int (b : Basic)
  | void
  | fn (k : Nat)
  deriving DecidableEq, Repr

/-- A type of functions with a prototype; `more` is the ellipsis. -/
structure Sig where
  ret : Ret
  params : List Basic
  more : Bool

/-- Types of variables, types of functions, and which of those each function has. -/
structure Decls where
  vars : Nat → Basic
  sig : Nat → Sig
  type : Nat → Nat

mutual
/-- Expressions of the source. -/
inductive CE
  | const (b : Basic) (n : Int)
  | var (i : Nat)
  | name (f : Nat)
  | neg (e : CE)
  | compl (e : CE)
  | plus (e : CE)
  | lnot (e : CE)
  | cast (b : Basic) (e : CE)
  | bin (op : Arith.Op) (l r : CE)
  | rel (op : Rel) (l r : CE)
  | comma (l r : CE)
  | call (f : CE) (a : Args)

/-- What is between the parentheses of a call. -/
inductive Args
  | nil
  | cons (e : CE) (r : Args)
end

/-- What a call goes through: the address of a function, or a temporary that is a pointer to a function of a type. -/
inductive Callee
  | name (f : Nat)
  | tmp (k : Nat) (t : Nat)
  deriving DecidableEq, Repr

/-- The type of the function. -/
def Callee.type (W : Decls) : Callee → Nat
  | .name f => W.type f
  | .tmp _ t => t

/-- What the result of a call is assigned to: nothing (`IR_EXPR`), a variable or temporary, a temporary that is a pointer. -/
inductive Target
  | none
  | var (v : IVar)
  | fn (k : Nat)
  deriving DecidableEq, Repr

/-- Statements, ir.h:126-157: assignments without a call, `IR_PARAM`, and `IR_EXPR` or `IR_ASSIGN` of a call. -/
inductive CStmt
  | plain (s : Expr.Stmt)
  | param (v : IVar)
  | call (t : Target) (f : Callee)
  deriving DecidableEq, Repr

/-- `struct expression`, ir.h:95-119: without a call; a function, or pointer to one; nothing; a call that has not been made. -/
inductive CExp
  | plain (e : IExp)
  | fn (c : Callee)
  | void
  | call (c : Callee)
  deriving DecidableEq, Repr

/-- `struct var`. -/
inductive CVar
  | int (v : IVar)
  | fn (c : Callee)
  | void
  deriving DecidableEq, Repr

/-- Temporaries, and the argument lists of expression.c:105: all that there have been (`args.data`, `max_depth`), and how many of
them are in use (`args.length`). -/
structure PS where
  n : Nat
  lists : List (List IVar)
  depth : Nat
  deriving DecidableEq, Repr

/-- What the parser does; none is an error. -/
def P (α : Type) := PS → Option (α × PS × List CStmt)

def P.pure {α : Type} (a : α) : P α := fun p => some (a, p, [])

def P.bind {α β : Type} (f : P α) (g : α → P β) : P β := fun p =>
  match f p with
  | none => none
  | some (a, p', st) =>
    match g a p' with
    | none => none
    | some (b, p'', st') => some (b, p'', st ++ st')

def P.fail {α : Type} : P α := fun _ => none

instance : Monad P where
  pure := P.pure
  bind := P.bind

/-- What has to do with integers only. -/
def lift {α : Type} (f : Expr.R α) : P α := fun p =>
  match f p.n with
  | none => none
  | some (a, n, st) => some (a, { p with n := n }, st.map .plain)

def emit (s : CStmt) : P Unit := fun p => some ((), p, [s])

/-- `create_var`, eval.c:90-102, for a pointer. -/
def createFn (t : Nat) : P Callee := fun p => some (.tmp p.n t, { p with n := p.n + 1 }, [])

/-- `push_argument_list`, expression.c:106-121; the result is the position of the list. -/
def pushList : P Nat := fun p =>
  if p.depth = p.lists.length then some (p.depth, { p with lists := p.lists ++ [[]], depth := p.depth + 1 }, [])
  else some (p.depth, { p with depth := p.depth + 1 }, [])

/-- `array_push_back(args, block->expr)`, expression.c:191 and 201. -/
def pushArg (d : Nat) (v : IVar) : P Unit := fun p => some ((), { p with lists := p.lists.modify d (· ++ [v]) }, [])

/-- expression.c:206-208, with `eval_push_param`, eval.c:1918-1928. -/
def pushParams (d : Nat) : P Unit := fun p => some ((), p, (p.lists.getD d []).map .param)

/-- `pop_argument_list`, expression.c:123-131. -/
def popList : P Unit := fun p => some ((), { p with lists := p.lists.set (p.depth - 1) [], depth := p.depth - 1 }, [])

variable (W : Decls)

/-- `eval`, eval.c:320-338. -/
def evalC : CExp → P CVar
  | .plain e => do
    let v ← lift (Expr.eval e)
    pure (.int v)
  | .fn c => pure (.fn c)
  | .void => pure .void
  | .call c =>
    match (W.sig (c.type W)).ret with
    | .int b => do
      let t ← lift (Expr.createVar (tyOf b {}))
      emit (.call (.var t) c)
      pure (.int t)
    | .void => do
      emit (.call .none c)
      pure .void
    | .fn k => do
      let t ← createFn k
      match t with
      | .tmp j _ => do
        emit (.call (.fn j) c)
        pure (.fn t)
      | .name _ => P.fail

/-- Operators for which only integers are modelled. -/
def evalInt (e : CExp) : P IVar := do
  match ← evalC W e with
  | .int v => pure v
  | _ => P.fail

/-- `eval_prepare_assign`, eval.c:1675-1710, and `eval_prepare_assign_bool`, eval.c:1549-1571; a call of the right type is kept. -/
def prepareAssign (e : CExp) (t : Ty) : P CExp :=
  match e with
  | .plain e => do
    let e ← lift (Expr.prepareAssign e t)
    pure (.plain e)
  | .call c =>
    match (W.sig (c.type W)).ret with
    | .int b =>
      if tyOf b {} = t then pure e
      else do
        let v ← evalInt W e
        let e ← lift (if t.of = .bool then Expr.prepareBool (asExpr v) else Expr.evalCast v t)
        pure (.plain e)
    | _ => P.fail
  | _ => P.fail

/-- `eval_prepare_arg`, eval.c:1716-1734. -/
def prepareArg (e : CExp) (t : Ty) : P IVar := do
  let e ← prepareAssign W e t
  evalInt W e

/-- The type of an expression, if that is an integer. -/
def CExp.intTy : CExp → Option Ty
  | .plain e => some e.ty
  | .call c =>
    match (W.sig (c.type W)).ret with
    | .int b => some (tyOf b {})
    | _ => none
  | _ => none

/-- `eval_prepare_vararg`, eval.c:1736-1755. -/
def prepareVararg (e : CExp) : P IVar :=
  match e.intTy W with
  | none => P.fail
  | some t => do
    let t ← lift (Expr.ok (defaultPromotion t))
    prepareArg W e t

/-- The type of the function that is called, expression.c:167-174. -/
def CExp.function : CExp → Option Nat
  | .fn c => some (c.type W)
  | .call c =>
    match (W.sig (c.type W)).ret with
    | .fn k => some k
    | _ => none
  | _ => none

/-- The end of a call, expression.c:205-212, with `eval_call`, eval.c:1184-1199: the parameters are pushed, then what is called is evaluated. -/
def finishCall (d : Nat) (root : CExp) : P CExp := do
  pushParams d
  match ← evalC W root with
  | .fn c => do
    popList
    pure (.call c)
  | _ => P.fail

/-- `!`, expression.c:330-355. -/
def negation (e : CExp) : P CExp :=
  match e with
  | .plain e => do
    let e ← lift (Expr.evalNegation e)
    pure (.plain e)
  | _ => do
    let v ← evalInt W e
    let e ← lift (Expr.evalBinary .eq (Expr.varInt 0) v)
    pure (.plain e)

/-- The left side of a comma, expression.c:1005-1007. -/
def discard (e : CExp) : P Unit :=
  match e with
  | .call _ => do
    let _ ← evalC W e
    pure ()
  | _ => pure ()

mutual
/-- expression.c:65-729 and 1002-1014 after parsing. -/
def lower : CE → P CExp
  | .const b n => pure (.plain (asExpr (.imm ⟨tyOf b {}, BitVec.ofInt 64 n⟩)))
  | .var i => pure (.plain (asExpr (.obj i (tyOf (W.vars i) {}))))
  | .name f => pure (.fn (.name f))
  | .neg e => do
    let e ← lower e
    let v ← evalInt W e
    let e ← lift (Expr.evalNeg v)
    pure (.plain e)
  | .compl e => do
    let e ← lower e
    let v ← evalInt W e
    let e ← lift (Expr.evalNot v)
    pure (.plain e)
  | .plus e => do
    let e ← lower e
    let v ← evalInt W e
    let e ← lift (Expr.evalPlus v)
    pure (.plain e)
  | .lnot e => do
    let e ← lower e
    negation W e
  | .cast b e => do
    let e ← lower e
    let v ← evalInt W e
    let e ← lift (Expr.evalCast v (tyOf b {}))
    pure (.plain e)
  | .bin op l r => do
    let l ← lower l
    let l ← evalInt W l
    let r ← lower r
    let r ← evalInt W r
    let e ← lift (Expr.evalBinary (foldOp op) l r)
    pure (.plain e)
  | .rel op l r => do
    let l ← lower l
    let l ← evalInt W l
    let r ← lower r
    let r ← evalInt W r
    let e ← lift (Expr.evalRel op l r)
    pure (.plain e)
  | .comma l r => do
    let l ← lower l
    discard W l
    lower r
  | .call f a => do
    let root ← lower f
    match root.function W with
    | none => P.fail
    | some k => do
      let d ← pushList
      lowerArgs d (W.sig k).params (W.sig k).more a
      finishCall W d root

/-- The arguments, expression.c:178-204. -/
def lowerArgs (d : Nat) : List Basic → Bool → Args → P Unit
  | [], _, .nil => pure ()
  | [], more, .cons e r =>
    if more then do
      let e ← lower e
      let v ← prepareVararg W e
      pushArg d v
      lowerArgs d [] more r
    else P.fail
  | _ :: _, _, .nil => P.fail
  | b :: ps, more, .cons e r => do
    let e ← lower e
    let v ← prepareArg W e (tyOf b {})
    pushArg d v
    lowerArgs d ps more r
end

/-- Statements of the source: `x = e;`, `x op= e;`, `e;`. -/
inductive Stm
  | assign (x : Nat) (e : CE)
  | update (op : Arith.Op) (x : Nat) (e : CE)
  | exp (e : CE)

/-- `eval_assign`, eval.c:1757-1785, to a variable. -/
def evalAssign (x : IVar) (e : CExp) : P Unit := do
  match ← prepareAssign W e x.ty with
  | .plain e => emit (.plain ⟨x, e⟩)
  | .call c => emit (.call (.var x) c)
  | _ => P.fail

/-- `eval_expression_statement`, eval.c:302-318. -/
def expressionStatement (e : CExp) : P Unit :=
  match e with
  | .call c => emit (.call .none c)
  | _ => pure ()

def lowerStm : Stm → P Unit
  | .assign x e => do
    let e ← lower W e
    evalAssign W (.obj x (tyOf (W.vars x) {})) e
  | .update op x e => do
    let e ← lower W e
    let v ← evalInt W e
    let e ← lift (Expr.evalBinary (foldOp op) (.obj x (tyOf (W.vars x) {})) v)
    evalAssign W (.obj x (tyOf (W.vars x) {})) (.plain e)
  | .exp e => do
    let e ← lower W e
    expressionStatement e

def lowerAll : List Stm → P Unit
  | [] => pure ()
  | s :: r => do
    lowerStm W s
    lowerAll r

end Verif.Call
