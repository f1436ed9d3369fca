import Verif.Fold.Model
import Verif.Fold.Spec

/-!
# Integer constant expressions (src/parser/expression.c), evaluated without a definition (`def == NULL`)

Expression trees stand for the token sequences they are parsed from; parsing itself is not modelled.
-/

namespace Verif.Fold
open Verif.Types Verif.Types.Spec

/-- Integer constant expressions: literals with their type, casts to arithmetic types, operators. -/
inductive Expr
  | lit (b : Basic) (n : Int)
  | cast (b : Basic) (e : Expr)
  | neg (e : Expr)
  | compl (e : Expr)
  | not (e : Expr)
  | plus (e : Expr)
  | bin (op : Spec.Op) (l r : Expr)
  | and (l r : Expr)
  | or (l r : Expr)
  | cond (c l r : Expr)

/-- State after parsing a subexpression that began in block `b`: `value i same` is an immediate `block->expr`, and `same`
tells whether the current block still is `b`; `expr same` is a `block->expr` that is not an immediate (an unfolded division);
`stop` covers diagnostics, undefined behaviour and failed assertions.  No statement is ever appended (`count` stays 0)
because that needs a definition. -/
inductive Res
  | value (i : Imm) (same : Bool)
  | expr (same : Bool)
  | stop (o : Out)
  deriving DecidableEq, Repr

/-- Result of an `eval_*` function stored in `block->expr`. -/
def Res.ofOut (same : Bool) : Out → Res
  | .const i => .value i same
  | .runtime => .expr same
  | o => .stop o

/-- `eval(def, block, block->expr)`, eval.c:318-338: an expression that is not a value needs a temporary, and
`create_var` asserts `def` (eval.c:94). -/
def Res.eval (r : Res) (k : Imm → Bool → Res) : Res :=
  match r with
  | .value i s => k i s
  | .expr _ => .stop .crash
  | .stop o => .stop o

def modelOp : Spec.Op → Op
  | .mul => .mul | .div => .div | .mod => .mod | .add => .add | .sub => .sub | .and => .and | .or => .or | .xor => .xor
  | .shl => .shl | .shr => .shr | .eq => .eq | .ne => .ne | .ge => .ge | .gt => .gt

/-- Representation of an arithmetic type. -/
def reprTy : Basic → Ty
  | .bool => { kind := .bool }
  | .char => { kind := .char }
  | .uchar => { kind := .char, uns := true }
  | .short => { kind := .short }
  | .ushort => { kind := .short, uns := true }
  | .int => { kind := .int }
  | .uint => { kind := .int, uns := true }
  | .long => { kind := .long }
  | .ulong => { kind := .long, uns := true }
  | .float => { kind := .float }
  | .double => { kind := .double }
  | .ldouble => { kind := .ldouble }

/-- `eval_unary_plus`, eval.c:1315-1339, on an integer constant. -/
def unaryPlus (i : Imm) : Out :=
  if !i.ty.isInteger then .diag
  else match promoteInteger i.ty with
  | .error _ => .crash
  | .ok t => cast i t

/-- `left` = state after the left operand; `right` = state after the right operand, relative to the new block `top`.
`decided` is the value of `left` for which the right operand is not evaluated: false for `&&` (logical_and_expression,
expression.c:731-783), true for `||` (logical_or_expression, 785-837). -/
def logical (decided : Bool) (left right : Res) : Res :=
  match left, right with
  | .stop o, _ => .stop o
  | _, .stop o => .stop o
  | .expr _, _ => .stop .crash
  | .value l s, r =>
    if decide (l.v ≠ 0) = decided then
      match r with
      | .value _ true | .expr true => .value (immInt decided) s
      | _ => .value (immInt decided) false
    else
      r.eval fun v _ => Res.ofOut false (binary .ne v (immInt false))

/-- `conditional_expression`, expression.c:839-909. -/
def conditional (c l r : Res) : Res :=
  match c with
  | .stop o => .stop o
  | .expr _ => match l, r with | .stop o, _ => .stop o | _, .stop o => .stop o | _, _ => .stop .crash
  | .value c s =>
    l.eval fun x sx => r.eval fun y sy =>
      match usualConversion x.ty y.ty with
      | .error _ => .stop .crash
      | .ok t => if c.v ≠ 0 then Res.ofOut (s && sx) (cast x t) else Res.ofOut (s && sy) (cast y t)

/-- Parsing and evaluating an expression, starting in some block. -/
def parse : Expr → Res
  | .lit b n => .value ⟨reprTy b, BitVec.ofInt 64 n⟩ true
  | .cast b e => (parse e).eval fun i s => Res.ofOut s (cast i (reprTy b))
  | .neg e => (parse e).eval fun i s => Res.ofOut s (negate i)
  | .compl e => (parse e).eval fun i s => Res.ofOut s (complement i)
  | .not e => (parse e).eval fun i s => Res.ofOut s (binary .eq (immInt false) i)
  | .plus e => (parse e).eval fun i s => Res.ofOut s (unaryPlus i)
  | .bin op l r => (parse l).eval fun x s => (parse r).eval fun y s' => Res.ofOut (s && s') (binary (modelOp op) x y)
  | .and l r => logical false (parse l) (parse r)
  | .or l r => logical true (parse l) (parse r)
  | .cond c l r => conditional (parse c) (parse l) (parse r)

/-- `constant_expression`, expression.c:986-1000: the block must be the one begun with, and hold an immediate. -/
def constantExpression (e : Expr) : Out :=
  match parse e with
  | .value i true => .const i
  | .value _ false | .expr _ => .diag
  | .stop o => o

namespace Spec

/-- The type of an expression, C99 6.5. -/
def typeOf : Expr → Basic
  | .lit b _ => b
  | .cast b _ => b
  | .neg e => (typeOf e).promote
  | .compl e => (typeOf e).promote
  | .not _ => .int
  | .plus e => (typeOf e).promote
  | .bin .shl l _ => (typeOf l).promote
  | .bin .shr l _ => (typeOf l).promote
  | .bin .eq _ _ => .int
  | .bin .ne _ _ => .int
  | .bin .ge _ _ => .int
  | .bin .gt _ _ => .int
  | .bin _ l r => (typeOf l).common (typeOf r)
  | .and _ _ => .int
  | .or _ _ => .int
  | .cond _ l r => (typeOf l).common (typeOf r)

/-- The value of an expression, `none` when evaluation is not defined by C.  Operands that C does not evaluate do not
matter. -/
def value : Expr → Option Int
  | .lit _ n => some n
  | .cast b e => (value e).map (conv b)
  | .neg e => (value e).bind fun x => (negate (typeOf e) x).map (·.2)
  | .compl e => (value e).map fun x => (complement (typeOf e) x).2
  | .not e => (value e).map fun x => if x = 0 then 1 else 0
  | .plus e => value e
  | .bin op l r => (value l).bind fun x => (value r).bind fun y => (binary op (typeOf l) (typeOf r) x y).map (·.2)
  | .and l r => (value l).bind fun x => if x = 0 then some 0 else (value r).map fun y => if y = 0 then 0 else 1
  | .or l r => (value l).bind fun x => if x ≠ 0 then some 1 else (value r).map fun y => if y = 0 then 0 else 1
  | .cond c l r => (value c).bind fun x => (if x = 0 then value r else value l).map (conv ((typeOf l).common (typeOf r)))

/-- Literals are in the range of their (integer) types and casts are to integer types. -/
def wellTyped : Expr → Prop
  | .lit b n => fits b n
  | .cast b e => b.isFloating = false ∧ wellTyped e
  | .neg e => wellTyped e
  | .compl e => wellTyped e
  | .not e => wellTyped e
  | .plus e => wellTyped e
  | .bin _ l r => wellTyped l ∧ wellTyped r
  | .and l r => wellTyped l ∧ wellTyped r
  | .or l r => wellTyped l ∧ wellTyped r
  | .cond c l r => wellTyped c ∧ wellTyped l ∧ wellTyped r

/-- Every subexpression, evaluated or not, has a defined value. -/
def total : Expr → Prop
  | .lit _ _ => True
  | .cast _ e => total e
  | .neg e => total e ∧ value (.neg e) ≠ none
  | .compl e => total e
  | .not e => total e
  | .plus e => total e
  | .bin op l r => total l ∧ total r ∧ value (.bin op l r) ≠ none
  | .and l r => total l ∧ total r
  | .or l r => total l ∧ total r
  | .cond c l r => total c ∧ total l ∧ total r

/-- Outside unselected branches of `?:`, the left operand of every `&&` is 0 and the left operand of every `||` is not. -/
def decided : Expr → Prop
  | .lit _ _ => True
  | .cast _ e => decided e
  | .neg e => decided e
  | .compl e => decided e
  | .not e => decided e
  | .plus e => decided e
  | .bin _ l r => decided l ∧ decided r
  | .and l r => value l = some 0 ∧ decided l ∧ decided r
  | .or l r => value l ≠ some 0 ∧ decided l ∧ decided r
  | .cond c l r => decided c ∧ (if value c = some 0 then decided r else decided l)

end Spec
end Verif.Fold
