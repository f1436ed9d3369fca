import Verif.IfExpr.Model
/-!
# Specification: `#if` expressions (C99 6.6, 6.10.1)

Syntax trees, the C grammar with its precedences and left associativity, and the value over
unbounded integers with `intmax_t` = 64-bit signed, `uintmax_t` = 64-bit unsigned.
Only the token type is shared with the model.
-/
namespace Verif.IfExpr.Spec
open Verif.IfExpr (PTok BinOp)
open Verif.Lex (IntTy)

inductive UnOp where
  | plus | minus | compl | not
  deriving DecidableEq

inductive E where
  | num (ty : IntTy) (v : BitVec 64)
  | word
  | paren (e : E)
  | un (op : UnOp) (e : E)
  | bin (op : BinOp) (l r : E)
  | cond (a b c : E)

/-- Precedence level of a binary operator; a smaller level binds tighter. -/
def lvl : BinOp → Nat
  | .mul | .div | .mod => 2
  | .add | .sub => 3
  | .shl | .shr => 4
  | .lt | .gt | .le | .ge => 5
  | .eq | .ne => 6
  | .and => 7
  | .xor => 8
  | .or => 9
  | .land => 10
  | .lor => 11

def unTok : UnOp → PTok
  | .plus => .bin .add
  | .minus => .bin .sub
  | .compl => .tilde
  | .not => .bang

/-- `Gram k ts e`: the tokens `ts` form the expression `e` of grammar level `k`: 0 primary,
1 unary, 2 multiplicative … 11 logical-OR, 12 conditional.  Binary operators are left
associative. -/
inductive Gram : Nat → List PTok → E → Prop
  | num {ty v} : Gram 0 [.num ty v] (.num ty v)
  | word : Gram 0 [.word] .word
  | paren {ts e} : Gram 12 ts e → Gram 0 (.lpar :: ts ++ [.rpar]) (.paren e)
  | un {op ts e} : Gram 1 ts e → Gram 1 (unTok op :: ts) (.un op e)
  | up {k ts e} : k < 12 → Gram k ts e → Gram (k + 1) ts e
  | bin {op k ts1 ts2 e1 e2} : lvl op = k + 1 → Gram (k + 1) ts1 e1 → Gram k ts2 e2 →
      Gram (k + 1) (ts1 ++ .bin op :: ts2) (.bin op e1 e2)
  | cond {ts1 ts2 ts3 a b c} : Gram 11 ts1 a → Gram 12 ts2 b → Gram 12 ts3 c →
      Gram 12 (ts1 ++ .quest :: (ts2 ++ .colon :: ts3)) (.cond a b c)

/-- Is the type of the expression `intmax_t` (as opposed to `uintmax_t`)? -/
def signed : E → Bool
  | .num ty _ => ty = .int ∨ ty = .long
  | .word => true
  | .paren e => signed e
  | .un .not _ => true
  | .un _ e => signed e
  | .bin op l r =>
    match op with
    | .mul | .div | .mod | .add | .sub | .and | .xor | .or => signed l && signed r
    | .shl | .shr => signed l
    | _ => true
  | .cond _ b c => signed b && signed c

/-- A computed value brought into the type: overflow of the signed type is undefined. -/
def fit (s : Bool) (x : Int) : Option Int :=
  if s then (if -2 ^ 63 ≤ x ∧ x < 2 ^ 63 then some x else none) else some (x % 2 ^ 64)

/-- Conversion of an operand to the common type. -/
def conv (s : Bool) (x : Int) : Int := if s then x else x % 2 ^ 64

def b2i (b : Bool) : Int := if b then 1 else 0

/-- Bit of a (two's complement) integer. -/
def bitOf (x : Int) (i : Nat) : Bool := (x / 2 ^ i) % 2 = 1

/-- `z` is the value of a 64-bit integer (of signedness `s`) with bits `f`. -/
def fromBits (s : Bool) (f : Nat → Bool) : Int :=
  let u := (List.range 64).foldl (fun a i => a + (if f i then 2 ^ i else 0)) (0 : Int)
  if s && f 63 then u - 2 ^ 64 else u

/-- Value of a binary operator applied to values `x`, `y` of operands with signedness `sx`, `sy`;
`&&` and `||` are in `eval`.  Right shift of negative values is arithmetic (implementation-defined
in C, the choice of x86-64 compilers). -/
def binVal (op : BinOp) (sx : Bool) (x : Int) (sy : Bool) (y : Int) : Option Int :=
  let s := sx && sy
  let cx := conv s x
  let cy := conv s y
  match op with
  | .mul => fit s (cx * cy)
  | .add => fit s (cx + cy)
  | .sub => fit s (cx - cy)
  | .div => if cy = 0 then none else fit s (cx.tdiv cy)
  | .mod => if cy = 0 then none else (fit s (cx.tdiv cy)).map (fun _ => cx.tmod cy)
  | .shl => if y < 0 ∨ y ≥ 64 ∨ (sx ∧ x < 0) then none else fit sx (x * 2 ^ y.toNat)
  | .shr => if y < 0 ∨ y ≥ 64 then none else some (x / 2 ^ y.toNat)
  | .lt => some (b2i (cx < cy))
  | .gt => some (b2i (cx > cy))
  | .le => some (b2i (cx ≤ cy))
  | .ge => some (b2i (cx ≥ cy))
  | .eq => some (b2i (cx = cy))
  | .ne => some (b2i (cx ≠ cy))
  | .and => some (fromBits s (fun i => bitOf cx i && bitOf cy i))
  | .xor => some (fromBits s (fun i => bitOf cx i != bitOf cy i))
  | .or => some (fromBits s (fun i => bitOf cx i || bitOf cy i))
  | .land | .lor => none

def unVal (op : UnOp) (s : Bool) (x : Int) : Option Int :=
  match op with
  | .plus => some x
  | .minus => fit s (-x)
  | .compl => fit s (-x - 1)
  | .not => some (b2i (x = 0))

/-- The value C gives; `none` when C does not define it (division by zero, signed overflow,
shift count out of range) in an operand that is evaluated. -/
def eval : E → Option Int
  | .num ty v => some (if ty = .int ∨ ty = .long then v.toInt else v.toNat)
  | .word => some 0
  | .paren e => eval e
  | .un op e => (eval e).bind (unVal op (signed e))
  | .bin .land l r => (eval l).bind fun x =>
      if x = 0 then some 0 else (eval r).map fun y => b2i (y ≠ 0)
  | .bin .lor l r => (eval l).bind fun x =>
      if x ≠ 0 then some 1 else (eval r).map fun y => b2i (y ≠ 0)
  | .bin op l r => (eval l).bind fun x => (eval r).bind fun y =>
      binVal op (signed l) x (signed r) y
  | .cond a b c => (eval a).bind fun x =>
      (if x ≠ 0 then eval b else eval c).map (conv (signed b && signed c))

/-- Is the outermost operator `==` or `!=`? -/
def isEquality : E → Bool
  | .bin .eq _ _ | .bin .ne _ _ => true
  | _ => false

/-- Is the outermost operator `|`? -/
def isOr : E → Bool
  | .bin .or _ _ => true
  | _ => false

/-- The fragment on which the evaluator is right: every operand has a defined value, also those C
does not evaluate; `==`, `!=` and `|` are not chained without parentheses; `!` is applied to signed
operands; a signed operand is shifted by a signed count. -/
def Plain : E → Prop
  | .num _ _ => True
  | .word => True
  | .paren e => Plain e
  | .un op e => Plain e ∧ (eval (.un op e)).isSome ∧ (op = .not → signed e = true)
  | .bin op l r => Plain l ∧ Plain r ∧ (eval (.bin op l r)).isSome ∧
      ((op = .shl ∨ op = .shr) → signed l = true → signed r = true) ∧
      ((op = .eq ∨ op = .ne) → isEquality l = false) ∧ (op = .or → isOr l = false)
  | .cond a b c => Plain a ∧ Plain b ∧ Plain c

end Verif.IfExpr.Spec
