import Verif.Lex.Number
/-!
# Model: evaluation of `#if` expressions

The recursive descent evaluator of src/preprocessor/directive.c:118-553.  Values are 64-bit words
with a signedness flag (`long` or `unsigned long`, the only types that occur after
`preprocess_primary`).  Host undefined behaviour (signed overflow, `LONG_MIN / -1`, shift counts
outside 0..63, left shift of negative values) is the outcome `ub`.
-/
namespace Verif.IfExpr
open Verif.Lex (IntTy)

/-- Binary operators. -/
inductive BinOp where
  | mul | div | mod | add | sub | shl | shr | lt | gt | le | ge | eq | ne | and | xor | or | land | lor
  deriving DecidableEq, Repr

/-- Tokens of an expanded `#if` line.  A number carries the type and value given by
`convert_preprocessing_number` or `convert_preprocessing_char`, the value extended to 64 bits
according to its type (so that `convert` to `long` or `unsigned long` in directive.c:158-168 does
not change it).  `star` etc. are `bin`; `+` and `-` are `bin add`, `bin sub` also when used as
prefix.  `word` is any identifier or keyword (`is_expandable`), `bad` any other token, including
the final NEWLINE, floating constants and strings. -/
inductive PTok where
  | num (ty : IntTy) (v : BitVec 64)
  | word
  | bin (op : BinOp)
  | tilde | bang
  | lpar | rpar | quest | colon | comma
  | bad
  deriving DecidableEq, Repr

/-- `struct number`, directive.c:52-55. -/
structure Num where
  signed : Bool
  v : BitVec 64
  deriving DecidableEq, Repr

/-- Outcome of an evaluation function: a value and the remaining tokens, a diagnostic with
`exit(1)`, undefined behaviour of the host, or (not a behaviour of the program) missing fuel. -/
inductive Res where
  | ok (n : Num) (rest : List PTok)
  | err
  | ub
  | fuel
  deriving DecidableEq, Repr

def Res.bind : Res → (Num → List PTok → Res) → Res
  | .ok n r, f => f n r
  | .err, _ => .err
  | .ub, _ => .ub
  | .fuel, _ => .fuel

abbrev P := List PTok → Res

/-- `preprocess_primary`, directive.c:118-171. -/
def primary (expr : P) : P
  | .num ty v :: ts => .ok ⟨decide (ty = .int ∨ ty = .long), v⟩ ts
  | .lpar :: ts => (expr ts).bind fun n ts' =>
      match ts' with
      | .rpar :: ts'' => .ok n ts''
      | _ => .err
  | .word :: ts => .ok ⟨true, 0⟩ ts
  | _ => .err

/-- Result of a signed operation whose exact value is `x`. -/
def signedResult (x : Int) (rest : List PTok) : Res :=
  if -2 ^ 63 ≤ x ∧ x < 2 ^ 63 then .ok ⟨true, BitVec.ofInt 64 x⟩ rest else .ub

/-- `preprocess_unary`, directive.c:173-213. -/
def unary (expr : P) : P
  | .bin .add :: ts => unary expr ts
  | .bin .sub :: ts => (unary expr ts).bind fun n ts =>
      if n.signed then signedResult (- n.v.toInt) ts else .ok ⟨false, - n.v⟩ ts
  | .tilde :: ts => (unary expr ts).bind fun n ts => .ok ⟨n.signed, ~~~ n.v⟩ ts
  | .bang :: ts => (unary expr ts).bind fun n ts => .ok ⟨n.signed, if n.v = 0 then 1 else 0⟩ ts
  | ts => primary expr ts

/-- `both_signed`, directive.c:215-231: conversion of `long` to `unsigned long` keeps the bits. -/
def bothSigned (l r : Num) : Bool := l.signed && r.signed

/-- 0 or 1 of type `long`. -/
def truth (b : Bool) : Num := ⟨true, if b then 1 else 0⟩

/-- The arithmetic in directive.c:242-268, 287-300, 319-332, 350-375, 395-412, 424-428, 444-448,
464-468, 484-487, 501-504.  The divisor is tested for zero before the conversion. -/
def binop (op : BinOp) (l r : Num) (rest : List PTok) : Res :=
  let s := bothSigned l r
  match op with
  | .mul => if s then signedResult (l.v.toInt * r.v.toInt) rest else .ok ⟨false, l.v * r.v⟩ rest
  | .div =>
    if r.v = 0 then .err
    else if s then signedResult (l.v.toInt.tdiv r.v.toInt) rest
    else .ok ⟨false, l.v / r.v⟩ rest
  | .mod =>
    if r.v = 0 then .err
    else if s then
      (if l.v.toInt = -2 ^ 63 ∧ r.v.toInt = -1 then .ub
       else .ok ⟨true, BitVec.ofInt 64 (l.v.toInt.tmod r.v.toInt)⟩ rest)
    else .ok ⟨false, l.v % r.v⟩ rest
  | .add => if s then signedResult (l.v.toInt + r.v.toInt) rest else .ok ⟨false, l.v + r.v⟩ rest
  | .sub => if s then signedResult (l.v.toInt - r.v.toInt) rest else .ok ⟨false, l.v - r.v⟩ rest
  | .shl =>
    if s then
      (if r.v.toInt < 0 ∨ r.v.toInt ≥ 64 ∨ l.v.toInt < 0 then .ub
       else signedResult (l.v.toInt * 2 ^ r.v.toNat) rest)
    else if r.v.toNat ≥ 64 then .ub else .ok ⟨false, l.v <<< r.v.toNat⟩ rest
  | .shr =>
    if s then
      (if r.v.toInt < 0 ∨ r.v.toInt ≥ 64 then .ub else .ok ⟨true, l.v.sshiftRight r.v.toNat⟩ rest)
    else if r.v.toNat ≥ 64 then .ub else .ok ⟨false, l.v >>> r.v.toNat⟩ rest
  | .lt => .ok (truth (if s then l.v.slt r.v else l.v.ult r.v)) rest
  | .gt => .ok (truth (if s then r.v.slt l.v else r.v.ult l.v)) rest
  | .le => .ok (truth (if s then l.v.sle r.v else l.v.ule r.v)) rest
  | .ge => .ok (truth (if s then r.v.sle l.v else r.v.ule l.v)) rest
  | .eq => .ok (truth (l.v = r.v)) rest
  | .ne => .ok (truth (l.v ≠ r.v)) rest
  | .and => .ok ⟨s, l.v &&& r.v⟩ rest
  | .xor => .ok ⟨s, l.v ^^^ r.v⟩ rest
  | .or => .ok ⟨s, l.v ||| r.v⟩ rest
  | .land => .ok (truth (l.v ≠ 0 && r.v ≠ 0)) rest
  | .lor => .ok (truth (l.v ≠ 0 || r.v ≠ 0)) rest

/-- The `while (1) { switch (list->token) … }` loops of the left associative functions.  The fuel
is the number of tokens; every round consumes one. -/
def loop (sub : P) (ops : List BinOp) : Nat → Num → List PTok → Res
  | 0, _, _ => .fuel
  | k + 1, l, ts =>
    match ts with
    | .bin op :: ts' =>
      if op ∈ ops then
        (sub ts').bind fun r ts'' => (binop op l r ts'').bind fun l' ts'' => loop sub ops k l' ts''
      else .ok l ts
    | _ => .ok l ts

/-- A function of the form `l = sub(); while (1) …`. -/
def leftAssoc (sub : P) (ops : List BinOp) : P := fun ts =>
  (sub ts).bind fun l ts' => loop sub ops (ts'.length + 1) l ts'

/-- What a right recursive function does after its first operand. -/
def tailR (self : P) (ops : List BinOp) (l : Num) (ts : List PTok) : Res :=
  match ts with
  | .bin op :: ts' =>
    if op ∈ ops then (self ts').bind fun r ts'' => binop op l r ts'' else .ok l ts
  | _ => .ok l ts

/-- A function of the form `l = sub(); if (op) { r = self(); … }`. -/
def rightRec (sub : P) (ops : List BinOp) : Nat → P
  | 0, _ => .fuel
  | k + 1, ts => (sub ts).bind fun l ts' => tailR (rightRec sub ops k) ops l ts'

/-- `preprocess_multiplicative`, directive.c:233-277. -/
def multiplicative (expr : P) : P := leftAssoc (unary expr) [.mul, .div, .mod]
/-- `preprocess_additive`, directive.c:279-309. -/
def additive (expr : P) : P := leftAssoc (multiplicative expr) [.add, .sub]
/-- `preprocess_shift`, directive.c:311-341. -/
def shift (expr : P) : P := leftAssoc (additive expr) [.shl, .shr]
/-- `preprocess_relational`, directive.c:343-385. -/
def relational (expr : P) : P := leftAssoc (shift expr) [.lt, .gt, .le, .ge]
/-- `preprocess_equality`, directive.c:387-415. -/
def equality (expr : P) : P := fun ts => rightRec (relational expr) [.eq, .ne] (ts.length + 1) ts
/-- `preprocess_and`, directive.c:417-435. -/
def bitAnd (expr : P) : P := fun ts => rightRec (equality expr) [.and] (ts.length + 1) ts
/-- `preprocess_exclusive_or`, directive.c:437-455. -/
def bitXor (expr : P) : P := fun ts => rightRec (bitAnd expr) [.xor] (ts.length + 1) ts
/-- `preprocess_inclusive_or`, directive.c:457-475: the right operand is an exclusive-or. -/
def bitOr (expr : P) : P := fun ts =>
  (bitXor expr ts).bind fun l ts' => tailR (bitXor expr) [.or] l ts'
/-- `preprocess_logical_and`, directive.c:477-492. -/
def logicalAnd (expr : P) : P := fun ts => rightRec (bitOr expr) [.land] (ts.length + 1) ts
/-- `preprocess_logical_or`, directive.c:494-509. -/
def logicalOr (expr : P) : P := fun ts => rightRec (logicalAnd expr) [.lor] (ts.length + 1) ts

/-- `preprocess_conditional`, directive.c:511-533. -/
def conditional (expr : P) : Nat → P
  | 0, _ => .fuel
  | k + 1, ts => (logicalOr expr ts).bind fun a ts' =>
    match ts' with
    | .quest :: ts1 => (expr ts1).bind fun b ts2 =>
      match ts2 with
      | .colon :: ts3 => (conditional expr k ts3).bind fun c ts4 =>
        .ok ⟨bothSigned b c, if a.v ≠ 0 then b.v else c.v⟩ ts4
      | _ => .err
    | _ => .ok a ts'

/-- `preprocess_expression`, directive.c:535-547; `cond` is `preprocess_conditional`. -/
def commaLoop (cond : P) : Nat → P
  | 0, _ => .fuel
  | k + 1, ts => (cond ts).bind fun n ts' =>
    match ts' with
    | .comma :: ts'' => commaLoop cond k ts''
    | _ => .ok n ts'

/-- `preprocess_expression` with parentheses nested at most `n` deep. -/
def expression : Nat → P
  | 0, _ => .fuel
  | n + 1, ts => commaLoop (fun t => conditional (expression n) (t.length + 1) t) (ts.length + 1) ts

/-- `preprocess_constant_expression`, directive.c:549-554. -/
def constantExpression (ts : List PTok) : Res :=
  conditional (expression ts.length) (ts.length + 1) ts

/-- Outcome of a `#if` line. -/
inductive Verdict where
  | taken | skipped | diagnosed | undefined | unknown
  deriving DecidableEq, Repr

/-- The `IF` case of `preprocess_directive`, directive.c:735-738: the tokens after the expression
are not looked at. -/
def evalIf (ts : List PTok) : Verdict :=
  match constantExpression ts with
  | .ok n _ => if n.v ≠ 0 then .taken else .skipped
  | .err => .diagnosed
  | .ub => .undefined
  | .fuel => .unknown

end Verif.IfExpr
