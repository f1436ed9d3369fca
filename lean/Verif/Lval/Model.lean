import Verif.Tac

/-!
# What can be assigned to

Model of the flag `lvalue` of `struct var` through the functions of src/parser/eval.c and
src/parser/expression.c, and of the test of it in `eval_assign`.

Simplifications.  Arithmetic types are numbers with a qualifier, sizes, conversions and values of
constants are parameters.  Left out are string literals, functions and variable length arrays as
operands, `_Bool`, `void`, comparisons, `!`, `&&` and `||`, and conditional expressions with
null pointers or different types of pointers (the outcome `unmodelled`).  Code that is generated
is C72, C77, C88 and C90.
-/

namespace Verif.Lval

inductive Ty
  | num (k : Nat) (const : Bool)
  | ptr (t : Ty) (const : Bool)
  | arr (t : Ty)
  | rcd (n : Nat) (const : Bool)
  deriving DecidableEq, Repr

def Ty.isNum : Ty → Bool
  | .num _ _ => true
  | _ => false

def Ty.isPtr : Ty → Bool
  | .ptr _ _ => true
  | _ => false

structure Env where
  usual : Nat → Nat → Nat
  promote : Nat → Nat
  isInt : Nat → Bool
  size : Ty → Nat
  int : Nat
  /-- value of a constant of the first type in the second -/
  conv : Ty → Ty → Int → Int
  fold : Nat → Nat → Int → Int → Option Int
  /-- type and offset of a member; for bit-fields, whether unsigned with less than 32 bits -/
  member : Nat → Nat → Option (Ty × Int × Option Bool)

inductive E
  | obj (t : Ty)
  | num (k : Nat) (v : Int)
  | call (t : Ty)
  | deref (a : E)
  | addr (a : E)
  | index (a i : E)
  | member (a : E) (m : Nat)
  | arrow (a : E) (m : Nat)
  | plus (a : E)
  | neg (a : E)
  | add (a b : E)
  | sub (a b : E)
  /-- `*`, `/`, `%`, `&`, `^`, `|`, `<<`, `>>` -/
  | other (o : Nat) (a b : E)
  | cast (t : Ty) (a : E)
  | cond (c a b : E)
  | comma (a b : E)
  | assign (a b : E)
  | incr (a : E)
  | postIncr (a : E)
  deriving DecidableEq, Repr

inductive Kind
  | imm | dir | adr | der
  deriving DecidableEq, Repr

structure Sym where
  temp : Bool
  ty : Ty
  deriving DecidableEq, Repr

/-- include/lacc/ir.h:17-60, `struct var`; `val` is the value of immediates. -/
structure V where
  kind : Kind
  sym : Option Sym
  ty : Ty
  off : Int := 0
  val : Int := 0
  field : Option Bool := none
  lv : Bool := false
  deriving DecidableEq, Repr

/-- `struct expression`: a variable as it is, or an operation with a type. -/
inductive X
  | id (v : V)
  | op (t : Ty)
  deriving DecidableEq, Repr

inductive Stop
  | notLvalue
  /-- another error message -/
  | diagnosed
  /-- a failing assertion -/
  | crash
  | unmodelled
  deriving DecidableEq, Repr

abbrev R := Except Stop

/-- src/parser/eval.c:129-201, `var_numeric` and others -/
def imm (t : Ty) (v : Int) : V := { kind := .imm, sym := none, ty := t, val := v }

/-- src/parser/eval.c:104-127, `var_direct` -/
def direct (s : Sym) : V := { kind := .dir, sym := some s, ty := s.ty, lv := !s.temp }

/-- src/parser/eval.c:90-102, `create_var` -/
def create (t : Ty) : V := { direct ⟨true, t⟩ with lv := true }

/-- src/parser/eval.c:321-340, `eval` -/
def eval : X → V
  | .id v => v
  | .op t => { create t with lv := false }

/-- src/parser/eval.c:1341-1422, `eval_addr` -/
def addr (v : V) : R V :=
  if v.field.isSome then .error .diagnosed
  else
    match v.kind with
    | .imm => .error .diagnosed
    | .dir => if v.lv then .ok { v with kind := .adr, ty := .ptr v.ty false } else .error .diagnosed
    | .adr => if v.lv then .error .crash else .error .diagnosed
    | .der =>
      match v.sym with
      | none => .ok { v with
          kind := .imm, ty := .ptr v.ty false, val := v.val + v.off, off := 0, lv := false }
      | some s =>
        if v.off ≠ 0 then .ok (eval (.op (.ptr v.ty false)))
        else .ok { direct s with ty := .ptr v.ty false }

/-- src/parser/eval.c:1212-1243, `rvalue` -/
def rvalue (e : Env) (v : V) : R V :=
  match v.ty with
  | .arr t => addr { v with ty := t }
  | _ => if v.field = some true then .ok (eval (.op (.num e.int false))) else .ok v

/-- src/parser/eval.c:1424-1487, `eval_deref`; `eval_assign` to a new variable of the same
type is never refused. -/
def deref (e : Env) (v : V) : R V := do
  let v ← rvalue e v
  match v.ty with
  | .ptr t _ =>
    match v.kind with
    | .adr => .ok { v with kind := .dir, ty := t, lv := true }
    | .imm => .ok { v with kind := .der, ty := t, lv := true }
    | .der => .ok { eval (.op v.ty) with kind := .der, ty := t, lv := true }
    | .dir =>
      if v.off ≠ 0 ∨ ¬(v.sym.any (·.ty.isPtr)) then
        .ok { eval (.op v.ty) with kind := .der, ty := t, lv := true }
      else .ok { v with kind := .der, ty := t, lv := true }
  | _ => .error .diagnosed

/-- src/parser/eval.c:465-481, the end of `eval_cast`, and 417-440, `cast_operand`: what they
do with scalars. -/
def convert (e : Env) (v : V) (t : Ty) : X :=
  if v.ty = t then .id v
  else if v.kind = .imm then .id (imm t (e.conv v.ty t v.val))
  else if e.size v.ty = e.size t ∧ (v.ty.isPtr ∨ t.isPtr) then .id { v with ty := t }
  else .op t

def isFloating (e : Env) : Ty → Bool
  | .num k _ => !e.isInt k
  | _ => false

/-- src/parser/eval.c:442-482, `eval_cast` -/
def cast (e : Env) (v : V) (t : Ty) : R X := do
  let v ← rvalue e v
  if ¬(v.ty.isNum ∨ v.ty.isPtr) ∨ ¬(t.isNum ∨ t.isPtr) then .error .diagnosed
  else if v.ty.isPtr ∧ isFloating e t then .error .diagnosed
  else .ok (convert e v t)

/-- The sign of what is added to an offset or to a constant. -/
def signed (o : Nat) (d : Int) : Int := if o = 0 then d else -d

/-- src/parser/eval.c:631-720, `eval_add` (`o` is 0), and 732-828, `eval_sub` (`o` is 1) after
their operands are converted, without `integer + pointer`. -/
def addSub (e : Env) (o : Nat) (l r : V) : R X :=
  match l.ty, r.ty with
  | .num j _, .num k _ =>
    let t := Ty.num (e.usual j k) false
    let l := eval (convert e l t)
    let r := eval (convert e r t)
    if l.kind = .imm ∧ r.kind = .imm then
      .ok (match e.fold o (e.usual j k) l.val r.val with
        | some v => .id (imm t v)
        | none => .op t)
    else if l.kind = .adr ∧ r.kind = .imm then
      .ok (.id { l with off := l.off + signed o r.val })
    else if o = 0 ∧ l.kind = .imm ∧ r.kind = .adr then .ok (.id { r with off := r.off + l.val })
    else .ok (.op t)
  | .ptr t _, .num k _ =>
    let d := signed o (r.val * e.size t)
    if ¬ e.isInt k ∨ e.size t = 0 then .error .diagnosed
    else if r.kind = .imm ∧ l.kind = .adr then .ok (.id { l with off := l.off + d })
    else if r.kind = .imm ∧ l.kind = .imm then .ok (.id { l with val := l.val + d })
    else if r.kind = .imm ∧ r.val = 0 then .ok (.id l)
    else .ok (.op l.ty)
  | .ptr _ _, .ptr _ _ => if o = 1 then .ok (.op (.num e.int false)) else .error .diagnosed
  | _, _ => .error .diagnosed

/-- The exchange of operands, lines 644-648. -/
def add (e : Env) (l r : V) : R X := do
  let l ← rvalue e l
  let r ← rvalue e r
  if r.ty.isPtr ∧ l.ty.isNum ∧ ¬ isFloating e l.ty then addSub e 0 r l else addSub e 0 l r

def sub (e : Env) (l r : V) : R X := do
  let l ← rvalue e l
  let r ← rvalue e r
  addSub e 1 l r

/-- src/parser/eval.c:512-622 and 977-1123: `eval_mul`, `eval_div`, `eval_mod`, `eval_or`,
`eval_xor`, `eval_and`, `eval_lshift`, `eval_rshift`, with the type of the first operand
for shifts in `usual`. -/
def other (e : Env) (o : Nat) (l r : V) : R X :=
  match l.ty, r.ty with
  | .num j _, .num k _ =>
    let t := Ty.num (e.usual j k) false
    let l := eval (convert e l t)
    let r := eval (convert e r t)
    if l.kind = .imm ∧ r.kind = .imm then
      .ok (match e.fold o (e.usual j k) l.val r.val with
        | some v => .id (imm t v)
        | none => .op t)
    else .ok (.op t)
  | _, _ => .error .diagnosed

/-- src/parser/eval.c:1153-1182, `eval_neg`; floating constants change in place. -/
def neg (e : Env) (v : V) : R X :=
  match v.ty with
  | .num k c =>
    if e.isInt k then sub e (imm (.num e.int false) 0) v
    else if v.kind = .imm then .ok (.id { v with val := e.conv (.num k c) (.num k c) (-v.val) })
    else .ok (.op v.ty)
  | _ => .error .diagnosed

/-- src/parser/eval.c:1313-1339, `eval_unary_plus` -/
def plus (e : Env) (v : V) : R X :=
  match v.ty with
  | .num k _ =>
    let v := { v with lv := false }
    if ¬ e.isInt k ∨ v.ty = .num (e.promote k) false then .ok (.id v)
    else if v.kind = .imm then .ok (.id (imm (.num (e.promote k) false) v.val))
    else .ok (.op (.num (e.promote k) false))
  | _ => .error .diagnosed

/-- src/parser/expression.c:213-227 and 233-246 -/
def member (e : Env) (v : V) (m : Nat) : R V :=
  match v.ty with
  | .rcd n _ =>
    match e.member n m with
    | some (t, off, f) => .ok { v with ty := t, off := v.off + off, field := f }
    | none => .error .diagnosed
  | _ => .error .diagnosed

/-- Lines 1683-1686. -/
def prepared (e : Env) : X → R X
  | .id v => (rvalue e v).map X.id
  | .op t => .ok (.op t)

/-- src/parser/eval.c:1639-1710, `eval_prepare_assign`: the constant that is assigned, if
it is one. -/
def prepare (e : Env) (x : X) (t : Ty) : R (Option V) := do
  let x ← prepared e x
  match t, (eval x).ty with
  | .ptr _ _, .ptr _ _ | .num _ _, .num _ _ =>
    match x with
    | .id v => if v.kind = .imm then .ok (some (imm t (e.conv v.ty t v.val))) else .ok none
    | .op _ => .ok none
  | .ptr _ _, .num k _ =>
    if e.isInt k then
      match x with
      | .id v => if v.kind = .imm then .ok (some (imm t v.val)) else .ok none
      | .op _ => .ok none
    else .error .diagnosed
  | .rcd n _, .rcd m _ => if n = m then .ok none else .error .diagnosed
  | _, _ => .error .diagnosed

/-- src/parser/eval.c:1757-1785, `eval_assign`, with 1579-1632, `assign_field`.  Nothing that can
be assigned in the model is a string literal, which is all that is expected for arrays. -/
def assign (e : Env) (t : V) (x : X) : R V :=
  if ¬ t.lv then .error .notLvalue
  else if t.ty matches .arr _ then .error .crash
  else do
    match ← prepare e x t.ty with
    | some c => .ok c
    | none => .ok { t with lv := false }

/-- src/parser/eval.c:1827-1867, `eval_conditional_type` -/
def condType (e : Env) (l r : V) : R Ty :=
  match l.ty, r.ty with
  | .num j _, .num k _ => .ok (.num (e.usual j k) false)
  | .rcd n c, .rcd m d => if n = m ∧ c = d then .ok (.rcd n c) else .error .diagnosed
  | .ptr t c, .ptr u d => if Ty.ptr t c = .ptr u d then .ok (.ptr t c) else .error .unmodelled
  | .ptr _ _, .num _ _ | .num _ _, .ptr _ _ => .error .unmodelled
  | _, _ => .error .diagnosed

/-- src/parser/expression.c:839-912, `conditional_expression` -/
def cond (e : Env) (c a b : X) : R X := do
  let l ← rvalue e (eval a)
  let r ← rvalue e (eval b)
  match c with
  | .id c =>
    let t ← condType e l r
    if c.kind = .imm then cast e (eval (if c.val ≠ 0 then a else b)) t
    else .ok (.id (create t))
  | .op _ => do
    let t ← condType e l r
    .ok (.id (create t))

/-- The functions of src/parser/expression.c. -/
def value (e : Env) : E → R X
  | .obj t => .ok (.id (direct ⟨false, t⟩))
  | .num k v => .ok (.id (imm (.num k false) v))
  | .call t => .ok (.op t)
  | .deref a => do
    let a ← value e a
    .ok (.id (← deref e (eval a)))
  | .addr a => do
    let a ← value e a
    .ok (.id (← addr (eval a)))
  | .index a i => do
    let a ← value e a
    let i ← value e i
    let s ← add e (eval a) (eval i)
    .ok (.id (← deref e (eval s)))
  | .member a m => do
    let a ← value e a
    .ok (.id (← member e (eval a) m))
  | .arrow a m => do
    let a ← value e a
    let v ← deref e (eval a)
    .ok (.id (← member e v m))
  | .plus a => do
    let a ← value e a
    plus e (eval a)
  | .neg a => do
    let a ← value e a
    neg e (eval a)
  | .add a b => do
    let a ← value e a
    let b ← value e b
    add e (eval a) (eval b)
  | .sub a b => do
    let a ← value e a
    let b ← value e b
    sub e (eval a) (eval b)
  | .other o a b => do
    let a ← value e a
    let b ← value e b
    other e o (eval a) (eval b)
  | .cast t a => do
    let a ← value e a
    cast e (eval a) t
  | .cond c a b => do
    let c ← value e c
    let a ← value e a
    let b ← value e b
    cond e c a b
  | .comma a b => do
    let _ ← value e a
    value e b
  | .assign a b => do
    let a ← value e a
    let b ← value e b
    .ok (.id (← assign e (eval a) b))
  | .incr a => do
    let a ← value e a
    let s ← add e (eval a) (imm (.num e.int false) 1)
    .ok (.id (← assign e (eval a) s))
  | .postIncr a => do
    let a ← value e a
    let old ← rvalue e (eval a)
    let old ← assign e (create old.ty) (.id old)
    let s ← add e (eval a) (imm (.num e.int false) 1)
    let _ ← assign e (eval a) s
    .ok (.id old)

end Verif.Lval
