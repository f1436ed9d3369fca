import Verif.Expr.Model

/-!
# Pointers, arrays and members

How src/parser/expression.c and src/parser/eval.c make statements with two operands of
expressions which access objects: `*`, `&`, `[]`, `.`, `->`, arithmetic with pointers,
comparisons and casts of them.  Types are void, integers, pointers, arrays of known length,
structures and unions, without qualifiers.  Bit-fields, arrays of variable length, functions,
calls, floating point, and operators that branch are not here.

Operators of integers are as in `Expr/Model.lean`.
-/

namespace Verif.Ptr

open Verif.Types.Spec (Basic)
open Verif.Types (Ty)
open Verif.Fold (tyOf Imm)
open Verif.Expr (IVar IExp)

/-- `Type`; a structure or union is known by a number. -/
inductive CTy
  | void
  | int (b : Basic)
  | ptr (t : CTy)
  | arr (n : Nat) (t : CTy)
  | record (k : Nat)
  deriving DecidableEq, Repr

/-- A structure or union: its size, and name, type and offset of members, typetree.c:618-870 (C16, C18). -/
structure Rec where
  size : Nat
  members : List (Nat × CTy × Nat)

/-- The declarations: types of variables, and structures. -/
structure Decls where
  var : Nat → CTy
  recs : Nat → Rec

/-- `size_of`, typetree.c:1146-1193. -/
def CTy.size (D : Decls) : CTy → Nat
  | .void => 0
  | .int b => Types.scalarSize (tyOf b {})
  | .ptr _ => 8
  | .arr n t => n * t.size D
  | .record k => (D.recs k).size

def CTy.isPtr : CTy → Bool
  | .ptr _ => true
  | _ => false

def CTy.isInt : CTy → Bool
  | .int _ => true
  | _ => false

/-- A symbol: a variable, or a temporary with the type it was created with. -/
inductive Sym
  | var (i : Nat)
  | tmp (k : Nat) (t : CTy)
  deriving DecidableEq, Repr

def Sym.ty (D : Decls) : Sym → CTy
  | .var i => D.var i
  | .tmp _ t => t

/-- `struct var`, ir.h:19-82: `IMMEDIATE`, `DIRECT`, `ADDRESS`, and `DEREF` of a symbol or of a constant.  Offsets are
`size_t`.  `lvalue` is left out; it is set for `DIRECT` unless the symbol is a temporary, and for `DEREF`.  (Also for some
expressions that are not lvalues, like `p + 0`, so programs are accepted that should not be.) -/
inductive PVar
  | imm (t : CTy) (v : BitVec 64)
  | dir (s : Sym) (off : BitVec 64) (t : CTy)
  | adr (s : Sym) (off : BitVec 64) (t : CTy)
  | der (s : Sym) (off : BitVec 64) (t : CTy)
  | derImm (v : BitVec 64) (off : BitVec 64) (t : CTy)
  deriving DecidableEq, Repr

def PVar.ty : PVar → CTy
  | .imm t _ | .dir _ _ t | .adr _ _ t | .der _ _ t | .derImm _ _ t => t

/-- `var.type = t`. -/
def PVar.retype (t : CTy) : PVar → PVar
  | .imm _ v => .imm t v
  | .dir s o _ => .dir s o t
  | .adr s o _ => .adr s o t
  | .der s o _ => .der s o t
  | .derImm v o _ => .derImm v o t

/-- `struct expression`, ir.h:95-119. -/
inductive PExp
  | cast (t : CTy) (v : PVar)
  | not (t : CTy) (v : PVar)
  | bin (op : Fold.Op) (t : CTy) (l r : PVar)
  deriving DecidableEq, Repr

def PExp.ty : PExp → CTy
  | .cast t _ | .not t _ | .bin _ t _ _ => t

/-- A statement `IR_ASSIGN`. -/
structure PStmt where
  t : PVar
  e : PExp
  deriving DecidableEq, Repr

/-- As `Expr.R`. -/
def R (α : Type) := Nat → Option (α × Nat × List PStmt)

def R.pure {α : Type} (a : α) : R α := fun n => some (a, n, [])

def R.bind {α β : Type} (f : R α) (g : α → R β) : R β := fun n =>
  match f n with
  | none => none
  | some (a, n', st) =>
    match g a n' with
    | none => none
    | some (b, n'', st') => some (b, n'', st ++ st')

def R.fail {α : Type} : R α := fun _ => none

def R.lift {α : Type} : Option α → R α
  | none => R.fail
  | some a => R.pure a

instance : Monad R where
  pure := R.pure
  bind := R.bind

/-! ## Operators of integers -/

/-- The operand of an operator of integers, for `Expr/Model.lean`, which needs to know only whether it is a constant. -/
def abs (i : Nat) : PVar → IVar
  | .imm (.int b) v => .imm ⟨tyOf b {}, v⟩
  | .dir _ _ (.int b) | .adr _ _ (.int b) | .der _ _ (.int b) | .derImm _ _ (.int b) => .obj i (tyOf b {})
  | _ => .obj i { kind := .void }

/-- Types of `Expr/Model.lean`. -/
def ofTy (t : Ty) : CTy :=
  match [Basic.bool, .char, .uchar, .short, .ushort, .int, .uint, .long, .ulong].find? fun b => tyOf b {} = t with
  | some b => .int b
  | none => .void

/-- And back: operands 0 and 1 are `l` and `r`. -/
def concVar (l r : PVar) : IVar → PVar
  | .imm i => .imm (ofTy i.ty) i.v
  | .obj 0 _ => l
  | .obj _ _ => r
  | .tmp k t => .dir (.tmp k (ofTy t)) 0 (ofTy t)

def concExp (l r : PVar) : IExp → PExp
  | .cast t v => .cast (ofTy t) (concVar l r v)
  | .not t v => .not (ofTy t) (concVar l r v)
  | .bin op t a b => .bin op (ofTy t) (concVar l r a) (concVar l r b)

def concStmt (l r : PVar) (s : Expr.Stmt) : PStmt := ⟨concVar l r s.t, concExp l r s.e⟩

/-- What `Expr/Model.lean` does with two operands. -/
def under (l r : PVar) (f : IVar → IVar → Expr.R IExp) : R PExp := fun n =>
  match f (abs 0 l) (abs 1 r) n with
  | none => none
  | some (e, n', st) => some (concExp l r e, n', st.map (concStmt l r))

/-- `eval_mul` 512 and so on. -/
def evalInt (op : Fold.Op) (l r : PVar) : R PExp := under l r (Expr.evalBinary op)

/-! ## src/parser/eval.c -/

/-- `as_expr`, lines 201-212. -/
def asExpr (v : PVar) : PExp := .cast v.ty v

/-- `ir_assign`, lines 255-267. -/
def irAssign (t : PVar) (e : PExp) : R Unit := fun n => some ((), n, [⟨t, e⟩])

/-- `create_var`, lines 90-102, which asserts that the type is not void. -/
def createVar (t : CTy) : R PVar := fun n => if t = .void then none else some (.dir (.tmp n t) 0 t, n + 1, [])

/-- `is_identity`, ir.h:121. -/
def identity : PExp → Option PVar
  | .cast t v => if v.ty = t then some v else none
  | _ => none

/-- `eval`, lines 320-338. -/
def eval (e : PExp) : R PVar :=
  match identity e with
  | some v => pure v
  | none => do
    let t ← createVar e.ty
    irAssign t e
    pure t

/-- `convert`, lines 348-414: a pointer is like `unsigned long`, when converted (lines 354-358), and when it is the result (line
407). -/
def convert (v : BitVec 64) (t s : CTy) : Option (BitVec 64) :=
  match s, t with
  | .int b, .int a => (Fold.castOperand ⟨tyOf a {}, v⟩ (tyOf b {})).map (·.v)
  | .int b, .ptr _ => (Fold.castOperand ⟨tyOf .ulong {}, v⟩ (tyOf b {})).map (·.v)
  | .ptr _, .int _ | .ptr _, .ptr _ => some v
  | _, _ => none

/-- Lines 431-436 and 472-477. -/
def samePtr (D : Decls) (t s : CTy) : Bool := t.size D == s.size D && (t.isPtr || s.isPtr)

/-- `cast_operand`, lines 416-439. -/
def castOperand (D : Decls) (v : PVar) (t : CTy) : R PVar :=
  if v.ty = t then pure v
  else match v with
    | .imm s x => R.lift ((convert x s t).map (.imm t))
    | v => if samePtr D v.ty t then pure (v.retype t) else eval (.cast t v)

/-- `var_int`, lines 128-135. -/
def varInt (n : Int) : PVar := .imm (.int .int) (BitVec.ofInt 64 n)

def isImm : PVar → Bool
  | .imm _ _ => true
  | _ => false

/-- The type `long`, and `unsigned long`. -/
def long : CTy := .int .long
def ulong : CTy := .int .ulong

/-- The usual conversions leave the type of an address as it is, and this is the constant then. -/
def balancedImm (t t' : CTy) (x : BitVec 64) : Option (BitVec 64) :=
  match t, t' with
  | .int a, .int b => if Types.usualConversion (tyOf a {}) (tyOf b {}) = .ok (tyOf a {}) then convert x t' t else none
  | _, _ => none

/-- `eval_add`, lines 650-681, of integers: an address and a constant are an address.  If the type of the address is not that of
the result, then it is converted first, and is a temporary. -/
def addInt (l r : PVar) : R PExp :=
  match l, r with
  | .adr s o t, .imm t' x =>
    match balancedImm t t' x with
    | some x => pure (asExpr (.adr s (o + x) t))
    | none => evalInt .add l r
  | .imm t' x, .adr s o t =>
    match balancedImm t t' x with
    | some x => pure (asExpr (.adr s (o + x) t))
    | none => evalInt .add l r
  | l, r => evalInt .add l r

/-- `eval_mul` of the size of what is pointed to, lines 704-708 and 794-798. -/
def scale (size : PVar) (r : PVar) : R PVar := do
  let e ← evalInt .mul size r
  eval e

def scaleAdd (D : Decls) (t : CTy) (r : PVar) : R PVar :=
  if t.size D = 1 then pure r else scale (.imm long (BitVec.ofNat 64 (t.size D))) r

def scaleSub (D : Decls) (t : CTy) (r : PVar) : R PVar :=
  if t.size D ≤ 1 then pure r else scale (.imm ulong (BitVec.ofNat 64 (t.size D))) r

/-- `eval_add`, lines 682-722, of a pointer and an integer, not of variable length: `r` has been converted to `long`. -/
def addPtr (D : Decls) (l r : PVar) (t : CTy) : R PExp :=
  let size := BitVec.ofNat 64 (t.size D)
  if t.size D = 0 then R.fail
  else match l, r with
    | .adr s o u, .imm _ x => pure (asExpr (.adr s (o + x * size) u))
    | .imm u v, .imm _ x => pure (asExpr (.imm u (v + x * size)))
    | l, r =>
      if r = .imm long 0 then pure (asExpr l)
      else do
        let u := l.ty
        let l ← castOperand D l long
        let r ← scaleAdd D t r
        pure (.bin .add u l r)

/-- `eval_add`, lines 631-723, when `rvalue` has been applied. -/
def addScalar (D : Decls) (l r : PVar) : R PExp :=
  match l.ty, r.ty with
  | .int _, .int _ => addInt l r
  | .ptr t, .int _ => do
    let r ← castOperand D r long
    addPtr D l r t
  | .int _, .ptr t => do
    let l ← castOperand D l long
    addPtr D r l t
  | _, _ => R.fail

/-- `eval_addr`, lines 1341-1422.  Where it calls `eval_add`, there is nothing to do for `rvalue`; the pointer, which is the
symbol, is cast to `char *`. -/
def evalAddr (D : Decls) (v : PVar) : R PVar :=
  match v with
  | .imm _ _ => R.fail
  | .dir (.var i) o t => pure (.adr (.var i) o (.ptr t))
  | .dir (.tmp _ _) _ _ => R.fail
  | .adr _ _ _ => R.fail
  | .derImm x o t => pure (.imm (.ptr t) (x + o))
  | .der s o t =>
    if o = 0 then pure (.dir s 0 (.ptr t))
    else do
      let p ← castOperand D (.dir s 0 (s.ty D)) (.ptr (.int .char))
      let e ← addScalar D p (.imm (.int .int) ((o.setWidth 32).signExtend 64))
      let p ← eval e
      pure (p.retype (.ptr t))

/-- `rvalue`, lines 1212-1243. -/
def rvalue (D : Decls) (v : PVar) : R PVar :=
  match v.ty with
  | .arr _ t => evalAddr D (v.retype t)
  | _ => pure v

/-- `eval_add`, lines 631-723. -/
def evalAdd (D : Decls) (l r : PVar) : R PExp := do
  let l ← rvalue D l
  let r ← rvalue D r
  addScalar D l r

/-- `eval_sub`, lines 746-772, of integers. -/
def subInt (l r : PVar) : R PExp :=
  match l, r with
  | .adr s o t, .imm t' x =>
    match balancedImm t t' x with
    | some x => pure (asExpr (.adr s (o - x) t))
    | none => evalInt .sub l r
  | l, r => evalInt .sub l r

/-- `eval_sub`, lines 773-803, of a pointer and an integer; `is_nullptr` is eval.c:75-81. -/
def subPtr (D : Decls) (l r : PVar) (t : CTy) : R PExp :=
  let size := BitVec.ofNat 64 (t.size D)
  if t.size D = 0 then R.fail
  else match l, r with
    | .adr s o u, .imm _ x => pure (asExpr (.adr s (o - x * size) u))
    | .imm u v, .imm _ x => pure (asExpr (.imm u (v - x * size)))
    | l, r =>
      if r = .imm long 0 then pure (asExpr l)
      else do
        let r ← scaleSub D t r
        pure (.bin .sub l.ty l r)

/-- `eval_sub`, lines 804-821, of two pointers. -/
def subPtrs (D : Decls) (l r : PVar) (t s : CTy) : R PExp := do
  let l ← castOperand D l long
  let r ← castOperand D r long
  let e ← subInt l r
  if 1 < s.size D then do
    let v ← eval e
    evalInt .div v (.imm long (BitVec.ofNat 64 (s.size D)))
  else if s.size D = 0 ∨ t.size D ≠ s.size D then R.fail
  else pure e

/-- `eval_sub`, lines 732-827. -/
def evalSub (D : Decls) (l r : PVar) : R PExp := do
  let l ← rvalue D l
  let r ← rvalue D r
  match l.ty, r.ty with
  | .int _, .int _ => subInt l r
  | .ptr t, .int _ => do
    let r ← castOperand D r long
    subPtr D l r t
  | .ptr t, .ptr s => subPtrs D l r t s
  | _, _ => R.fail

/-- `eval_cmp_eq` 883, `eval_cmp_ne` 900, with `prepare_comparison_operands` 829-872. -/
def evalEq (D : Decls) (op : Fold.Op) (l r : PVar) : R PExp := do
  let l ← rvalue D l
  let r ← rvalue D r
  match l.ty, r.ty with
  | .int _, .int _ => evalInt op l r
  | .ptr _, .ptr _ | .ptr _, .int _ => do
    let l ← castOperand D l ulong
    let r ← castOperand D r ulong
    evalInt op l r
  | .int _, .ptr _ => do
    let r ← castOperand D r ulong
    let l ← castOperand D l ulong
    evalInt op l r
  | _, _ => R.fail

/-- `eval_cmp_ge` 933, `eval_cmp_gt` 955; pointers must be to compatible types. -/
def evalGt (D : Decls) (op : Fold.Op) (l r : PVar) : R PExp := do
  let l ← rvalue D l
  let r ← rvalue D r
  match l.ty, r.ty with
  | .int _, .int _ => evalInt op l r
  | .ptr t, .ptr s =>
    if t = s then do
      let l ← castOperand D l ulong
      let r ← castOperand D r ulong
      evalInt op l r
    else R.fail
  | _, _ => R.fail

def isScalar (t : CTy) : Bool := t.isPtr || t.isInt

/-- `eval_cast`, lines 441-480, except to void. -/
def evalCast (D : Decls) (v : PVar) (t : CTy) : R PExp := do
  let v ← rvalue D v
  if ¬ (isScalar v.ty ∧ isScalar t) then R.fail
  else if v.ty = t then pure (asExpr v)
  else match v with
    | .imm s x => R.lift ((convert x s t).map fun x => asExpr (.imm t x))
    | v => if samePtr D v.ty t then pure (asExpr (v.retype t)) else pure (.cast t v)

/-- `eval_assign` to a new temporary, lines 1757-1785: nothing is converted. -/
def copyPtr (v : PVar) : R PVar := do
  let t ← createVar v.ty
  irAssign t (asExpr v)
  pure t

/-- `eval_deref`, lines 1424-1490. -/
def evalDeref (D : Decls) (v : PVar) : R PVar := do
  let v ← rvalue D v
  match v.ty with
  | .ptr t =>
    match v with
    | .der _ _ _ | .derImm _ _ _ => do
      let v ← copyPtr v
      match v with
      | .dir s _ _ => pure (.der s 0 t)
      | _ => R.fail
    | .dir s o _ =>
      if o ≠ 0 ∨ (s.ty D).isPtr = false then do
        let v ← copyPtr v
        match v with
        | .dir s _ _ => pure (.der s 0 t)
        | _ => R.fail
      else pure (.der s 0 t)
    | .adr s o _ => pure (.dir s o t)
    | .imm _ x => pure (.derImm x 0 t)
  | _ => R.fail

/-- `find_type_member`, typetree.c:1233. -/
def findMember (D : Decls) (t : CTy) (m : Nat) : Option (CTy × Nat) :=
  match t with
  | .record k => ((D.recs k).members.find? fun x => x.1 = m).map (·.2)
  | _ => none

/-- expression.c:213-231 and 237-247: `value.type = mbr->type; value.offset += mbr->offset`. -/
def PVar.member (t : CTy) (off : Nat) : PVar → PVar
  | .imm _ v => .imm t v
  | .dir s o _ => .dir s (o + BitVec.ofNat 64 off) t
  | .adr s o _ => .adr s (o + BitVec.ofNat 64 off) t
  | .der s o _ => .der s (o + BitVec.ofNat 64 off) t
  | .derImm v o _ => .derImm v (o + BitVec.ofNat 64 off) t

/-! ## src/parser/expression.c -/

/-- Expressions of the source. -/
inductive E
  | num (b : Basic) (n : Int)
  | var (i : Nat)
  | deref (e : E)
  | addr (e : E)
  | index (a b : E)
  | dot (e : E) (m : Nat)
  | arrow (e : E) (m : Nat)
  | cast (t : CTy) (e : E)
  | lnot (e : E)
  | bin (op : Arith.Op) (a b : E)
  | rel (op : Compare.Rel) (a b : E)
  deriving DecidableEq, Repr

/-- Lines 520-608 and 683-729. -/
def evalBin (D : Decls) (op : Arith.Op) (l r : PVar) : R PExp :=
  match op with
  | .add => evalAdd D l r
  | .sub => evalSub D l r
  | op => evalInt (Expr.foldOp op) l r

/-- Lines 610-681. -/
def evalRel (D : Decls) (op : Compare.Rel) (l r : PVar) : R PExp :=
  match op with
  | .lt => evalGt D .gt r l
  | .gt => evalGt D .gt l r
  | .le => evalGt D .ge r l
  | .ge => evalGt D .ge l r
  | .eq => evalEq D .eq l r
  | .ne => evalEq D .ne l r

/-- `!`, lines 330-355. -/
def evalNegation (D : Decls) (e : PExp) : R PExp :=
  match e with
  | .bin .eq t l r => pure (.bin .ne t l r)
  | .bin .ne t l r => pure (.bin .eq t l r)
  | .bin .ge t l r => pure (.bin .gt t r l)
  | .bin .gt t l r => pure (.bin .ge t r l)
  | _ => do
    let v ← eval e
    evalEq D .eq (varInt 0) v

/-- Lines 133-255 and 306-725 after parsing. -/
def lower (D : Decls) : E → R PExp
  | .num b n => pure (asExpr (.imm (.int b) (BitVec.ofInt 64 n)))
  | .var i => pure (asExpr (.dir (.var i) 0 (D.var i)))
  | .deref e => do
    let e ← lower D e
    let v ← eval e
    let v ← evalDeref D v
    pure (asExpr v)
  | .addr e => do
    let e ← lower D e
    let v ← eval e
    let v ← evalAddr D v
    pure (asExpr v)
  | .index a b => do
    let a ← lower D a
    let a ← eval a
    let b ← lower D b
    let b ← eval b
    let e ← evalAdd D a b
    let v ← eval e
    let v ← evalDeref D v
    pure (asExpr v)
  | .dot e m => do
    let e ← lower D e
    let (t, off) ← R.lift (findMember D e.ty m)
    let v ← eval e
    pure (asExpr (v.member t off))
  | .arrow e m => do
    let e ← lower D e
    let v ← eval e
    let v ← evalDeref D v
    let (t, off) ← R.lift (findMember D v.ty m)
    pure (asExpr (v.member t off))
  | .cast t e => do
    let e ← lower D e
    let v ← eval e
    evalCast D v t
  | .lnot e => do
    let e ← lower D e
    evalNegation D e
  | .bin op a b => do
    let a ← lower D a
    let a ← eval a
    let b ← lower D b
    let b ← eval b
    evalBin D op a b
  | .rel op a b => do
    let a ← lower D a
    let a ← eval a
    let b ← lower D b
    let b ← eval b
    evalRel D op a b

/-! ## Assignment -/

/-- `eval_prepare_assign_bool`, eval.c:1549-1571. -/
def prepareBool (D : Decls) (e : PExp) : R PExp :=
  if e.ty = .int .bool then pure e
  else do
    let v ← eval e
    let c ← evalEq D .ne (varInt 0) v
    match identity c with
    | some v => evalCast D v (.int .bool)
    | none =>
      match c with
      | .bin op _ l r => pure (.bin op (.int .bool) l r)
      | _ => R.fail

/-- `eval_prepare_assign_pointer`, eval.c:1638-1673. -/
def preparePtr (e : PExp) (t : CTy) : R PExp :=
  if isScalar e.ty then
    match identity e with
    | some v => pure (.cast t (v.retype t))
    | none =>
      match e with
      | .cast _ v => pure (.cast t v)
      | .not _ v => pure (.not t v)
      | .bin op _ l r => pure (.bin op t l r)
  else R.fail

/-- `eval_rvalue`, lines 1245-1255. -/
def rvalueExp (D : Decls) (e : PExp) : R PExp :=
  match identity e with
  | some v => do
    let v ← rvalue D v
    pure (asExpr v)
  | none => pure e

/-- `eval_prepare_assign`, eval.c:1675-1710.  Structures must be the same. -/
def prepareAssign (D : Decls) (e : PExp) (t : CTy) : R PExp := do
  let e ← rvalueExp D e
  match t with
  | .int .bool => prepareBool D e
  | .ptr _ => preparePtr e t
  | .int _ =>
    if e.ty.isInt then
      match identity e with
      | some (.imm s x) => do
        let v ← castOperand D (.imm s x) t
        pure (asExpr v)
      | _ =>
        if e.ty = t then pure e
        else do
          let v ← eval e
          evalCast D v t
    else R.fail
  | .record _ => if e.ty = t then pure e else R.fail
  | _ => R.fail

/-- `eval_assign`, eval.c:1757-1785: the target is an lvalue. -/
def evalAssign (D : Decls) (x : PVar) (e : PExp) : R Unit :=
  match x with
  | .dir (.var _) _ _ | .der _ _ _ | .derImm _ _ _ => do
    let e ← prepareAssign D e x.ty
    irAssign x e
  | _ => R.fail

/-- `eval_copy`, eval.c:1787-1800, of a scalar. -/
def evalCopy (v : PVar) : R Unit := do
  let t ← createVar v.ty
  irAssign t (asExpr v)

/-- `l = e;`, `l op= e;`, `++l;` or `--l;`, `l++;` or `l--;`. -/
inductive Stm
  | assign (l e : E)
  | update (op : Arith.Op) (l e : E)
  | pre (up : Bool) (l : E)
  | post (up : Bool) (l : E)
  deriving DecidableEq, Repr

def upDown (D : Decls) (up : Bool) (v : PVar) : R PExp := if up then evalAdd D v (varInt 1) else evalSub D v (varInt 1)

/-- expression.c:911-984, 431-446 and 228-245. -/
def lowerStm (D : Decls) : Stm → R Unit
  | .assign l e => do
    let l ← lower D l
    let x ← eval l
    let e ← lower D e
    evalAssign D x e
  | .update op l e => do
    let l ← lower D l
    let x ← eval l
    let e ← lower D e
    let v ← eval e
    let e ← evalBin D op x v
    evalAssign D x e
  | .pre up l => do
    let l ← lower D l
    let x ← eval l
    let e ← upDown D up x
    evalAssign D x e
  | .post up l => do
    let l ← lower D l
    let x ← eval l
    evalCopy x
    let e ← upDown D up x
    evalAssign D x e

def lowerAll (D : Decls) : List Stm → R Unit
  | [] => pure ()
  | s :: r => do
    lowerStm D s
    lowerAll D r

end Verif.Ptr
