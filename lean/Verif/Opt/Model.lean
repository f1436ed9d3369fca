import Verif.Tac

/-!
# The optimiser

Model of `src/optimizer/liveness.c`, `src/optimizer/transform.c` and
`src/optimizer/optimize.c`, over the intermediate representation of
`include/lacc/ir.h`.

Simplifications.

* A symbol is identified with the position `count_symbol` gives it, so symbol
  `s` owns bit `s` of a liveness word (in C, bit `index - 1`).  `optimize` gives
  up when there are 64 symbols or more; the theorems require every symbol of the
  program to be below 64.
* Types are numbers.  `Env` says how big each is, whether it is or contains a
  pointer and whether it is a structure or union; `type_equal` is equality.
* `IR_VLA_ALLOC` and `IR_ASM` statements are left out.  `optimize` does nothing
  at all for functions with an `asm` statement.
* A block holds its own list of statements.  In C all blocks share one array and
  a block is a range of it; `Verif/Opt/Array.lean` models that array.
-/

namespace Verif.Opt

/-- include/lacc/ir.h:37-80, `enum kind` of `struct var`. -/
inductive Kind
  | direct
  | address
  | deref
  | immediate
  deriving DecidableEq, Repr

/-- include/lacc/ir.h:37-80, `struct var`.  `sym` is `none` when `is_symbol` is
clear; `imm` is then the numeric value. -/
structure Var where
  kind : Kind
  sym : Option Nat
  ty : Nat
  off : Nat
  fieldWidth : Nat
  fieldOffset : Nat
  imm : Nat
  deriving DecidableEq, Repr

/-- include/lacc/ir.h:85-118, `enum optype`.  The operators with two operands
are numbered; they are all treated alike by the optimiser. -/
inductive Op
  | cast
  | call
  | vaArg
  | not
  | neg
  | binary (n : Nat)
  deriving DecidableEq, Repr

/-- include/lacc/ir.h, `struct expression`. -/
structure Expr where
  op : Op
  ty : Nat
  l : Var
  r : Var
  deriving DecidableEq, Repr

/-- include/lacc/ir.h:126-133, `enum sttype`. -/
inductive St
  | expr
  | param
  | vaStart
  | assign
  deriving DecidableEq, Repr

abbrev Live := BitVec 64

/-- include/lacc/ir.h, `struct statement`; `out` is the set of symbols live after
the statement. -/
structure Stmt where
  st : St
  t : Var
  expr : Expr
  out : Live
  deriving DecidableEq, Repr

/-- The facts about a symbol that the optimiser, or the semantics, asks for. -/
structure SymInfo where
  /-- `is_object (sym->type)` -/
  object : Bool
  /-- `is_scalar (sym->type)` -/
  scalar : Bool
  /-- `sym->linkage == LINK_NONE` -/
  automatic : Bool
  /-- the type is volatile qualified; never looked at by the optimiser -/
  volatile : Bool
  ty : Nat
  deriving DecidableEq, Repr

structure Env where
  sym : Nat → SymInfo
  size : Nat → Nat
  /-- src/optimizer/liveness.c:82-101, `is_or_has_pointer`. -/
  hasPtr : Nat → Bool
  /-- `is_struct_or_union` -/
  aggregate : Nat → Bool

/-- include/lacc/ir.h:121, `has_side_effects`. -/
def Expr.hasSideEffects (e : Expr) : Bool :=
  e.op == .call || e.op == .vaArg

/-- include/lacc/ir.h:122, `is_identity`. -/
def Expr.isIdentity (e : Expr) : Bool :=
  e.op == .cast && e.ty == e.l.ty

/-- `is_field`: include/lacc/ir.h. -/
def Var.isField (v : Var) : Bool := v.fieldWidth != 0

def bit (s : Nat) : Live := 1#64 <<< s

/-- src/optimizer/liveness.c:20-31, `set_def_bit`. -/
def setDefBit (E : Env) (v : Var) : Live :=
  match v.kind, v.sym with
  | .direct, some s => if (E.sym s).scalar then bit s else 0
  | _, _ => 0

/-- src/optimizer/liveness.c:38-61, `set_use_bit`. -/
def setUseBit (E : Env) (v : Var) : Live :=
  match v.kind, v.sym with
  | .deref, _ => BitVec.allOnes 64
  | .direct, some s | .address, some s => if (E.sym s).object then bit s else 0
  | .immediate, some s => bit s
  | _, none => 0

/-- src/optimizer/liveness.c:63-80, `use`: the operators with one operand look at
`l` only. -/
def use (E : Env) (e : Expr) : Live :=
  match e.op with
  | .binary _ => setUseBit E e.r ||| setUseBit E e.l
  | _ => setUseBit E e.l

/-- src/optimizer/liveness.c:107-131, `uses`. -/
def uses (E : Env) (s : Stmt) : Live :=
  match s.st with
  | .assign =>
    if s.t.kind = .deref ∧ s.t.sym.isSome then
      use E s.expr ||| setUseBit E { s.t with kind := .direct }
    else use E s.expr
  | .param => if E.hasPtr s.expr.ty then BitVec.allOnes 64 else use E s.expr
  | _ => use E s.expr

/-- src/optimizer/liveness.c:133-143, `defs`. -/
def defs (E : Env) (s : Stmt) : Live :=
  match s.st with
  | .assign => setDefBit E s.t
  | _ => 0

/-- `(next->out & ~defs (next)) | uses (next)`: src/optimizer/liveness.c:179 and
183. -/
def inOf (E : Env) (s : Stmt) (out : Live) : Live :=
  (out &&& ~~~ defs E s) ||| uses E s

/-- The backward pass over the statements of one block: src/optimizer/liveness.c
:165-190.  Writes `out` of every statement and returns what is live before the
first. -/
def annotate (E : Env) : List Stmt → Live → List Stmt × Live
  | [], o => ([], o)
  | s :: r, o =>
    let p := annotate E r o
    ({ s with out := p.2 } :: p.1, inOf E s p.2)

/-- include/lacc/ir.h:184-215, `struct block`. -/
structure Block where
  code : List Stmt
  expr : Expr
  j0 : Option Nat
  j1 : Option Nat
  hasReturnValue : Bool
  inn : Live
  out : Live

/-- A function body: blocks by number, `def->body` being block 0. -/
abbrev Prog := Nat → Block

/-- src/optimizer/liveness.c:155-163: what is live after the block, given what is
live on entry to each block. -/
def succLive (b : Block) (inn : Nat → Live) : Live :=
  match b.j0 with
  | none => 0
  | some x =>
    match b.j1 with
    | none => inn x
    | some y => inn x ||| inn y

/-- src/optimizer/liveness.c:170-172 and 187: a branch or a return reads the
expression of the block. -/
def endLive (E : Env) (b : Block) (o : Live) : Live :=
  if b.j1.isSome ∨ b.hasReturnValue then o ||| use E b.expr else o

/-- src/optimizer/liveness.c:145-193, `live_variable_analysis` on block `n`; the
flag says whether `in` changed. -/
def liveVariableAnalysis (E : Env) (P : Prog) (n : Nat) : Prog × Bool :=
  let b := P n
  let o := succLive b (fun k => (P k).inn)
  let r := annotate E b.code (endLive E b o)
  (fun k => if k = n then { b with code := r.1, inn := r.2, out := o } else P k,
   r.2 != b.inn)

/-- src/optimizer/optimize.c:178-191, `traverse`. -/
def traverse {α : Type} (f : Prog → α → Prog × Nat) : List α → Prog → Prog × Nat
  | [], P => (P, 0)
  | n :: ns, P =>
    let q := f P n
    let r := traverse f ns q.1
    (r.1, q.2 + r.2)

def liveVisit (E : Env) (P : Prog) (n : Nat) : Prog × Nat :=
  let r := liveVariableAnalysis E P n
  (r.1, if r.2 then 1 else 0)

/-- src/optimizer/optimize.c:197-206, `execute_iterative_dataflow`, giving up
after `fuel` rounds. -/
def dataflow (E : Env) (bl : List Nat) : Nat → Prog → Option Prog
  | 0, _ => none
  | fuel + 1, P =>
    let r := traverse (liveVisit E) bl P
    if r.2 = 0 then some r.1 else dataflow E bl fuel r.1

/-- src/optimizer/optimize.c:248-256, `is_live_after`, at an optimisation level
above zero. -/
def isLiveAfter (E : Env) (s : Nat) (st : Stmt) : Bool :=
  if (E.sym s).object then (st.out &&& bit s) != 0 else true

/-- src/optimizer/transform.c:11-20, `var_equal`. -/
def varEqual (a b : Var) : Bool :=
  a.ty == b.ty && a.sym == b.sym && a.kind == b.kind
    && a.fieldWidth == b.fieldWidth && a.fieldOffset == b.fieldOffset
    && a.off == b.off

/-- src/optimizer/transform.c:34-48, `can_merge`. -/
def canMerge (E : Env) (s1 s2 : Stmt) : Bool :=
  s1.st == .assign && s2.st == .assign && s2.expr.isIdentity
    && varEqual s1.t s2.expr.l && s1.t.ty == s2.t.ty && s1.t.kind == .direct
    && match s1.t.sym with
       | none => false
       | some s => (E.sym s).automatic && !s1.t.isField && !isLiveAfter E s s2

/-- src/optimizer/transform.c:73-101, `merge_chained_assignment`, on the
statements of one block.  The merged statement keeps the `out` of the first. -/
def merge (E : Env) : List Stmt → List Stmt × Nat
  | [] => ([], 0)
  | [s] => ([s], 0)
  | s1 :: s2 :: r =>
    if canMerge E s1 s2 then
      let q := merge E ({ s1 with t := s2.t } :: r)
      (q.1, q.2 + 1)
    else
      let q := merge E (s2 :: r)
      (s1 :: q.1, q.2)
termination_by l => l.length

/-- The test in src/optimizer/transform.c:113-116. -/
def deadStore (E : Env) (s : Stmt) : Bool :=
  s.st == .assign && s.t.kind == .direct
    && match s.t.sym with
       | none => false
       | some y => !isLiveAfter E y s && (E.sym y).automatic

/-- src/optimizer/transform.c:103-128, `dead_store_elimination`, on the
statements of one block. -/
def dse (E : Env) : List Stmt → List Stmt × Nat
  | [] => ([], 0)
  | s :: r =>
    let q := dse E r
    if deadStore E s then
      if s.expr.hasSideEffects then ({ s with st := .expr } :: q.1, q.2 + 1)
      else (q.1, q.2 + 1)
    else (s :: q.1, q.2)

def onCode (f : List Stmt → List Stmt × Nat) (P : Prog) (n : Nat) : Prog × Nat :=
  let r := f (P n).code
  (fun k => if k = n then { P n with code := r.1 } else P k, r.2)

/-- src/optimizer/optimize.c:284-291: one trip round the loop of `optimize`. -/
def optRound (E : Env) (bl : List Nat) (fuel : Nat) (P : Prog) : Option (Prog × Nat) :=
  match dataflow E bl fuel P with
  | none => none
  | some Q =>
    let a := traverse (onCode (dse E)) bl Q
    let b := traverse (onCode (merge E)) bl a.1
    some (b.1, a.2 + b.2)

/-- src/optimizer/optimize.c:283-291, the loop of `optimize`. -/
def optLoop (E : Env) (bl : List Nat) (fuel : Nat) : Nat → Prog → Option Prog
  | 0, _ => none
  | k + 1, P =>
    match optRound E bl fuel P with
    | none => none
    | some (Q, n) => if n = 0 then some Q else optLoop E bl fuel k Q

/-- src/optimizer/optimize.c:48-63, `initialize_dataflow`. -/
def initDataflow (P : Prog) : Prog :=
  fun n => { P n with
    inn := 0, out := 0, code := (P n).code.map (fun s => { s with out := 0 }) }

/-- src/optimizer/optimize.c:157-172, the inner loop of `skip_empty_blocks`:
where an edge to block `x` is redirected to.  `none` when it is still going round
after `fuel` steps. -/
def skipTo (P : Prog) : Nat → Nat → Option Nat
  | 0, _ => none
  | fuel + 1, x =>
    if (P x).code = [] ∧ (P x).j1 = none then
      match (P x).j0 with
      | some y => skipTo P fuel y
      | none => some x
    else some x

def setJ0 (P : Prog) (n x : Nat) : Prog := fun k =>
  if k = n then { P n with j0 := some x } else P k

def setJ1 (P : Prog) (n x : Nat) : Prog := fun k =>
  if k = n then { P n with j1 := some x } else P k

/-- src/optimizer/optimize.c:157-172, `skip_empty_blocks` on block `n`. -/
def skipEmpty (P : Prog) (fuel n : Nat) : Option Prog :=
  match (P n).j0 with
  | none => some P
  | some x =>
    match skipTo P fuel x with
    | none => none
    | some x' =>
      match (P n).j1 with
      | none => some (setJ0 P n x')
      | some y =>
        match skipTo (setJ0 P n x') fuel y with
        | none => none
        | some y' => some (setJ1 (setJ0 P n x') n y')

def skipAll (fuel : Nat) : List Nat → Prog → Option Prog
  | [], P => some P
  | n :: ns, P =>
    match skipEmpty P fuel n with
    | none => none
    | some Q => skipAll fuel ns Q

/-- src/optimizer/optimize.c:30-45, `serialize_basic_blocks`: depth first,
collecting the blocks met.  The depth of recursion is bounded by the number of
blocks. -/
def serialize (P : Prog) : Nat → Nat → List Nat → List Nat
  | 0, _, seen => seen
  | fuel + 1, n, seen =>
    if n ∈ seen then seen
    else
      let s1 := seen ++ [n]
      match (P n).j0 with
      | none => s1
      | some x =>
        let s2 := serialize P fuel x s1
        match (P n).j1 with
        | none => s2
        | some y => serialize P fuel y s2

/-- src/optimizer/optimize.c:263-300, `optimize`, for a function of at most
`blocks` blocks whose symbols have been numbered. -/
def optimize (E : Env) (blocks fuel : Nat) (P : Prog) : Option Prog :=
  let bl := serialize P (blocks + 1) 0 []
  match skipAll fuel bl P with
  | none => none
  | some Q => optLoop E bl fuel fuel (initDataflow Q)

end Verif.Opt
