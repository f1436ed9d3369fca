import Verif.Opt.Model
import Verif.Bytes

/-!
# What the intermediate code means

The optimiser is judged against this semantics, which knows nothing of liveness.

Memory is a set of numbered objects, each a sequence of bytes.  The numbers of
the symbols are objects; other numbers stand for the objects of the rest of the
program and for the outside world, none of which is automatic.  What the
operators compute, what a called function does, how a pointer is decoded and how
a bit-field is packed are parameters (`Sem`): the theorems hold for every choice.

Bytes outside the extent of an object read as zero.  C leaves accessing them
undefined.
-/

namespace Verif.Opt

open Verif (Bytes)

abbrev Mem := Nat → Nat → UInt8

def Env.ext (E : Env) (o : Nat) : Nat := E.size (E.sym o).ty

/-- The two memories have the same contents in the objects `A`. -/
def Same (E : Env) (A : Nat → Prop) (m m' : Mem) : Prop :=
  ∀ o i, A o → i < E.ext o → m o i = m' o i

/-- The meaning of operators, calls and pointers. -/
structure Sem (E : Env) where
  /-- the object and offset designated by a pointer value plus an offset -/
  decode : Bytes → Nat → Nat × Nat
  /-- the pointer to an object (or the value of a literal) -/
  addr : Nat → Nat → Bytes
  /-- a constant of a type -/
  const : Nat → Nat → Bytes
  op : Op → Nat → Bytes → Bytes → Bytes
  /-- width, offset and unit of a bit-field to its value -/
  fieldGet : Nat → Nat → Bytes → Bytes
  /-- width, offset, old unit and new value of a bit-field to the new unit -/
  fieldPut : Nat → Nat → Bytes → Bytes → Bytes
  /-- callee, arguments with their types, memory -/
  call : Bytes → List (Nat × Bytes) → Mem → Mem × Bytes
  /-- a callee sees nothing but the contents of objects -/
  call_ext : ∀ f as m m', Same E (fun _ => True) m m' →
    (call f as m).2 = (call f as m').2
      ∧ Same E (fun _ => True) (call f as m).1 (call f as m').1
  /-- type and `va_list` to the argument and the advanced list -/
  vaArg : Nat → Bytes → Bytes × Bytes
  vaStart : Bytes
  truth : Bytes → Bool

/-- `n` bytes from offset `a` of object `o`. -/
def read (E : Env) (m : Mem) (o a n : Nat) : Bytes :=
  (List.range n).map fun i => if a + i < E.ext o then m o (a + i) else 0

def write (m : Mem) (o a : Nat) (v : Bytes) : Mem := fun o' i =>
  if o' = o ∧ a ≤ i ∧ i < a + v.length then v.getD (i - a) 0 else m o' i

/-- The first `n` bytes of a value. -/
def clip (n : Nat) (v : Bytes) : Bytes := (List.range n).map fun i => v.getD i 0

/-- The object and offset an l-value designates. -/
def place {E : Env} (S : Sem E) (m : Mem) (v : Var) : Option (Nat × Nat) :=
  match v.kind, v.sym with
  | .direct, some s => if (E.sym s).object then some (s, v.off) else none
  | .deref, some s => some (S.decode (read E m s 0 8) v.off)
  | .deref, none => some (S.decode (S.const v.imm v.ty) v.off)
  | _, _ => none

/-- The value of an operand. -/
def value {E : Env} (S : Sem E) (m : Mem) (v : Var) : Bytes :=
  match place S m v with
  | some (o, a) =>
    let raw := read E m o a (E.size v.ty)
    if v.isField then S.fieldGet v.fieldWidth v.fieldOffset raw else raw
  | none =>
    match v.sym with
    | some s => S.addr s v.off
    | none => S.const v.imm v.ty

/-- Assign to an l-value. -/
def store {E : Env} (S : Sem E) (m : Mem) (v : Var) (x : Bytes) : Mem :=
  match place S m v with
  | some (o, a) =>
    let n := E.size v.ty
    write m o a
      (if v.isField then
        clip n (S.fieldPut v.fieldWidth v.fieldOffset (read E m o a n) (clip n x))
       else clip n x)
  | none => m

/-- Memory, and the arguments set aside for the next call. -/
structure State where
  mem : Mem
  args : List (Nat × Bytes)

/-- Evaluate an expression. -/
def evalE {E : Env} (S : Sem E) (e : Expr) (x : State) : State × Bytes :=
  match e.op with
  | .call =>
    let r := S.call (value S x.mem e.l) x.args x.mem
    (⟨r.1, []⟩, r.2)
  | .vaArg =>
    let r := S.vaArg e.ty (value S x.mem e.l)
    (⟨store S x.mem e.l r.2, x.args⟩, r.1)
  | .binary n => (x, S.op (.binary n) e.ty (value S x.mem e.l) (value S x.mem e.r))
  | o =>
    if e.isIdentity then (x, value S x.mem e.l)
    else (x, S.op o e.ty (value S x.mem e.l) [])

/-- Execute a statement.  The target of an assignment is determined after the
expression has been evaluated. -/
def exec {E : Env} (S : Sem E) (s : Stmt) (x : State) : State :=
  match s.st with
  | .expr => (evalE S s.expr x).1
  | .param =>
    let r := evalE S s.expr x
    ⟨r.1.mem, r.1.args ++ [(s.expr.ty, r.2)]⟩
  | .vaStart => ⟨store S x.mem s.expr.l S.vaStart, x.args⟩
  | .assign =>
    let r := evalE S s.expr x
    ⟨store S r.1.mem s.t r.2, r.1.args⟩

def execs {E : Env} (S : Sem E) (l : List Stmt) (x : State) : State :=
  l.foldl (fun x s => exec S s x) x

inductive Next
  | goto (n : Nat) (x : State)
  | done (v : Option Bytes) (m : Mem)

/-- How control leaves a block after its statements. -/
def leave {E : Env} (S : Sem E) (b : Block) (x : State) : Next :=
  match b.j0 with
  | none =>
    if b.hasReturnValue then
      let r := evalE S b.expr x
      .done (some r.2) r.1.mem
    else .done none x.mem
  | some a =>
    match b.j1 with
    | none => .goto a x
    | some c =>
      let r := evalE S b.expr x
      .goto (if S.truth r.2 then c else a) r.1

def stepBlock {E : Env} (S : Sem E) (P : Prog) (n : Nat) (x : State) : Next :=
  leave S (P n) (execs S (P n).code x)

/-- Run `k` blocks. -/
def run {E : Env} (S : Sem E) (P : Prog) : Nat → Nat → State → Next
  | 0, n, x => .goto n x
  | k + 1, n, x =>
    match stepBlock S P n x with
    | .goto n' x' => run S P k n' x'
    | .done v m => .done v m

/-- What can be observed: objects that are not automatic variables. -/
def Outside (E : Env) (o : Nat) : Prop := (E.sym o).automatic = false

/-- The function called in block 0 with memory `m` returns `v`, leaving memory
`m'`. -/
def Returns {E : Env} (S : Sem E) (P : Prog) (m : Mem) (v : Option Bytes) (m' : Mem) :
    Prop :=
  ∃ k, run S P k 0 ⟨m, []⟩ = .done v m'

/-- The two bodies behave alike: one returns exactly when the other does, with the
same value and the same contents of everything that outlives the call. -/
def Equiv {E : Env} (S : Sem E) (P Q : Prog) : Prop :=
  ∀ m v,
    (∀ m', Returns S P m v m' → ∃ m'', Returns S Q m v m'' ∧ Same E (Outside E) m' m'')
    ∧ (∀ m', Returns S Q m v m' → ∃ m'', Returns S P m v m'' ∧ Same E (Outside E) m' m'')

/-! ## Preconditions -/

/-- Automatic variables are numbered below 64 and are objects. -/
def EnvOk (E : Env) : Prop :=
  ∀ o, (E.sym o).automatic = true → o < 64 ∧ (E.sym o).object = true

/-- A callee that is not handed a pointer neither reads nor writes automatic
variables of the caller: no address of one has escaped. -/
def Confined {E : Env} (S : Sem E) : Prop :=
  ∀ f as m m', (∀ a ∈ as, E.hasPtr a.1 = false) → Same E (Outside E) m m' →
    (S.call f as m).2 = (S.call f as m').2
      ∧ Same E (Outside E) (S.call f as m).1 (S.call f as m').1
      ∧ Same E (fun o => (E.sym o).automatic = true) (S.call f as m).1 m

/-- An assignment to a scalar variable by name writes the whole of it. -/
def WholeStore (E : Env) (s : Stmt) : Prop :=
  ∀ y, s.st = .assign → s.t.kind = .direct → s.t.sym = some y →
    (E.sym y).scalar = true →
    s.t.off = 0 ∧ s.t.isField = false ∧ s.t.ty = (E.sym y).ty

/-- An assignment through a pointer variable does not store an object of the type
of the pointer itself. -/
def NoSelfPointer (E : Env) (s : Stmt) : Prop :=
  ∀ y, s.st = .assign → s.t.kind = .deref → s.t.sym = some y →
    (E.sym y).scalar = true ∧ s.t.ty ≠ (E.sym y).ty

/-- An assignment to part of a named object stays within it. -/
def InBounds (E : Env) (s : Stmt) : Prop :=
  ∀ y, s.st = .assign → s.t.kind = .direct → s.t.sym = some y →
    s.t.off + E.size s.t.ty ≤ E.ext y

def StmtOk (E : Env) (s : Stmt) : Prop :=
  WholeStore E s ∧ NoSelfPointer E s ∧ InBounds E s

/-- Arguments are set aside immediately before the call they are for, and are
plain operands.  `pending` says whether some have been. -/
def ParamsOk : Bool → List Stmt → Expr → Prop
  | pending, [], e => pending = true → e.op = .call
  | pending, s :: r, e =>
    if s.st = .param then s.expr.hasSideEffects = false ∧ ParamsOk true r e
    else (pending = true → (s.st = .assign ∨ s.st = .expr) ∧ s.expr.op = .call)
      ∧ ParamsOk false r e

/-- Control leaves the block by a branch or by returning a value. -/
def Block.evaluates (b : Block) : Prop :=
  (b.j0 = none ∧ b.hasReturnValue = true) ∨ (b.j0.isSome ∧ b.j1.isSome)

/-- A block that does not evaluate its expression ends with no argument set
aside. -/
def BlockOk (E : Env) (b : Block) : Prop :=
  (∀ s ∈ b.code, StmtOk E s)
    ∧ ParamsOk false b.code b.expr
    ∧ (¬ b.evaluates →
        ∀ e : Expr, e.op ≠ .call → ParamsOk false b.code e)

def ProgOk (E : Env) (P : Prog) : Prop := ∀ n, BlockOk E (P n)

/-- Control cannot leave the listed blocks. -/
def Closed (P : Prog) (bl : List Nat) : Prop :=
  ∀ n ∈ bl, (∀ a, (P n).j0 = some a → a ∈ bl) ∧ (∀ a, (P n).j1 = some a → a ∈ bl)

/-- Every edge leads to one of `N` blocks, and a block with a second successor has
a first. -/
structure GraphOk (P : Prog) (N : Nat) : Prop where
  pos : 0 < N
  lt : ∀ n a, (P n).j0 = some a ∨ (P n).j1 = some a → a < N
  both : ∀ n, (P n).j1.isSome → (P n).j0.isSome

/-- No cycle consists of blocks that do nothing at all: along edges out of such
blocks some number below `N` decreases. -/
def NoEmptyCycle (P : Prog) (N : Nat) : Prop :=
  ∃ rank : Nat → Nat, (∀ n, rank n < N) ∧
    ∀ n y, (P n).code = [] → (P n).j1 = none → (P n).j0 = some y → rank y < rank n

/-- Two states that may differ in the automatic variables outside `L`. -/
def AlikeOn (E : Env) (L : Live) (x x' : State) : Prop :=
  x.args = [] ∧ x'.args = [] ∧
    ∀ o i, i < E.ext o → ((E.sym o).automatic = true → L.getLsbD o = true) →
      x.mem o i = x'.mem o i

/-- Both are still running, in the same block, or both have returned the same
value leaving the same contents in everything that outlives the call. -/
def SameOutcome (E : Env) : Next → Next → Prop
  | .goto n _, .goto n' _ => n = n'
  | .done v m, .done v' m' => v = v' ∧ Same E (Outside E) m m'
  | _, _ => False

/-- Execute the remaining statements `l` of block `n`, leave it, and run `k`
further blocks. -/
def resume {E : Env} (S : Sem E) (P : Prog) (k n : Nat) (l : List Stmt) (x : State) : Next :=
  match leave S (P n) (execs S l x) with
  | .goto n' x' => run S P k n' x'
  | .done v m => .done v m

end Verif.Opt
