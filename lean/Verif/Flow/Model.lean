import Verif.Expr.Model
import Verif.Linear.Model

/-!
# Whole functions: control flow over integer expressions

The graph of `Verif/Cfg/Model.lean`, where what does not branch is an expression or an assignment of `Verif/Expr/Model.lean`,
and the code that src/backend/x86_64/compile.c makes of it.

What is simplified: the tree says of every part that does not branch which numbers its temporaries have (`base`) and whether
the parser calls `eval` for it (`ev`, as for an operand of `!`, `?:` or `switch`); both follow from the place where it is, and
are checked where the meaning depends on them.  Temporaries of `&&`, `||` and `?:` have types `tt`.  What would need
conversions between blocks is `none`: operands of `!`, `switch` and of the constant cases of `&&` and `||` of a type narrower
than `int`, and operands of `?:` of different types.
-/

namespace Verif.Flow

open Verif.Abi (AX)
open Verif.Arith (AIns)
open Verif.Types (Ty scalarSize)
open Verif.Types.Spec (Basic)
open Verif.Fold (tyOf isSigned)
open Verif.Compare (CC Jump branches truthBranches)
open Verif.Expr (Exp Stm IVar IExp Layout XIns Arg R asExpr varInt identity eval lower lowerStm evalBinary prepareAssign evalAssign
  compareCode compareOp arithOp kindOf setValue code)
open Verif.Cfg (V Act Stmt build)

/-- What does not branch: an expression, an assignment, and an assignment whose right side is elsewhere (because it branches). -/
inductive Src
  | pure (e : Exp)
  | stm (s : Stm)
  | hole (i : Nat)
  deriving DecidableEq, Repr

structure Leaf where
  src : Src
  ev : Bool := false
  base : Nat := 0
  deriving DecidableEq, Repr

/-- A value that is not a constant; constants are `Cfg.Expr.imm`. -/
def varying (e : IExp) : Option IExp :=
  match identity e with
  | some (.imm _) => none
  | _ => some e

/-- The value of an assignment to variable `i` is the variable, but a constant if that was assigned, eval.c:1775-1782. -/
def assigned (i : Nat) (t : Ty) (st : List Expr.Stmt) : Option IExp :=
  match st.getLast? with
  | some s => (varying s.e).map fun _ => asExpr (.obj i t)
  | none => none

/-- The statements, the number of the next temporary, and `block->expr` afterwards, if it is not a constant. -/
def lowered (Γ : Nat → Basic) (p : Leaf) : Option (List Expr.Stmt × Nat × Option IExp) :=
  match p.src with
  | .pure e =>
    match lower Γ e p.base with
    | some (e', n, st) =>
      if p.ev then
        match eval e' n with
        | some (v, n', st') => some (st ++ st', n', varying (asExpr v))
        | none => none
      else some (st, n, varying e')
    | none => none
  | .stm s =>
    match lowerStm Γ s p.base with
    | some (_, n, st) =>
      some (st, n, match s with
        | .post _ i => some (asExpr (.tmp p.base (tyOf (Γ i) {})))
        | .assign i _ | .update _ i _ | .pre _ i => assigned i (tyOf (Γ i) {}) st)
    | none => none
  | .hole i => some ([], p.base, some (asExpr (.obj i (tyOf (Γ i) {}))))

/-- The value, if it is not a constant. -/
def Leaf.exp (Γ : Nat → Basic) (p : Leaf) : Option IExp := (lowered Γ p).bind (·.2.2)

/-- `is_comparison`, ir.h:124. -/
def isComparison : IExp → Bool
  | .bin op _ _ _ => (compareOp op).isSome
  | _ => false

/-- The opposite of a comparison, expression.c:330-350. -/
def opposite : IExp → Option IExp
  | .bin .eq t l r => some (.bin .ne t l r)
  | .bin .ne t l r => some (.bin .eq t l r)
  | .bin .ge t l r => some (.bin .gt t r l)
  | .bin .gt t l r => some (.bin .ge t r l)
  | _ => none

/-- What the code depends on: types of variables and how many there are; temporaries of what does not branch are below `nl`, there are
`K` of the other kind, with types `tt`, from `nl` on; those of conversions before an assignment or, in block `i`, from `rb i` on, a
return, follow, and all are below `M`; the type that is returned; and where everything is. -/
structure Ctx where
  Γ : Nat → Basic
  N : Nat
  nl : Nat
  K : Nat
  tt : Nat → Basic
  rb : Nat → Nat
  M : Nat
  tr : Option Basic
  L : Layout

/-- Constants fit their type, variables are below `N`, no cast is to `_Bool` (`Expr.Exp.Ok`). -/
def expOk (N : Nat) : Exp → Bool
  | .const b n => match b.range with
    | some (lo, hi) => decide (lo ≤ n ∧ n ≤ hi)
    | none => false
  | .var i => decide (i < N)
  | .neg e | .compl e | .plus e | .lnot e => expOk N e
  | .cast b e => !b.isFloating && decide (b ≠ .bool) && expOk N e
  | .bin _ l r | .rel _ l r => expOk N l && expOk N r

def Leaf.ok (N : Nat) (p : Leaf) : Bool :=
  match p.src with
  | .pure e => expOk N e
  | .stm (.assign i e) | .stm (.update _ i e) => decide (i < N) && expOk N e
  | .stm (.pre _ i) | .stm (.post _ i) => decide (i < N)
  | .hole i => decide (i < N)

/-- Without conversions. -/
def plain (n : Nat) (r : Option (IExp × Nat × List Expr.Stmt)) : Option IExp :=
  match r with
  | some (e, n', []) => if n' = n then some e else none
  | _ => none

/-- Types that are not promoted. -/
def opTy (t : Ty) : Option Basic := [Basic.int, .uint, .long, .ulong].find? fun b => tyOf b {} = t

/-- The operand of a comparison with a constant. -/
def comparand (e : IExp) : Option (IVar × Basic) :=
  match identity e with
  | some v => (opTy v.ty).map (v, ·)
  | none => none

/-- `block->expr`: `!` is expression.c:330-355, comparison with zero 748-751, with a case constant statement.c:338-345. -/
def vExp (C : Ctx) : V Leaf → Option IExp
  | .imm n => if -2147483648 ≤ n ∧ n ≤ 2147483647 then some (asExpr (varInt n)) else none
  | .rd c neg p =>
    match p.exp C.Γ with
    | some e => if c then if isComparison e then if neg then opposite e else some e else none else some e
    | none => none
  | .tmp k => if k < C.K ∧ (opTy (tyOf (C.tt k) {})).isSome then some (asExpr (.tmp (C.nl + k) (tyOf (C.tt k) {}))) else none
  | .isZero v =>
    match (vExp C v).bind comparand with
    | some (x, _) => plain (C.nl + C.K) (evalBinary .eq (varInt 0) x (C.nl + C.K))
    | none => none
  | .nonZero v =>
    match (vExp C v).bind comparand with
    | some (x, _) => plain (C.nl + C.K) (evalBinary .ne x (varInt 0) (C.nl + C.K))
    | none => none
  | .eqc n v =>
    match (vExp C v).bind comparand with
    | some (x, b) =>
      if -2147483648 ≤ n ∧ n ≤ 2147483647 ∧ (b.isSigned = true ∨ 0 ≤ n) then plain (C.nl + C.K) (evalBinary .eq (varInt n) x (C.nl + C.K)) else none
    | none => none

/-- The code of the statements of a block. -/
def actCode (C : Ctx) : Act Leaf → Option (List XIns)
  | .user _ p =>
    match p.src, lowered C.Γ p with
    | .hole _, _ => none
    | _, some (st, n, _) => if p.ok C.N ∧ n ≤ C.nl then code C.L st else none
    | _, none => none
  | .app p v =>
    match p.src, vExp C v with
    | .hole i, some e =>
      match evalAssign (.obj i (tyOf (C.Γ i) {})) e p.base with
      | some (_, n, st) => if p.ok C.N ∧ C.nl + C.K ≤ p.base ∧ n ≤ C.M ∧ (assigned i (tyOf (C.Γ i) {}) st).isSome then code C.L st else none
      | none => none
    | _, _ => none
  | .set k v =>
    match vExp C v with
    | some e =>
      if k < C.K ∧ (opTy (tyOf (C.tt k) {})).isSome ∧ e.ty = tyOf (C.tt k) {} ∧
          (isComparison e = true ∨ (identity e).isSome = true) then
        code C.L [⟨.tmp (C.nl + k) (tyOf (C.tt k) {}), e⟩]
      else none
    | none => none

/-- `compile_expression`, compile.c:2978-2984: the code and the register with the value. -/
def exprCode (L : Layout) : IExp → Option (List XIns × Nat)
  | .cast t v => do some ((← Arith.loadInt (v.val L) AX (if scalarSize t < 4 then 4 else scalarSize t)).map .a, AX)
  | .not _ v => do some ((← Arith.not none (v.val L)).map .a, AX)
  | .bin op t l r =>
    match arithOp op, compareOp op with
    | some o, _ => do some ((← Arith.binary o none (scalarSize t) (isSigned t) (l.val L) (r.val L)).map .a, o.result)
    | _, some o => do
      let (c, cc) ← compareCode o (l.val L) (r.val L)
      some (c ++ setValue cc, AX)
    | none, none => none

/-- The last instruction of a test, a `CMP`, and the jumps after it. -/
structure Test where
  w : Nat
  d : Arg
  s : Arg
  jumps : List Jump

instance : Linear.Jumps Test := ⟨Test.jumps⟩

/-- The last instruction is a `CMP`. -/
def splitCmp : List XIns → Option (List XIns × Nat × Arg × Arg)
  | [] => none
  | [.cmp w d s] => some ([], w, d, s)
  | i :: r => (splitCmp r).map fun x => (i :: x.1, x.2)

/-- compile.c:3202-3276. -/
def testCode (L : Layout) (e : IExp) : Option (List XIns × Test) :=
  match e with
  | .bin op t l r =>
    match compareOp op with
    | some o => do
      let (c, cc) ← compareCode o (l.val L) (r.val L)
      let (pre, w, d, s) ← splitCmp c
      some (pre, ⟨w, d, s, branches (kindOf (l.val L)) cc⟩)
    | none => truth (.bin op t l r)
  | e => truth e
where
  truth (e : IExp) : Option (List XIns × Test) := do
    let (c, r) ← exprCode L e
    some (c, ⟨scalarSize e.ty, .reg r, .imm 0, truthBranches .signed⟩)

/-- `eval_return`, eval.c:1806-1825, `compile_return`, compile.c:3077-3138, for an integer. -/
def retCode (C : Ctx) (i : Nat) (b : Basic) (e : IExp) : Option (List XIns) :=
  match prepareAssign e (tyOf b {}) (C.rb i) with
  | some (e', n, st) =>
    if b.isFloating = false ∧ b ≠ .bool ∧ C.nl + C.K ≤ C.rb i ∧ n ≤ C.M then
      match code C.L st, exprCode C.L e' with
      | some c, some (c', r) => some (c ++ c' ++ if r = AX then [] else [.a (.conv (.int (.mov (scalarSize (tyOf b {})) AX r)))])
      | _, _ => none
    else none
  | none => none

def codes (C : Ctx) : List (Act Leaf) → Option (List (List XIns))
  | [] => some []
  | a :: r =>
    match actCode C a, codes C r with
    | some c, some cs => some (c :: cs)
    | _, _ => none

def noTest : Test := ⟨4, .imm 0, .imm 0, []⟩

/-- `compile_block`, compile.c:3149-3287, for one block. -/
def blockCode (C : Ctx) (G : Nat → Cfg.Block Leaf) (i : Nat) : Option (Linear.Block (List XIns) Test) :=
  match codes C (G i).acts with
  | none => none
  | some cs =>
    match (G i).j0, (G i).j1 with
    | j0, some t =>
      match (vExp C (G i).expr).bind (testCode C.L) with
      | some (c, x) => some ⟨cs ++ [c], x, j0, some t⟩
      | none => none
    | some f, none => some ⟨cs, noTest, some f, none⟩
    | none, none =>
      if (G i).ret then
        match C.tr, vExp C (G i).expr with
        | some b, some e =>
          match retCode C i b e with
          | some c => some ⟨cs ++ [c], noTest, none, none⟩
          | none => none
        | _, _ => none
      else some ⟨cs, noTest, none, none⟩

/-- Instructions and labels. -/
inductive MIns
  | label (n : Nat)
  | x (i : XIns)
  | jcc (c : CC) (n : Nat)
  | jmp (n : Nat)
  /-- Registers are restored, `LEAVE`, `RET`, compile.c:3181-3190. -/
  | ret
  deriving DecidableEq, Repr

def flat : Linear.Item (List XIns) Test → List MIns
  | .label n => [.label n]
  | .stmt c => c.map .x
  | .test t => [.x (.cmp t.w t.d t.s)]
  | .jcc c n => [.jcc c n]
  | .jmp n => [.jmp n]
  | .ret _ => [.ret]

def blockCodes (C : Ctx) (G : Nat → Cfg.Block Leaf) : Nat → Option (List (Linear.Block (List XIns) Test))
  | 0 => some []
  | n + 1 =>
    match blockCodes C G n, blockCode C G n with
    | some bs, some b => some (bs ++ [b])
    | _, _ => none

/-- What the tree says is right: whether there are statements (`block->count`), and whether the value is a comparison. -/
def exprOk (C : Ctx) : Cfg.Expr Leaf → Bool
  | .imm _ => true
  | .prim eff cmp p => p.ok C.N && isPrim p.src && match lowered C.Γ p with
    | some (st, _, e) => eff == !st.isEmpty && cmp == (e.map isComparison).getD false
    | none => false
  | .app cmp p e => !cmp && p.ok C.N && exprOk C e
  | .not e => exprOk C e
  | .and a b | .or a b | .comma a b => exprOk C a && exprOk C b
  | .cond c a b => exprOk C c && exprOk C a && exprOk C b
where
  isPrim : Src → Bool
    | .hole _ => false
    | _ => true

def optOk (C : Ctx) : Option (Cfg.Expr Leaf) → Bool
  | none => true
  | some e => exprOk C e

def stmtOk (C : Ctx) : Stmt Leaf → Bool
  | .skip | .brk | .cont | .goto _ => true
  | .expr e => exprOk C e
  | .seq s t => stmtOk C s && stmtOk C t
  | .ite c s | .while c s | .doWhile s c | .switch c s => exprOk C c && stmtOk C s
  | .ifElse c s t => exprOk C c && stmtOk C s && stmtOk C t
  | .for i c n s => optOk C i && optOk C c && optOk C n && stmtOk C s
  | .ret e => optOk C e
  | .label _ s | .case _ s | .default s => stmtOk C s

/-- The body of a function. -/
def compileBody (C : Ctx) (body : Stmt Leaf) : Option (List MIns) :=
  if stmtOk C body then
    match build body with
    | none => none
    | some b =>
      match blockCodes C b.blk b.n with
      | none => none
      | some bs => (Linear.compile (fun i => bs.getD i ⟨[], noTest, none, none⟩) (b.n + 1) [] 0).map fun r => r.1.flatMap flat
  else none

end Verif.Flow
