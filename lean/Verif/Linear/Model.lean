import Verif.Compare.Model
import Verif.Cfg.Model

/-!
# From the graph to a line of code (`compile_block`, src/backend/x86_64/compile.c:3149-3287)

`α` is the type of statements and `τ` the type of tests.  For C74 `M` is the state of the program, `F` the floating point
values, a statement is a function on states (what the code of `compile_statement` does is the subject of other properties) and
the test at the end of a block is a comparison of two operands or a scalar compared with zero, with the jumps of
`Compare.branches` and `Compare.truthBranches`.  For C89 statements and tests are instructions.  Blocks are numbers;
`block->color` is a list of the black ones.  The code for a return (`compile_return`, the restoring of registers, `leave`, `ret`)
is one item.
-/

namespace Verif.Linear

open Verif.Compare

/-- `block->expr` of a block with two successors: a comparison (`is_comparison`) of integers of `w` bits or floating point
numbers, or any other scalar. -/
inductive Test (M F : Type)
  | int (w : Nat) (k : Kind) (op : Op) (lf rf : Form) (l r : M → BitVec w)
  | intTruth (w : Nat) (k : Kind) (v : M → BitVec w)
  | real (k : Kind) (op : Op) (l r : M → F)
  | realTruth (k : Kind) (v : M → F)

/-- compile.c:3202-3276: the jumps chosen for a test. -/
class Jumps (τ : Type) where
  jumps : τ → List Jump

/-- `struct block`, ir.h:164-209. -/
structure Block (α τ : Type) where
  stmts : List α
  test : τ
  j0 : Option Nat
  j1 : Option Nat

/-- What is emitted: a label (`enter_context(block->label)`), the code of a statement, of a test, jumps, and a return from
block `b`. -/
inductive Item (α τ : Type)
  | label (n : Nat)
  | stmt (f : α)
  | test (t : τ)
  | jcc (c : CC) (n : Nat)
  | jmp (n : Nat)
  | ret (b : Nat)

variable {M F α τ : Type}

/-- compile.c:3202-3276: the jumps chosen for the test. -/
def Test.jumps : Test M F → List Jump
  | .int w k op lf rf _ _ => branches k (intCompare k op (w == 64) lf rf).2
  | .intTruth _ k _ => truthBranches k
  | .real k op _ _ => branches k (codeOf k op)
  | .realTruth k _ => truthBranches k

instance : Jumps (Test M F) := ⟨Test.jumps⟩

/-- `br0` and `br1`, compile.c:3200-3201. -/
def place (x y : Nat) : Jump → Item α τ
  | .jcc c t => .jcc c (if t then y else x)
  | .jmp t => .jmp (if t then y else x)

/-- The label and the statements of a block, compile.c:3167-3171. -/
def head (G : Nat → Block α τ) (b : Nat) : List (Item α τ) := .label b :: (G b).stmts.map .stmt

/-- `compile_block`, compile.c:3149-3287: the code emitted and the blocks that are black afterwards.  The first argument bounds
the depth of the recursion; `none` is also `assert(block->jump[0])`, 3197. -/
def compile [Jumps τ] (G : Nat → Block α τ) : Nat → List Nat → Nat → Option (List (Item α τ) × List Nat)
  | 0, _, _ => none
  | fuel + 1, black, b =>
    if b ∈ black then some ([], black)
    else
      match (G b).j0, (G b).j1 with
      | none, none => some (head G b ++ [.ret b], b :: black)
      | some x, none =>
        if x ∈ b :: black then some (head G b ++ [.jmp x], b :: black)
        else (compile G fuel (b :: black) x).map fun r => (head G b ++ r.1, r.2)
      | some x, some y =>
        (if y ∈ b :: black then some ([.jmp y], b :: black) else compile G fuel (b :: black) y).bind fun r =>
          (compile G fuel r.2 x).map fun s =>
            (head G b ++ (.test (G b).test :: (Jumps.jumps (G b).test).map (place x y)) ++ (r.1 ++ s.1), s.2)
      | none, some _ => none

/-- The graph built by the parser, with a test for every block that branches. -/
def ofCfg {σ : Type} [Cfg.Prim σ] (G : Nat → Cfg.Block σ) (T : Nat → Test (Cfg.Mem σ) F) (i : Nat) : Block (Cfg.Mem σ → Cfg.Mem σ) (Test (Cfg.Mem σ) F) :=
  { stmts := (G i).acts.map Cfg.Act.run
    test := T i
    j0 := (G i).j0
    j1 := (G i).j1 }

end Verif.Linear
