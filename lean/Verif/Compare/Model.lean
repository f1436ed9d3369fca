import Verif.Tac

/-!
# Comparisons: from the source operators to flags and jumps

`src/parser/expression.c` (relational and equality operators, `!`), `src/backend/x86_64/compile.c` (`compile_compare`,
`set_compare_value`, the branches of `compile_block`).  Loading of operands (`load_cast`, `location_of`, `value_of`) is
assumed to deliver the operand's value; what is modelled is which operator, which operand order, which condition code and which
jumps are chosen, and the x87 register stack.
-/

namespace Verif.Compare

/-- `IR_OP_EQ`, `IR_OP_NE`, `IR_OP_GE`, `IR_OP_GT`. -/
inductive Op
  | eq | ne | ge | gt
  deriving DecidableEq, Repr

/-- Source operators. -/
inductive Rel
  | lt | le | gt | ge | eq | ne
  deriving DecidableEq, Repr

/-- A comparison, `struct expression` with `op`, `l`, `r`. -/
structure Cmp (α : Type) where
  op : Op
  l : α
  r : α
  deriving DecidableEq

/-- `relational_expression`, expression.c:610-652, `equality_expression`, 654-681, for operands that are not both constant. -/
def lower {α : Type} : Rel → α → α → Cmp α
  | .lt, a, b => ⟨.gt, b, a⟩
  | .gt, a, b => ⟨.gt, a, b⟩
  | .le, a, b => ⟨.ge, b, a⟩
  | .ge, a, b => ⟨.ge, a, b⟩
  | .eq, a, b => ⟨.eq, a, b⟩
  | .ne, a, b => ⟨.ne, a, b⟩

/-- `!` applied to a comparison, expression.c:332-350. -/
def negate {α : Type} (c : Cmp α) : Cmp α :=
  match c.op with
  | .eq => ⟨.ne, c.l, c.r⟩
  | .ne => ⟨.eq, c.l, c.r⟩
  | .ge => ⟨.gt, c.r, c.l⟩
  | .gt => ⟨.ge, c.r, c.l⟩

/-! The backend. -/

/-- `enum tttn`, encoding.h:191-208 (those used for comparisons). -/
inductive CC
  | nae | ae | e | ne | na | a | p | np | nge | ge | ng | g
  deriving DecidableEq, Repr

/-- `is_unsigned`, `is_real` without and with `is_long_double`; `signed` is the rest. -/
inductive Kind
  | signed | unsigned | sse | x87
  deriving DecidableEq, Repr

def Kind.isReal : Kind → Bool
  | .sse | .x87 => true
  | _ => false

/-- Where an operand is: constant; DIRECT, not through the global offset table and not a bit-field (with a register allocated or
not); anything else. -/
inductive Form
  | imm
  | direct (inReg : Bool)
  | other
  deriving DecidableEq, Repr

inductive Side
  | l | r
  deriving DecidableEq, Repr

/-- The first switch of `compile_compare`, compile.c:2228-2247. -/
def codeOf (k : Kind) : Op → CC
  | .eq => .e
  | .ne => .ne
  | .ge => match k with | .signed => .ge | _ => .ae
  | .gt => match k with | .signed => .g | _ => .a

/-- The switch for a constant on the left, compile.c:2281-2295. -/
def swapCC : CC → CC
  | .ae => .na
  | .ge => .ng
  | .a => .nae
  | .g => .nge
  | c => c

/-- The integer part of `compile_compare`, compile.c:2264-2340: `CMP` with destination `dst` and source `src`; `wide` is
`w == 8`. -/
structure CmpIns where
  dst : Side
  src : Side
  deriving DecidableEq, Repr

def intCompare (k : Kind) (op : Op) (wide : Bool) (l r : Form) : CmpIns × CC :=
  let cc := codeOf k op
  if l = .imm ∧ wide = false then
    match r with
    | .direct true => (⟨.r, .l⟩, swapCC cc)
    | .direct false => (⟨.r, .l⟩, swapCC cc)
    | _ => (⟨.r, .l⟩, swapCC cc)
  else if r = .imm ∧ wide = false then
    match l with
    | .direct true => (⟨.l, .r⟩, cc)
    | .direct false => (⟨.l, .r⟩, cc)
    | _ => (⟨.l, .r⟩, cc)
  else
    match l with
    | .direct true => (⟨.l, .r⟩, cc)
    | .direct false => (⟨.l, .r⟩, cc)
    | _ =>
      match r with
      | .direct true => (⟨.l, .r⟩, cc)
      | .direct false => (⟨.l, .r⟩, cc)
      | _ => (⟨.l, .r⟩, cc)

/-- `UCOMIS` in `compile_compare`, compile.c:2261: source `xmm1`, destination `xmm0`. -/
def sseCompare (op : Op) : CmpIns × CC := (⟨.l, .r⟩, codeOf .sse op)

/-- x87 instructions; `ld` pushes an operand, the others name a register `ST0 + i` of `enum reg`. -/
inductive XIns
  | ld (s : Side)
  | ldz
  | fxch (i : Nat)
  | fucomip (i : Nat)
  | fstp (i : Nat)
  deriving DecidableEq, Repr

/-- compile.c:2250-2259: operands are in ST0 (left) and ST1 (right), numbered from the bottom. -/
def x87Compare (op : Op) : List XIns × CC :=
  ([.ld .l, .ld .r] ++ (if op = .ge ∨ op = .gt then [.fxch 0] else []) ++ [.fucomip 0, .fstp 1], codeOf .x87 op)

/-- compile.c:3253-3259: `FLDZ`, comparison with ST0. -/
def x87Truth : List XIns := [.ld .l, .ldz, .fucomip 0, .fstp 0]

/-- Jumps at the end of a block; `true` is `br1`, taken when the condition holds. -/
inductive Jump
  | jcc (c : CC) (t : Bool)
  | jmp (t : Bool)
  deriving DecidableEq, Repr

/-- compile.c:3204-3246; then block `jump[1]` follows, or a jump to it. -/
def branches (k : Kind) : CC → List Jump
  | .e => if k.isReal then [.jcc .ne false, .jcc .p false, .jmp true] else [.jcc .ne false]
  | .ne => if k.isReal then [.jcc .ne true, .jcc .p true, .jmp false] else [.jcc .e false]
  | .g => [.jcc .ng false]
  | .ng => [.jcc .g false]
  | .a => [.jcc .na false]
  | .na => [.jcc .a false]
  | .ge => [.jcc .nge false]
  | .nge => [.jcc .ge false]
  | .ae => [.jcc .nae false]
  | .nae => [.jcc .ae false]
  | .p | .np => []  -- assert(0), not reached

/-- The branch on something that is not a comparison, compile.c:3247-3276. -/
def truthBranches (k : Kind) : List Jump :=
  if k.isReal then [.jcc .ne true, .jcc .p true, .jmp false] else [.jcc .e false]

/-- `set_compare_value`, compile.c:2778-2794: `SETcc` to AL, and a second one to CL combined with AND or OR. -/
inductive SetCC
  | one (c : CC)
  | and (c d : CC)
  | or (c d : CC)
  deriving DecidableEq, Repr

def setValue (k : Kind) (c : CC) : SetCC :=
  if k.isReal then
    match c with
    | .e => .and .e .np
    | .ne => .or .ne .p
    | c => .one c
  else .one c

end Verif.Compare
