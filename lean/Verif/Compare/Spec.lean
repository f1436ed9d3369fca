import Verif.Compare.Model

/-!
# What C and the processor say about comparisons
-/

namespace Verif.Compare

/-! C: the outcome of comparing two values is an order, or unordered (`none`) when one is a NaN. -/

/-- C11 6.5.8, 6.5.9, and F.9.3 for NaN. -/
def Rel.holds : Rel → Option Ordering → Bool
  | .lt, c => c == some .lt
  | .le, c => c == some .lt || c == some .eq
  | .gt, c => c == some .gt
  | .ge, c => c == some .gt || c == some .eq
  | .eq, c => c == some .eq
  | .ne, c => !(c == some .eq)

/-- The meaning of the IR operators, ir.h:98-102. -/
def Op.holds : Op → Option Ordering → Bool
  | .eq, c => c == some .eq
  | .ne, c => !(c == some .eq)
  | .ge, c => c == some .gt || c == some .eq
  | .gt, c => c == some .gt

/-- A type of values with comparison. -/
structure Order (α : Type) where
  cmp : α → α → Option Ordering
  swap : ∀ a b, cmp b a = (cmp a b).map Ordering.swap

def Cmp.holds {α : Type} (o : Order α) (c : Cmp α) : Bool := c.op.holds (o.cmp c.l c.r)

/-- Signed and unsigned integers of `w` bits. -/
def intCmp {w : Nat} (signed : Bool) (a b : BitVec w) : Ordering := if signed then compare a.toInt b.toInt else compare a.toNat b.toNat

/-! The processor (Intel SDM vol. 1 B.1, vol. 2 CMP, UCOMISS, FUCOMIP). -/

structure Flags where
  zf : Bool
  pf : Bool
  cf : Bool
  sf : Bool
  of : Bool

def CC.eval : CC → Flags → Bool
  | .nae, f => f.cf
  | .ae, f => !f.cf
  | .e, f => f.zf
  | .ne, f => !f.zf
  | .na, f => f.cf || f.zf
  | .a, f => !f.cf && !f.zf
  | .p, f => f.pf
  | .np, f => !f.pf
  | .nge, f => f.sf != f.of
  | .ge, f => f.sf == f.of
  | .ng, f => f.zf || (f.sf != f.of)
  | .g, f => !f.zf && (f.sf == f.of)

/-- `CMP dst, src` computes `dst - src`; the parity flag `pf` does not matter. -/
def cmpFlags {w : Nat} (dst src : BitVec w) (pf : Bool) : Flags :=
  { zf := dst - src == 0
    pf := pf
    cf := BitVec.usubOverflow dst src
    sf := (dst - src).msb
    of := BitVec.ssubOverflow dst src }

/-- `UCOMISD dst, src`, `FUCOMIP`: result of comparing `dst` with `src`. -/
def ucomisFlags : Option Ordering → Flags
  | none => ⟨true, true, true, false, false⟩
  | some .gt => ⟨false, false, false, false, false⟩
  | some .lt => ⟨false, false, true, false, false⟩
  | some .eq => ⟨true, false, false, false, false⟩

/-- Jumps in order; past the last one comes the block for "true". -/
def runJumps (f : Flags) : List Jump → Bool
  | [] => true
  | .jcc c t :: r => if c.eval f then t else runJumps f r
  | .jmp t :: _ => t

def SetCC.eval (f : Flags) : SetCC → Bool
  | .one c => c.eval f
  | .and c d => c.eval f && d.eval f
  | .or c d => c.eval f || d.eval f

def pick {α : Type} (a b : α) : Side → α
  | .l => a
  | .r => b

/-! The x87 register stack: `ST(i)` is entry `i`, `none` when tagged empty. -/

abbrev Stack (α : Type) := Nat → Option α

def empty {α : Type} : Stack α := fun _ => none

def push {α : Type} (x : α) (s : Stack α) : Option (Stack α) :=
  if (s 7).isNone then some (fun i => if i = 0 then some x else if i < 8 then s (i - 1) else none) else none

def pop {α : Type} (s : Stack α) : Stack α := fun i => if i < 7 then s (i + 1) else none

def swapTop {α : Type} (i : Nat) (s : Stack α) : Stack α := fun j => if j = 0 then s i else if j = i then s 0 else s j

/-- One instruction; `at_` says which `ST(i)` a register of `enum reg` denotes.  `none`: stack fault. -/
def xstep {α : Type} (o : Order α) (zero a b : α) (at_ : Nat → Nat) : XIns → Stack α × Option Flags → Option (Stack α × Option Flags)
  | .ld s, (st, f) => (push (pick a b s) st).map (·, f)
  | .ldz, (st, f) => (push zero st).map (·, f)
  | .fxch i, (st, f) => if (st 0).isSome ∧ (st (at_ i)).isSome then some (swapTop (at_ i) st, f) else none
  | .fucomip i, (st, _) =>
    match st 0, st (at_ i) with
    | some x, some y => some (pop st, some (ucomisFlags (o.cmp x y)))
    | _, _ => none
  | .fstp i, (st, f) =>
    match st 0 with
    | some x => some (pop fun j => if j = at_ i then some x else st j, f)
    | none => none

def xrun {α : Type} (o : Order α) (zero a b : α) (at_ : Nat → Nat) : List XIns → Stack α × Option Flags → Option (Stack α × Option Flags)
  | [], s => some s
  | i :: r, s => (xstep o zero a b at_ i s).bind (xrun o zero a b at_ r)

/-- The register named in assembly text: `x87_stack_pos`, compile.c:74-81, with two values on the stack. -/
def textPos (i : Nat) : Nat := (2 - 1) - i

/-- The register in object code: `reg3(ST0 + i)`, encoding.c:14, 720; `ST0` is 34 in `enum reg`, encoding.h:12-49. -/
def codePos (i : Nat) : Nat := (34 + i - 1) % 8

end Verif.Compare
